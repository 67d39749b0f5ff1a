/-
Python primitives used by the model: exceptions as values, sequence indexing with
negative indices, slices, and `max` with a key function.
-/
import Mathlib.Data.Finset.Sort
import Mathlib.Data.List.Sort
import Mathlib.Data.Int.Order.Basic
import Mathlib.Order.Defs.LinearOrder
import Mathlib.Data.Rat.Cast.Defs
import Mathlib.Algebra.BigOperators.Group.List.Basic
import Mathlib.Tactic

namespace Verif

/-- The Python exceptions the modelled code can raise.
`noMoreSamples` and `insufficientCandidates` are `corset/exceptions.py:1-6`;
`exception` is a plain `raise Exception(...)`. -/
inductive PyErr
  | assertionError
  | indexError
  | valueError
  | zeroDivisionError
  | typeError
  | keyError
  | attributeError
  | unboundLocalError
  | exception
  | recursionError
  | noMoreSamples
  | insufficientCandidates
  | overflowError
  | nameError
  | runtimeError
  | notImplementedError
  deriving DecidableEq, Repr

/-- A Python computation that either returns or raises. -/
abbrev Py (α : Type) := Except PyErr α

/-- Python's normalisation of a sequence index: `i` counts from the end when negative;
`none` stands for `IndexError`. -/
def pyIndex (len : ℕ) (i : ℤ) : Option ℕ :=
  if 0 ≤ i then
    if i < len then some i.toNat else none
  else
    if 0 ≤ (len : ℤ) + i then some ((len : ℤ) + i).toNat else none

/-- `xs[i]` in Python. -/
def pyGet {α : Type} (xs : List α) (i : ℤ) : Py α :=
  match (pyIndex xs.length i).bind (fun k => xs[k]?) with
  | some x => .ok x
  | none => .error .indexError

/-- `xs[a:b]` in Python for non-negative bounds. -/
def pySlice {α : Type} (xs : List α) (a b : ℕ) : List α :=
  (xs.drop a).take (b - a)

/-- The loop inside Python's `max(iterable, key=key)`: the running best is replaced only by a
strictly larger key. -/
def pyMaxLoop {α κ : Type} [LinearOrder κ] (key : α → Py κ) : List α → α → κ → Py α
  | [], best, _ => .ok best
  | x :: xs, best, k => do
    let kx ← key x
    if k < kx then pyMaxLoop key xs x kx else pyMaxLoop key xs best k

/-- Python's `max(iterable, key=key)`; `ValueError` on an empty iterable. -/
def pyMax {α κ : Type} [LinearOrder κ] (key : α → Py κ) : List α → Py α
  | [] => .error .valueError
  | x :: xs => do
    let kx ← key x
    pyMaxLoop key xs x kx

/-- True division of two Python integers. -/
def pyDiv (a b : ℤ) : Py ℚ :=
  if b = 0 then .error .zeroDivisionError else .ok ((a : ℚ) / (b : ℚ))

end Verif
