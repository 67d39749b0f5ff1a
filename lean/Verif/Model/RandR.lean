/-
Random programs that also draw real numbers. As `Rand`, with real probabilities and a constructor for
`numpy.random.uniform(0, 1)`.

Simplification: the pseudo-random generator is replaced by exact draws; a double from `[0, 1)` becomes
a real number with the uniform distribution on the unit interval.
-/
import Verif.Py
import Mathlib.MeasureTheory.Integral.IntervalIntegral.Basic

namespace Verif

/-- A random program returning `α` or raising. -/
inductive RandR (α : Type) : Type
  | done (r : Py α) : RandR α
  | choice (p : List ℝ) (k : ℕ → RandR α) : RandR α
  | unif (k : ℝ → RandR α) : RandR α

namespace RandR

/-- Sequential composition; an exception ends the program. -/
def bind {α β : Type} : RandR α → (α → RandR β) → RandR β
  | done (.ok a), f => f a
  | done (.error e), _ => done (.error e)
  | choice p k, f => choice p fun i => (k i).bind f
  | unif k, f => unif fun u => (k u).bind f

instance : Monad RandR where
  pure a := done (.ok a)
  bind := bind

/-- `raise e`. -/
def raise {α : Type} (e : PyErr) : RandR α := done (.error e)

/-- A deterministic computation inside a random program. -/
def lift {α : Type} (r : Py α) : RandR α := done r

/-- The result `r` can occur: every discrete draw leading to it has positive probability, every uniform
draw is a number in `[0, 1)`. -/
def Outcome {α : Type} : RandR α → Py α → Prop
  | done r, x => x = r
  | choice p k, x => ∃ i, ∃ h : i < p.length, 0 < p[i] ∧ (k i).Outcome x
  | unif k, x => ∃ u : ℝ, 0 ≤ u ∧ u < 1 ∧ (k u).Outcome x

/-- Expected value of a quantity of the result. -/
noncomputable def expect {α : Type} (f : Py α → ℝ) : RandR α → ℝ
  | done r => f r
  | choice p k => ∑ i : Fin p.length, p[i] * (k i).expect f
  | unif k => ∫ u in (0 : ℝ)..1, (k u).expect f

open Classical in
/-- Probability that the program ends with the given result. -/
noncomputable def prob {α : Type} (m : RandR α) (r : Py α) : ℝ :=
  m.expect fun x => if x = r then 1 else 0

end RandR

/-- One element of `numpy.random.choice(numpy.arange(len(p)), p=p)`; `ValueError` if `p` is empty, has a
negative entry or does not sum to one. -/
noncomputable def npChoiceR (p : List ℝ) : RandR ℕ :=
  open Classical in
  if p ≠ [] ∧ (∀ q ∈ p, 0 ≤ q) ∧ p.sum = 1 then .choice p fun i => .done (.ok i)
  else .raise .valueError

/-- `random.choice` on `n` items; `IndexError` when there is nothing to draw from. -/
noncomputable def pyChoiceIdx (n : ℕ) : RandR ℕ :=
  if n = 0 then .raise .indexError else .choice (List.replicate n (1 / (n : ℝ))) fun i => .done (.ok i)

/-- `numpy.random.uniform(0, 1, n)`. -/
def drawUniforms : ℕ → RandR (List ℝ)
  | 0 => pure []
  | n + 1 => do
    let u ← RandR.unif fun u => pure u
    let us ← drawUniforms n
    return u :: us

/-- `numpy.random.choice(items, size=n, p=p)`: independent draws with replacement. -/
noncomputable def drawChoices (items : List ℕ) (p : List ℝ) : ℕ → RandR (List ℕ)
  | 0 => pure []
  | n + 1 => do
    let i ← npChoiceR p
    let xs ← drawChoices items p n
    return items.getD i 0 :: xs

end Verif
