/-
`GreedyAreaSampler` (`corset/samplers/greedy_area.py:56-148`) in double precision, with overflow.

`Model/GreedyArea.lean` computes the row weights, which are multiples of powers of two, with exact numbers. Here they
are doubles: `2 ** float(n)` raises `OverflowError` from `n = 1024` on, a product or a sum that is too large is infinite.

Simplifications: there is no underflow; the integer weights of the sizes, which Python adds exactly, are doubles too
(exact up to `2⁵³`).
-/
import Verif.Model.FloatBoley
import Verif.Model.GreedyArea

namespace Verif

namespace Dbl

/-- `x < y`. -/
def Lt : Dbl → Dbl → Prop
  | num x, num y => x < y
  | num _, inf => True
  | _, _ => False

/-- `x <= 0.0`. -/
def LeZero : Dbl → Prop
  | num x => x ≤ 0
  | _ => False

/-- `math.isfinite(x)`. -/
def Finite : Dbl → Prop
  | num _ => True
  | _ => False

/-- `itertools.accumulate` after the first element. -/
noncomputable def accumulateFrom : Dbl → List Dbl → List Dbl
  | _, [] => []
  | a, x :: xs => add a x :: accumulateFrom (add a x) xs

/-- `list(itertools.accumulate(ws))`. -/
noncomputable def accumulate : List Dbl → List Dbl
  | [] => []
  | x :: xs => x :: accumulateFrom x xs

open Classical in
/-- `bisect.bisect(a, x, lo, hi)`. -/
noncomputable def bisect (a : List Dbl) (x : Dbl) (lo hi : ℕ) : ℕ :=
  if lo < hi then
    if Lt x (a.getD (lo + (hi - lo) / 2) nan) then bisect a x lo (lo + (hi - lo) / 2)
    else bisect a x (lo + (hi - lo) / 2 + 1) hi
  else lo
termination_by hi - lo

open Classical in
/-- `random.choices(range(len(ws)), weights=ws, k=1)[0]` when `random.random()` gives `k / 2⁵³`. From Python 3.9 on
(`strict`) a total that is not positive raises `ValueError`, from 3.10 on (`finite`) one that is not finite too. -/
noncomputable def choices (strict finite : Bool) (ws : List Dbl) (k : ℕ) : Py ℕ :=
  match (accumulate ws).getLast? with
  | none => .error .indexError
  | some total =>
    if strict = true ∧ total.LeZero then .error .valueError
    else if finite = true ∧ ¬ total.Finite then .error .valueError
    else .ok (bisect (accumulate ws) (mul (num ((k : ℝ) / 2 ^ 53)) total) 0 (ws.length - 1))

end Dbl

namespace GreedyArea

/-- One weight of `compute_weights`, `corset/samplers/greedy_area.py:88-96`, in doubles. -/
noncomputable def tailWeightD (row : List ℤ) : Py Dbl :=
  if 1024 ≤ row.sum - 1 then .error .overflowError
  else .ok (Dbl.round (((ones row).length : ℝ) * (2 : ℝ) ^ (row.sum - 1)))

/-- A fitted `GreedyAreaSampler` with its weights in doubles. -/
structure FittedD where
  Y : List (List ℤ)
  freqs : Freqs
  weights : List Dbl

/-- `GreedyAreaSampler.fit`, `corset/samplers/greedy_area.py:62-96`, in doubles. -/
noncomputable def fitD (order : Finset ℕ → List ℕ) (X Y : List (List ℤ)) : Py FittedD := do
  let f ← computeFrequencies order X Y
  let ws ← Y.mapM tailWeightD
  return { Y := Y, freqs := f, weights := ws }

/-- `GreedyAreaSampler.sample_once`, `corset/samplers/greedy_area.py:98-148`, when `random.random()` gives `k₁ / 2⁵³` for
the row and `k₂ / 2⁵³` for the size. The first label is drawn with random bits, exactly uniformly. -/
noncomputable def sampleOnceD (strict finite : Bool) (order : Finset ℕ → List ℕ) (s : FittedD) (k₁ k₂ : ℕ) :
    Rand (Option (Finset ℕ)) := do
  let i ← Rand.lift (Dbl.choices strict finite s.weights k₁)
  let row ← Rand.lift (pyGet s.Y i)
  if ones row = [] then return none
  else do
    let k ← Rand.lift (Dbl.choices strict finite ((List.range (ones row).length).map fun j : ℕ => .num j) k₂)
    let j ← uniformIdx (ones row).length
    let first ← Rand.lift (pyGet (ones row) j)
    let T ← Rand.lift (grow s.freqs.label.read order k {first} ((ones row).toFinset.erase first))
    return some T

end GreedyArea
end Verif
