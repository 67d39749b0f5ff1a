/-
Double-precision arithmetic, and the tail sampler computed in it.

The rest of the model computes with exact numbers. This file models the weighted draws of
`corset/samplers/uncovered_area.py` and `corset/samplers/surs.py` in IEEE 754 binary64 arithmetic as Python and
numpy 1.23.5 (the version pinned in `requirements.txt`) carry it out: every operation rounds to the nearest
double, ties to even, and a uniform variate is a multiple of 2⁻⁵³.

Simplification: the range of exponents is unbounded, so there is no overflow and no underflow. All numbers of
the sampler lie between 2⁻⁵³ and 2⁵⁴ or are rounding errors of such numbers, or zero.
-/
import Verif.Model.Uncovered
import Mathlib.Data.Real.Basic
import Mathlib.Data.Real.Archimedean
import Mathlib.Data.Int.Log
import Mathlib.Algebra.Order.Round

namespace Verif

/-- Nearest integer, ties to even. -/
noncomputable def roundEven (x : ℝ) : ℤ :=
  if Int.fract x < 1 / 2 then ⌊x⌋
  else if 1 / 2 < Int.fract x then ⌊x⌋ + 1
  else if Even ⌊x⌋ then ⌊x⌋ else ⌊x⌋ + 1

/-- The double nearest to a real number: 53 significant bits. -/
noncomputable def fl (x : ℝ) : ℝ :=
  if x = 0 then 0 else roundEven (x / 2 ^ (Int.log 2 |x| - 52)) * 2 ^ (Int.log 2 |x| - 52)

/-- An order of additions. -/
inductive FTree where
  | leaf (x : ℝ)
  | node (a b : FTree)

/-- The summands. -/
def FTree.leaves : FTree → List ℝ
  | .leaf x => [x]
  | .node a b => a.leaves ++ b.leaves

/-- The sum, each addition rounded. -/
noncomputable def FTree.eval : FTree → ℝ
  | .leaf x => x
  | .node a b => fl (a.eval + b.eval)

/-- `numpy.sum` adds pairwise, in blocks, with several accumulators; the model leaves open in which order. -/
structure Summation where
  tree : List ℝ → FTree
  leaves : ∀ l, l ≠ [] → (tree l).leaves.Perm l

/-- `numpy.sum`. -/
noncomputable def Summation.sum (S : Summation) (l : List ℝ) : ℝ := if l = [] then 0 else (S.tree l).eval

/-- The loop of `kahan_sum` in `numpy/random/mtrand.pyx`; `s` is the sum so far, `c` the compensation. -/
noncomputable def kahanLoop : ℝ → ℝ → List ℝ → ℝ
  | s, _, [] => s
  | s, c, x :: xs =>
    kahanLoop (fl (s + fl (x - c))) (fl (fl (fl (s + fl (x - c)) - s) - fl (x - c))) xs

/-- `kahan_sum` in `numpy/random/mtrand.pyx`. -/
noncomputable def kahanSum : List ℝ → ℝ
  | [] => 0
  | x :: xs => kahanLoop x 0 xs

/-- `numpy.cumsum` after a first element. -/
noncomputable def cumsumFrom : ℝ → List ℝ → List ℝ
  | _, [] => []
  | a, x :: xs => fl (a + x) :: cumsumFrom (fl (a + x)) xs

/-- `numpy.cumsum`: running sums from the left. -/
noncomputable def cumsumF : List ℝ → List ℝ
  | [] => []
  | x :: xs => x :: cumsumFrom x xs

/-- `cdf = p.cumsum(); cdf /= cdf[-1]`. -/
noncomputable def cdfF (p : List ℝ) : List ℝ := (cumsumF p).map fun c => fl (c / (cumsumF p).getLastD 0)

open Classical in
/-- `numpy.searchsorted(a, u, side='right')` for one key: the binary search of `npy_binsearch`. -/
noncomputable def searchRight (a : List ℝ) (u : ℝ) (lo hi : ℕ) : ℕ :=
  if lo < hi then
    if a.getD (lo + (hi - lo) / 2) 0 ≤ u then searchRight a u (lo + (hi - lo) / 2 + 1) hi
    else searchRight a u lo (lo + (hi - lo) / 2)
  else lo
termination_by hi - lo

open Classical in
/-- `numpy.random.choice(len(p), p=p)` (`RandomState.choice` in `numpy/random/mtrand.pyx`) when the generator's next
53 bits are `k`: the checks of the probabilities, with a tolerance of the square root of the machine epsilon 2⁻⁵²,
then the search for the variate `k / 2⁵³` in the cumulated probabilities. -/
noncomputable def choiceF (p : List ℝ) (k : ℕ) : Py ℕ :=
  if p = [] then .error .valueError
  else if ∃ q ∈ p, q < 0 then .error .valueError
  else if (2 : ℝ) ^ (-26 : ℤ) < |fl (kahanSum p - 1)| then .error .valueError
  else .ok (searchRight (cdfF p) (k / 2 ^ 53) 0 p.length)

/-- `weights / weights.sum()` on an array of floats that hold integers. -/
noncomputable def normF (S : Summation) (ws : List ℤ) : List ℝ :=
  ws.map fun w : ℤ => fl ((w : ℝ) / S.sum (ws.map fun w : ℤ => (w : ℝ)))

open Classical in
/-- `_update_row_probas`, `corset/samplers/uncovered_area.py:69-76`. -/
noncomputable def rowProbasF (S : Summation) (ws : List ℤ) : List ℝ :=
  if S.sum (ws.map fun w : ℤ => (w : ℝ)) = 0 then List.replicate ws.length (fl (1 / (ws.length : ℝ)))
  else normF S ws

/-- `numpy.allclose(a, b)` on two scalars with the default tolerances: `|a - b| <= 1e-08 + 1e-05 * |b|`. -/
def allcloseF (a b : ℝ) : Prop := |fl (a - b)| ≤ fl (fl (1 / 10 ^ 8) + fl (fl (1 / 10 ^ 5) * |b|))

open Classical in
/-- `_sample_itemset_from_row`, `corset/samplers/uncovered_area.py:78-117`, in doubles. -/
noncomputable def sampleItemsetF (S : Summation) (st : UState) (row k : ℕ) : Py (Finset ℤ) :=
  if ¬ allcloseF (S.sum ((sampleWeights st row).map fun w : ℤ => (w : ℝ))) (st.weights.getD row 0 : ℤ) then
    .error .exception
  else if S.sum ((sampleWeights st row).map fun w : ℤ => (w : ℝ)) = 0 then .error .noMoreSamples
  else do
    let idx ← choiceF (normF S (sampleWeights st row)) k
    return sampleAt st.space ((st.newRows.getD row []).getD idx 0)

/-- `ReducedSpaceSampler.sample_once`, `corset/samplers/surs.py:36-42`, in doubles, when the generator's next two
variates are `k₁ / 2⁵³` and `k₂ / 2⁵³`. -/
noncomputable def sampleOnceF (S : Summation) (st : UState) (k₁ k₂ : ℕ) : Py (Finset ℤ) := do
  let row ← choiceF (rowProbasF S st.weights) k₁
  sampleItemsetF S st row k₂

end Verif
