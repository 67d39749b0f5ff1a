/-
Specification vocabulary for the greedy tail sampler.
-/
import Verif.Model.GreedyArea
import Verif.Spec.Trie

namespace Verif

namespace GreedyArea

/-- The cell in row `i` and column `j` is 1. -/
def IsOne (M : List (List ℤ)) (i j : ℕ) : Prop := ∃ row, M[i]? = some row ∧ row[j]? = some 1

/-- Every cell is 0 or 1. -/
def ZeroOne (M : List (List ℤ)) : Prop := ∀ row ∈ M, ∀ v ∈ row, v = 0 ∨ v = 1

open Classical in
/-- The number of the first `n` rows with a 1 in column `a` of `A` and in column `b` of `B`. -/
noncomputable def together (n : ℕ) (A B : List (List ℤ)) (a b : ℕ) : ℕ :=
  ((Finset.range n).filter fun i => IsOne A i a ∧ IsOne B i b).card

open Classical in
/-- The labels of row `i`. -/
noncomputable def labelsOf (Y : List (List ℤ)) (i : ℕ) : Finset ℕ :=
  (Finset.range ((Y.getD i []).length)).filter fun l => IsOne Y i l

/-- `e` is at least as well linked to the elements of `T` as `e'`: the smallest number of rows that it shares
with one of them is at least as large. -/
def LinkedAtLeast (co : ℕ → ℕ → ℕ) (T : Finset ℕ) (e e' : ℕ) : Prop :=
  ∀ c, (∀ t ∈ T, c ≤ co e' t) → ∀ t ∈ T, c ≤ co e t

/-- The labels in the order in which a greedy run through `L` adds them: no repetition, and each one after
the first is at least as well linked to its predecessors as any label not yet added. -/
structure GreedyRun (co : ℕ → ℕ → ℕ) (L : Finset ℕ) (run : List ℕ) : Prop where
  nodup : run.Nodup
  inside : ∀ e ∈ run, e ∈ L
  best : ∀ k (h : k < run.length), 0 < k → ∀ e ∈ L, e ∉ run.take k →
    LinkedAtLeast co (run.take k).toFinset run[k] e

/-- The area weight of row `i`: number of labels times the number of label sets that contain a given one. -/
noncomputable def areaWeight (Y : List (List ℤ)) (i : ℕ) : ℚ :=
  ((labelsOf Y i).card : ℚ) * 2 ^ ((labelsOf Y i).card - 1)

/-- How often the sampler ends with `x` when it has drawn a row with the labels `L`, if `tail f k` is the set
of size `k` that the greedy choice builds from `f`. A row with one label leaves no size to draw: Python 3.9
and later raise, Python 3.8 returns that label. Otherwise size `k` has a weight of `k - 1` (the weights sum to
`m choose 2`), and the first label is uniform. -/
def rowShare (strict : Bool) (L : Finset ℕ) (tail : ℕ → ℕ → Finset ℕ) (x : Py (Option (Finset ℕ))) : ℚ :=
  if L.card = 1 then
    if x = (if strict then .error .valueError else .ok (some L)) then 1 else 0
  else ∑ k ∈ Finset.Icc 1 L.card, ∑ f ∈ L,
    ((k : ℚ) - 1) / (L.card.choose 2 : ℚ) * (1 / (L.card : ℚ)) * if x = .ok (some (tail f k)) then 1 else 0

end GreedyArea

end Verif
