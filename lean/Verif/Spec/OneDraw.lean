/-
Specification vocabulary for the law of a fit that draws one candidate per iteration.
-/
import Verif.Spec.Candidate

namespace Verif

open Classical in
/-- The rows that carry every feature of `H` and every label of `T`. -/
noncomputable def bothRows (X Y : Cmp) (H T : Finset ℤ) : Finset ℕ :=
  (Finset.range Y.nMajor).filter fun i => RowContains X i H ∧ RowContains Y i T

/-- What the rules `rs`, each a head and a tail, cover: for each of them, rows and labels. -/
noncomputable def ruleCover (X Y : Cmp) (rs : List (Finset ℤ × Finset ℤ)) : List (List ℕ × List ℤ) :=
  rs.map fun r => ((bothRows X Y r.1 r.2).toList, r.2.toList)

/-- The probability of drawing the rules `rs` one after another once the rules `before` have been selected: each tail has
its share of the area that the rules before it left uncovered, each head its probability for the tail. -/
noncomputable def drawChance (X Y : Cmp) (pf pl : ℚ) :
    List (Finset ℤ × Finset ℤ) → List (Finset ℤ × Finset ℤ) → ℝ
  | _, [] => 1
  | before, (H, T) :: rs => tailChance Y pl (ruleCover X Y before) T * headChance X Y pf T H *
      drawChance X Y pf pl (before ++ [(H, T)]) rs

/-- The probability that a fit with budget `k` ends when it has selected `rs`: 1 if nothing is left uncovered; otherwise,
if the budget is used up, the probability that one more tail gets a head. -/
noncomputable def endChance (X Y : Cmp) (pf pl : ℚ) (k : ℕ) (rs : List (Finset ℤ × Finset ℤ)) : ℝ :=
  if ∑ T ∈ samplesOf Y pl, openArea Y (ruleCover X Y rs) T = 0 then 1
  else if k ≤ rs.length then ∑ T ∈ samplesOf Y pl, tailChance Y pl (ruleCover X Y rs) T * (1 - noHead X Y pf T)
  else 0

/-- Heads and tails of rules, as sets. -/
def asSets (rs : List BRule) : List (Finset ℤ × Finset ℤ) := rs.map fun b => (b.head.toFinset, b.tail.toFinset)

end Verif
