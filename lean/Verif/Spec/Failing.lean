/-
Specification vocabulary for the probability that a fit fails.
-/
import Verif.Spec.Candidate

namespace Verif

/-- The probability that a batch of `n` tails with `m` heads each is complete, when no rule has been selected yet. -/
noncomputable def firstBatch (X Y : Cmp) (pf pl : ℚ) (n m : ℕ) : ℝ :=
  (∑ T ∈ samplesOf Y pl, tailChance Y pl [] T * (1 - noHead X Y pf T) ^ m) ^ n

/-- The share of the proposed pairs for a tail that is accepted. -/
noncomputable def acceptance (X Y : Cmp) (pf : ℚ) (T : Finset ℤ) : ℝ :=
  (∑ H ∈ samplesOf X pf, (rulePairs X Y T H : ℝ)) / proposedPairs X Y pf T

/-- The label set is carried by some row. -/
def Occurs (Y : Cmp) (T : Finset ℤ) : Prop := ∃ i < Y.nMajor, RowContains Y i T

end Verif
