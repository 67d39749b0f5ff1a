/-
Specification vocabulary for the limit of the learners with many candidates.
-/
import Verif.Spec.Candidate

namespace Verif

/-- The list that a learner builds which can look at all rules: each rule can be drawn when the rules before it
have been selected, and has, relative to them, the largest objective of all rules that can be drawn. -/
def IdealGreedy (env : LearnEnv) (X Y : Cmp) (pf pl : ℚ) (obj : List BRule → BRule → Py ℝ) (sel : List BRule) : Prop :=
  ∀ i (hi : i < sel.length), CandidateRule env X Y pf pl ((sel.take i).map (updateOf env)) sel[i] ∧
    BestPossible env X Y pf pl ((sel.take i).map (updateOf env)) (obj (sel.take i)) sel[i]

/-- A lower bound on the probability that one tail, with `m` heads, brings the rule `H → T` as long as its label
set has an uncovered cell: the probability that one of the heads is `H`, over the area of all label sets. -/
noncomputable def leastChance (X Y : Cmp) (pf pl : ℚ) (m : ℕ) (H T : Finset ℤ) : ℝ :=
  ((1 - noHead X Y pf T) ^ m - (1 - noHead X Y pf T - headChance X Y pf T H) ^ m) /
    ∑ U ∈ samplesOf Y pl, (openArea Y [] U : ℝ)

/-- A lower bound on the chance of every rule that can be drawn while nothing is covered. -/
def ChanceFloor (X Y : Cmp) (pf pl : ℚ) (m : ℕ) (δ : ℝ) : Prop :=
  δ ≤ 1 ∧ ∀ H ∈ samplesOf X pf, ∀ T ∈ samplesOf Y pl, 0 < openArea Y [] T → 0 < rulePairs X Y T H →
    δ ≤ leastChance X Y pf pl m H T

/-- A rule that candidate generation can produce while nothing is covered. -/
def PossibleRule (env : LearnEnv) (X Y : Cmp) (pf pl : ℚ) (c : BRule) : Prop := CandidateRule env X Y pf pl [] c

end Verif
