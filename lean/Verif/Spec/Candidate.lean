/-
Specification vocabulary for the law of the candidate rules.
-/
import Verif.Spec.Learner
import Verif.Spec.Graph
import Mathlib.Analysis.SpecificLimits.Basic

namespace Verif

open Classical in
/-- Probability of an event of a random program. -/
noncomputable def RandR.probOf {α : Type} (m : RandR α) (E : Py α → Prop) : ℝ :=
  m.expect fun x => if E x then 1 else 0

open Classical in
/-- The samples a threshold asks for: the sets of columns of `M` that are a single column or a clique of
probability at least `alpha`. -/
noncomputable def samplesOf (M : Cmp) (alpha : ℚ) : Finset (Finset ℤ) :=
  ((Finset.range M.nMinor).powerset.filter fun U => ∃ g, buildGraph M.flip = .ok g ∧ g.Probable alpha U).image
    intSet

open Classical in
/-- Uncovered area of a label set after the updates `us`: over the rows that carry it, the number of its
labels not yet covered there. -/
noncomputable def openArea (Y : Cmp) (us : List (List ℕ × List ℤ)) (T : Finset ℤ) : ℕ :=
  ∑ i ∈ Finset.range Y.nMajor, if RowContains Y i T then (uncoveredPart us i T).card else 0

/-- The share of a label set in the uncovered area of all samples. -/
noncomputable def tailChance (Y : Cmp) (pl : ℚ) (us : List (List ℕ × List ℤ)) (T : Finset ℤ) : ℝ :=
  openArea Y us T / ∑ U ∈ samplesOf Y pl, (openArea Y us U : ℝ)

open Classical in
/-- The number of pairs of a row with head and tail, and a row with neither. -/
noncomputable def rulePairs (X Y : Cmp) (T H : Finset ℤ) : ℕ :=
  ((Finset.range Y.nMajor ×ˢ Finset.range Y.nMajor).filter fun ij =>
    (RowContains Y ij.1 T ∧ RowContains X ij.1 H) ∧ ¬ RowContains Y ij.2 T ∧ ¬ RowContains X ij.2 H).card

open Classical in
/-- The same without the condition on the second row's features: over all samples, the number of pairs of
a row with head and tail, and a row without the tail. -/
noncomputable def proposedPairs (X Y : Cmp) (pf : ℚ) (T : Finset ℤ) : ℕ :=
  ∑ H ∈ samplesOf X pf, ((Finset.range Y.nMajor ×ˢ Finset.range Y.nMajor).filter fun ij =>
    (RowContains Y ij.1 T ∧ RowContains X ij.1 H) ∧ ¬ RowContains Y ij.2 T).card

/-- The probability that 1024 proposals for a head are all rejected. -/
noncomputable def noHead (X Y : Cmp) (pf : ℚ) (T : Finset ℤ) : ℝ :=
  (1 - (∑ H ∈ samplesOf X pf, (rulePairs X Y T H : ℝ)) / proposedPairs X Y pf T) ^ 1024

/-- The probability of a head for a tail. -/
noncomputable def headChance (X Y : Cmp) (pf : ℚ) (T H : Finset ℤ) : ℝ :=
  (1 - noHead X Y pf T) * (rulePairs X Y T H / ∑ U ∈ samplesOf X pf, (rulePairs X Y T U : ℝ))

/-- The probability that one tail gives only rules with a property. -/
noncomputable def roundChance (X Y : Cmp) (pf pl : ℚ) (us : List (List ℕ × List ℤ)) (m : ℕ)
    (A : Finset ℤ → Finset ℤ → Prop) : ℝ :=
  open Classical in ∑ T ∈ samplesOf Y pl, tailChance Y pl us T *
    (∑ H ∈ (samplesOf X pf).filter fun H => A H T, headChance X Y pf T H) ^ m

/-- A call of candidate generation returned a batch with a property. -/
def Returned (P : List BRule → Prop) (x : Py (Py (List BRule) × HeadSampler)) : Prop :=
  ∃ batch h', x = .ok (.ok batch, h') ∧ P batch

/-- The batch contains the rule `H → T`. -/
def HasRule (H T : Finset ℤ) (batch : List BRule) : Prop :=
  ∃ b ∈ batch, b.head.toFinset = H ∧ b.tail.toFinset = T

/-- A rule that candidate generation can produce: a probable tail with uncovered area and a probable head
that some row has together with the tail and some row without the tail lacks. -/
def CandidateRule (env : LearnEnv) (X Y : Cmp) (pf pl : ℚ) (us : List (List ℕ × List ℤ)) (c : BRule) : Prop :=
  ∃ H ∈ samplesOf X pf, ∃ T ∈ samplesOf Y pl, 0 < openArea Y us T ∧ 0 < rulePairs X Y T H ∧
    bindDataset (Rule.new (env.orderZ H) (env.orderZ T)) X.flip Y.flip = .ok c

/-- A candidate whose objective is the largest of all candidates, drawn or not. -/
def BestPossible (env : LearnEnv) (X Y : Cmp) (pf pl : ℚ) (us : List (List ℕ × List ℤ))
    (obj : BRule → Py ℝ) (best : BRule) : Prop :=
  ∃ v, obj best = .ok v ∧ ∀ c, CandidateRule env X Y pf pl us c → ∃ vc, obj c = .ok vc ∧ vc ≤ v

end Verif
