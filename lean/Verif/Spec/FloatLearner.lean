/-
Specification vocabulary for learning in double precision: how large the data may be, and how large the error is.
-/
import Verif.Spec.Ideal

namespace Verif

open Classical in
/-- The data are small enough for doubles: at most 2²³ training rows; at most `m ≤ 2²³` probable label sets in a row;
all labels of all probable label sets in all rows together at most 2⁵³; the number of probable feature sets, plus one,
times the number of rows at most 2⁵³. -/
structure FitsDoubles (X Y : Cmp) (pf pl : ℚ) (m : ℕ) : Prop where
  rows : Y.nMajor ≤ 2 ^ 23
  perRow : ∀ i < Y.nMajor, ((samplesOf Y pl).filter fun T => RowContains Y i T).card ≤ m
  few : m ≤ 2 ^ 23
  area : ∑ T ∈ samplesOf Y pl, openArea Y [] T ≤ 2 ^ 53
  features : ((samplesOf X pf).card + 1) * Y.nMajor ≤ 2 ^ 53

/-- The error of one tail, with `n` rows and at most `m` probable label sets in a row. -/
noncomputable def tailErr (n m : ℕ) : ℝ := (n * (10 * n + 11) + m * (10 * m + 11)) / 2 ^ 53

/-- The error of one head, with `n` rows. -/
noncomputable def headErr (n : ℕ) : ℝ := 1024 * (n * (10 * n + 11) + 2) / 2 ^ 53

/-- The error of a batch of candidates. -/
noncomputable def batchErr (n m nTails nHeads : ℕ) : ℝ := nTails * (tailErr n m + nHeads * headErr n)

/-- The list is the one of a learner that can look at all rules, up to an error: each rule can be drawn when the `i`
rules before it have been selected, and no rule that can be drawn then has an objective, relative to them, that is
larger by more than `slack i`. -/
def NearIdealGreedy (env : LearnEnv) (X Y : Cmp) (pf pl : ℚ) (slack : ℕ → ℝ) (obj : List BRule → BRule → Py ℝ)
    (sel : List BRule) : Prop :=
  ∀ i (hi : i < sel.length), CandidateRule env X Y pf pl ((sel.take i).map (updateOf env)) sel[i] ∧
    ∃ v, obj (sel.take i) sel[i] = .ok v ∧
      ∀ c, CandidateRule env X Y pf pl ((sel.take i).map (updateOf env)) c →
        ∃ vc, obj (sel.take i) c = .ok vc ∧ vc ≤ v + slack i

end Verif
