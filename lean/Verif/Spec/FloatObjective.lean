/-
Specification vocabulary for the objectives in double precision.
-/
import Verif.Spec.Greedy
import Verif.Model.FloatObjective

namespace Verif

/-- An implementation of `rel_entr` for doubles: zero at `x = 0`, and for `0 < x ≤ 1` within `ε (1 + |v|)` of the exact
value `v = x log(x / y)`. -/
structure RelEntrAccurate (ε : ℝ) (rel : ℝ → ℝ → ℝ) : Prop where
  zero : ∀ y, 0 ≤ y → rel 0 y = 0
  close : ∀ x y, 0 < x → x ≤ 1 → 0 < y →
    |rel x y - x * Real.log (x / y)| ≤ ε * (1 + |x * Real.log (x / y)|)

/-- Bound on the error of the divergence of a rule on data with `N` rows. -/
noncomputable def klSlack (ε : ℝ) (N : ℕ) : ℝ := 3 * (ε + ((N : ℝ) + 8) / 2 ^ 53) * (Real.log N + 5)

/-- Bound on the error of the objective of `GreedyDivMax` for a rule that newly covers `c` cells when `k` rules are
selected, on data with `N` rows. -/
noncomputable def objectiveSlack (ε lambd : ℝ) (N c k : ℕ) : ℝ :=
  4 * c * (ε + ((N : ℝ) + 8) / 2 ^ 53) * (Real.log N + 5) + |lambd| * (k * (k + 6)) / 2 ^ 53

/-- Bound on the error of the objective of `GreedySubmod` for a rule that newly covers `c` cells, on data with `N`
rows. -/
noncomputable def submodSlack (ε lambd : ℝ) (N c : ℕ) : ℝ :=
  4 * (ε + ((N : ℝ) + 8) / 2 ^ 53) * (Real.log N + 5) + |lambd| * (3 * c) / 2 ^ 53

/-- Both evaluations raise the same exception, or both return numbers, which differ by at most `δ`. -/
def Within (δ : ℝ) (x y : Py ℝ) : Prop :=
  (∃ e, x = .error e ∧ y = .error e) ∨ ∃ v w, x = .ok v ∧ y = .ok w ∧ |w - v| ≤ δ

/-- `best` belongs to the batch, its objective is defined, and every member of the batch has a defined objective that
exceeds that of `best` by at most `slack`. -/
def NearGreedyChoice (slack : ℝ) (obj : List BRule → BRule → Py ℝ) (selected cands : List BRule) (best : BRule) :
    Prop :=
  best ∈ cands ∧ ∃ v, obj selected best = .ok v ∧
    ∀ c ∈ cands, ∃ vc, obj selected c = .ok vc ∧ vc ≤ v + slack

/-- A learner, the same learner with its objective in doubles, and a bound on twice the error of the objective when `k`
rules are selected. -/
def RoundedLearner (rel : ℝ → ℝ → ℝ) (ε : ℝ) (p : Params) (X Y : Cmp) (lr lrF : Learner) (slack : ℕ → ℝ) : Prop :=
  (lr = learnerDivMax p Y ∧ lrF = learnerDivMaxF rel p Y ∧
    slack = fun k => 2 * objectiveSlack ε p.lambd X.nMajor Y.nnz k) ∨
  (lr = learnerV2 p ∧ lrF = learnerV2F rel p ∧
    slack = fun k => 2 * objectiveSlack ε p.lambd X.nMajor Y.nnz k) ∨
  (lr = learnerV3 p ∧ lrF = learnerV3F rel p ∧
    slack = fun k => 2 * objectiveSlack ε p.lambd X.nMajor Y.nnz k) ∨
  (lr = learnerSubmod p ∧ lrF = learnerSubmodF rel p ∧
    slack = fun _ => 2 * submodSlack ε p.lambd X.nMajor Y.nnz)

end Verif
