/-
Specification vocabulary for the objective of the rule that an iteration selects.
-/
import Verif.Spec.Candidate

namespace Verif

/-- `H → T` can be drawn and its objective is at most `c`. -/
def ScoresAtMost (env : LearnEnv) (X Y : Cmp) (pf pl : ℚ) (us : List (List ℕ × List ℤ)) (obj : BRule → Py ℝ) (c : ℝ)
    (H T : Finset ℤ) : Prop :=
  ∃ b v, CandidateRule env X Y pf pl us b ∧ b.head.toFinset = H ∧ b.tail.toFinset = T ∧ obj b = .ok v ∧ v ≤ c

open Classical in
/-- The probability that one tail with `m` heads gives only rules of objective at most `c`. -/
noncomputable def lowChance (env : LearnEnv) (X Y : Cmp) (pf pl : ℚ) (us : List (List ℕ × List ℤ)) (obj : BRule → Py ℝ)
    (m : ℕ) (c : ℝ) : ℝ :=
  ∑ T ∈ samplesOf Y pl, tailChance Y pl us T *
    (∑ H ∈ (samplesOf X pf).filter fun H => ScoresAtMost env X Y pf pl us obj c H T, headChance X Y pf T H) ^ m

/-- The probability that one tail gets its `m` heads. -/
noncomputable def tailComplete (X Y : Cmp) (pf pl : ℚ) (us : List (List ℕ × List ℤ)) (m : ℕ) : ℝ :=
  ∑ T ∈ samplesOf Y pl, tailChance Y pl us T * (1 - noHead X Y pf T) ^ m

/-- The iteration selected a rule whose objective satisfies `P`. -/
def Selects (lr : Learner) (st : LearnState) (P : ℝ → Prop) (x : Py (IterResult (UState × HeadSampler))) : Prop :=
  ∃ st' b v, x = .ok (.next st') ∧ st'.selected = st.selected ++ [b] ∧ lr.objective st.selected b = .ok v ∧ P v

end Verif
