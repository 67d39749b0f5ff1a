/-
Every random program of the model draws from probability distributions only, so that it has an execution.
-/
import Verif.Lemmas.Learner

namespace Verif

namespace RandR

/-- Every draw of the program is from a probability distribution. -/
def Proper {α : Type} : RandR α → Prop
  | done _ => True
  | choice p k => (∀ q ∈ p, 0 ≤ q) ∧ p.sum = 1 ∧ ∀ i, (k i).Proper
  | unif k => ∀ u, (k u).Proper

theorem exists_pos {p : List ℝ} (h0 : ∀ q ∈ p, 0 ≤ q) (h1 : p.sum = 1) : ∃ i, ∃ h : i < p.length, 0 < p[i] := by
  by_contra hc
  push Not at hc
  have : p.sum = 0 := by
    apply List.sum_eq_zero
    intro q hq
    obtain ⟨i, hi, rfl⟩ := List.getElem_of_mem hq
    exact le_antisymm (hc i hi) (h0 _ hq)
  rw [this] at h1
  exact zero_ne_one h1

/-- A proper program has an execution. -/
theorem Proper.exists_outcome {α : Type} {m : RandR α} (h : m.Proper) : ∃ x, m.Outcome x := by
  induction m with
  | done r => exact ⟨r, rfl⟩
  | choice p k ih =>
    obtain ⟨i, hi, hp⟩ := exists_pos h.1 h.2.1
    obtain ⟨x, hx⟩ := ih i (h.2.2 i)
    exact ⟨x, i, hi, hp, hx⟩
  | unif k ih =>
    obtain ⟨x, hx⟩ := ih 0 (h 0)
    exact ⟨x, 0, le_refl _, zero_lt_one, hx⟩

theorem proper_pure {α : Type} (a : α) : (pure a : RandR α).Proper := trivial
theorem proper_lift {α : Type} (r : Py α) : (lift r).Proper := trivial
theorem proper_raise {α : Type} (e : PyErr) : (raise e : RandR α).Proper := trivial

theorem proper_bind {α β : Type} {m : RandR α} {f : α → RandR β} (hm : m.Proper) (hf : ∀ a, (f a).Proper) :
    (m.bind f).Proper := by
  induction m with
  | done r =>
    cases r with
    | ok a => exact hf a
    | error e => trivial
  | choice p k ih => exact ⟨hm.1, hm.2.1, fun i => ih i (hm.2.2 i)⟩
  | unif k ih => exact fun u => ih u (hm u)

theorem proper_attempt {α : Type} {m : RandR α} (hm : m.Proper) : m.attempt.Proper := by
  induction m with
  | done r => trivial
  | choice p k ih => exact ⟨hm.1, hm.2.1, fun i => ih i (hm.2.2 i)⟩
  | unif k ih => exact fun u => ih u (hm u)

end RandR

open RandR

theorem toReal_proper {α : Type} {m : Rand α} (hm : m.Proper) : m.toReal.Proper := by
  induction m with
  | done r => trivial
  | choice p k ih =>
    refine ⟨?_, ?_, fun i => ih i (hm.2.2 i)⟩
    · intro q hq
      obtain ⟨r, hr, rfl⟩ := List.mem_map.mp hq
      exact_mod_cast hm.1 r hr
    · have := hm.2.1
      have h2 : (p.map fun q : ℚ => (q : ℝ)).sum = ((p.sum : ℚ) : ℝ) := by
        clear this hm ih
        induction p with
        | nil => simp
        | cons a t ih => rw [List.map_cons, List.sum_cons, List.sum_cons, ih]; push_cast; rfl
      exact h2.trans (by rw [this]; simp)

theorem npChoiceR_proper (p : List ℝ) : (npChoiceR p).Proper := by
  unfold npChoiceR
  split
  · rename_i h
    exact ⟨h.2.1, h.2.2, fun _ => trivial⟩
  · trivial

theorem pyChoiceIdx_proper (n : ℕ) : (pyChoiceIdx n).Proper := by
  unfold pyChoiceIdx
  split
  · trivial
  · rename_i h
    refine ⟨?_, ?_, fun _ => trivial⟩
    · intro q hq
      rw [List.eq_of_mem_replicate hq]
      positivity
    · rw [List.sum_replicate, nsmul_eq_mul]
      field_simp

theorem drawUniforms_proper : ∀ n, (drawUniforms n).Proper
  | 0 => trivial
  | n + 1 => proper_bind (m := RandR.unif fun u => pure u) (fun _ => trivial)
      fun _ => proper_bind (drawUniforms_proper n) fun _ => trivial

theorem drawChoices_proper (items : List ℕ) (p : List ℝ) : ∀ n, (drawChoices items p n).Proper
  | 0 => trivial
  | n + 1 => proper_bind (npChoiceR_proper p)
      fun _ => proper_bind (drawChoices_proper items p n) fun _ => trivial

theorem addData_proper (c : Cftp) (n : ℕ) (s : CftpState) : (c.addData n s).Proper := by
  unfold Cftp.addData
  split
  · trivial
  · split
    · trivial
    · exact proper_bind (drawUniforms_proper _) fun _ => proper_bind (drawChoices_proper _ _ _)
        fun _ => proper_bind (drawChoices_proper _ _ _) fun _ => trivial

theorem sampleLoop_proper (c : Cftp) (i : ℕ) (s : CftpState) : (c.sampleLoop i s).Proper := by
  induction i, s using Cftp.sampleLoop.induct (c := c) with
  | case1 i s h => rw [Cftp.sampleLoop.eq_def, if_pos h]; trivial
  | case2 i s h1 h2 => rw [Cftp.sampleLoop.eq_def, if_neg h1, if_pos h2]; trivial
  | case3 i s h1 h2 ih =>
    rw [Cftp.sampleLoop.eq_def, if_neg h1, if_neg h2]
    refine proper_bind (addData_proper _ _ _) fun s' => proper_bind (proper_lift _) fun D => ?_
    cases D with
    | none => exact ih s'
    | some pr => trivial

theorem headSampleOnce_proper (env : HeadEnv) (s : HeadSampler) : (headSampleOnce env s).Proper := by
  unfold headSampleOnce
  split
  · refine proper_bind ?_ fun r => ?_
    · unfold headSampleIdx
      refine proper_bind (sampleLoop_proper _ _ _) fun r => ?_
      split
      · trivial
      · exact proper_bind (proper_bind (pyChoiceIdx_proper _) fun _ => trivial) fun _ => trivial
    · split
      · trivial
      · exact proper_bind (proper_lift _) fun _ => trivial
  · trivial

theorem headSample_proper (env : HeadEnv) : ∀ (n : ℕ) (s : HeadSampler), (headSample env n s).Proper
  | 0, _ => trivial
  | n + 1, s => proper_bind (headSampleOnce_proper env s)
      fun r => proper_bind (headSample_proper env n r.2) fun _ => trivial

theorem sampleOnce_proper (s : UState) : (sampleOnce s).Proper := by
  refine Rand.proper_bind _ _ (npChoice_proper _) fun row => ?_
  unfold sampleItemsetFromRow
  simp only
  split
  · trivial
  · split
    · trivial
    · exact Rand.proper_bind _ _ (npChoice_proper _) fun _ => trivial

theorem orRaise_proper {α β : Type} {r : Py α} {h : HeadSampler} {k : α → RandR (Py β × HeadSampler)}
    (hk : ∀ a, (k a).Proper) : (orRaise r h k).Proper := by
  cases r with
  | ok a => exact hk a
  | error e => trivial

theorem learnGen_proper (env : LearnEnv) (X Xc Yc : Cmp) (nHeads : ℕ) (s : UState) :
    ∀ (todo : ℕ) (h : HeadSampler) (rules : List BRule), (learnGen env X Xc Yc nHeads s todo h rules).Proper
  | 0, _, _ => trivial
  | todo + 1, h, rules => by
    rw [learnGen]
    refine proper_bind (proper_attempt (toReal_proper (sampleOnce_proper s))) fun t => ?_
    refine orRaise_proper fun T => orRaise_proper fun y => orRaise_proper fun h1 => ?_
    refine proper_bind (proper_attempt (headSample_proper _ _ _)) fun hs => ?_
    exact orRaise_proper fun r => orRaise_proper fun rules' => learnGen_proper env X Xc Yc nHeads s todo _ _

theorem learnIter_proper (env : LearnEnv) (p : Params) (lr : Learner) (X Xc Yc : Cmp) (st : LearnState) :
    (learnIter env p lr X Xc Yc st).Proper := by
  unfold learnIter
  refine proper_bind (learnGen_proper _ _ _ _ _ _ _ _ _) fun g => ?_
  split <;> trivial

theorem learnLoop_proper (env : LearnEnv) (p : Params) (lr : Learner) (X Xc Yc : Cmp) :
    ∀ (fuel : ℕ) (st : LearnState), (learnLoop env p lr X Xc Yc fuel st).Proper
  | 0, _ => trivial
  | fuel + 1, st => by
    rw [learnLoop]
    refine proper_bind (learnIter_proper _ _ _ _ _ _ _) fun r => ?_
    cases r with
    | done st' => trivial
    | next st' => exact learnLoop_proper env p lr X Xc Yc fuel st'

theorem learnRun_proper (env : LearnEnv) (p : Params) (lr : Learner) (o : LearnObj) (X Y : Cmp) (fuel : ℕ) :
    (learnRun env p lr o X Y fuel).Proper :=
  proper_bind (proper_lift _) fun _ => learnLoop_proper _ _ _ _ _ _ _ _

/-- `fit` of any object on any data has an execution: the model never gets stuck. -/
theorem learnFitV2_proper (env : LearnEnv) (p : Params) (lr : Learner) (q : List BRule → BRule → Py ℝ)
    (o : LearnObj) (X Y : Cmp) (fuel : ℕ) : (learnFitV2 env p lr q o X Y fuel).Proper := by
  refine proper_bind (learnRun_proper _ _ _ _ _ _ _) fun r => ?_
  cases r with
  | none => trivial
  | some st => exact proper_bind (proper_lift _) fun _ => trivial

theorem learnFitDivMax_proper (env : LearnEnv) (p : Params) (o : LearnObj) (X Y : Cmp) (fuel : ℕ) :
    (learnFitDivMax env p o X Y fuel).Proper := by
  refine proper_bind (learnRun_proper _ _ _ _ _ _ _) fun r => ?_
  cases r with
  | none => trivial
  | some st => exact proper_bind (proper_lift _) fun _ => trivial

end Verif
