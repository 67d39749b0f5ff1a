/-
C137: what an interrupted or failing fit leaves behind.
-/
import Verif.Spec.InterruptFit
import Verif.Props.Interrupt
import Verif.Props.Learner
import Verif.Props.GiveUp

namespace Verif

/-- `st` is reached from `st0` by complete iterations. -/
inductive LoopSteps (env : LearnEnv) (p : Params) (lr : Learner) (X Xc Yc : Cmp) (st0 : LearnState) :
    LearnState → Prop
  | refl : LoopSteps env p lr X Xc Yc st0 st0
  | step {st st' : LearnState} (h : LoopSteps env p lr X Xc Yc st0 st)
      (hn : (learnIter env p lr X Xc Yc st).Outcome (.ok (.next st'))) : LoopSteps env p lr X Xc Yc st0 st'

section
variable {env : LearnEnv} {p : Params} {lr : Learner} {X Xc Yc : Cmp} {st0 : LearnState}

theorem learnIter_gen_error {st : LearnState} {e : PyErr} {h : HeadSampler}
    (hg : (learnGen env X Xc Yc p.nHeads st.sampler.1 p.nTails st.sampler.2 []).Outcome (.ok (.error e, h))) :
    (learnIter env p lr X Xc Yc st).Outcome
      (if e = .noMoreSamples then .ok (.done { st with sampler := (st.sampler.1, h) }) else .error e) := by
  unfold learnIter
  rw [RandR.bind_eq, RandR.outcome_bind]
  left
  refine ⟨_, hg, ?_⟩
  cases e <;> rfl

theorem learnIter_gen_ok {st : LearnState} {cands : List BRule} {h : HeadSampler}
    (hg : (learnGen env X Xc Yc p.nHeads st.sampler.1 p.nTails st.sampler.2 []).Outcome (.ok (.ok cands, h))) :
    (learnIter env p lr X Xc Yc st).Outcome (learnChoose env lr st h cands) := by
  unfold learnIter
  rw [RandR.bind_eq, RandR.outcome_bind]
  left
  refine ⟨_, hg, ?_⟩
  dsimp only
  rfl

theorem loop_of_steps {st st' : LearnState} (h : LoopSteps env p lr X Xc Yc st0 st) :
    ∀ fuel x, (learnLoop env p lr X Xc Yc fuel st).Outcome x →
      ∃ fuel', (learnLoop env p lr X Xc Yc fuel' st0).Outcome x := by
  induction h with
  | refl => exact fun fuel x hx => ⟨fuel, hx⟩
  | step _ hn ih =>
    intro fuel x hx
    refine ih (fuel + 1) x ?_
    rw [learnLoop, RandR.bind_eq, RandR.outcome_bind]
    exact Or.inl ⟨_, hn, hx⟩

theorem steps_trans {st1 st2 : LearnState} (h1 : LoopSteps env p lr X Xc Yc st0 st1)
    (h2 : LoopSteps env p lr X Xc Yc st1 st2) : LoopSteps env p lr X Xc Yc st0 st2 := by
  induction h2 with
  | refl => exact h1
  | step _ hn ih => exact .step ih hn

theorem steps_of_loop : ∀ (fuel : ℕ) (st : LearnState), LoopSteps env p lr X Xc Yc st0 st →
    ∀ x, (learnLoop env p lr X Xc Yc fuel st).Outcome x →
      (∀ st', x = .ok (some st') → ∃ st1, LoopSteps env p lr X Xc Yc st0 st1 ∧
        (learnIter env p lr X Xc Yc st1).Outcome (.ok (.done st'))) ∧
      (∀ e, x = .error e → ∃ st1, LoopSteps env p lr X Xc Yc st0 st1 ∧
        (learnIter env p lr X Xc Yc st1).Outcome (.error e))
  | 0, st, h, x, hx => by
    cases hx
    exact ⟨fun _ h => (by cases h), fun _ h => (by cases h)⟩
  | fuel + 1, st, h, x, hx => by
    rw [learnLoop, RandR.bind_eq, RandR.outcome_bind] at hx
    rcases hx with ⟨r, hr, hx⟩ | ⟨e, hr, rfl⟩
    · cases r with
      | done st1 =>
        cases hx
        refine ⟨fun st' e => ?_, fun _ h => (by cases h)⟩
        cases e
        exact ⟨st, h, hr⟩
      | next st1 => exact steps_of_loop fuel st1 (.step h hr) x hx
    · refine ⟨fun _ h => (by cases h), fun e' he => ?_⟩
      cases he
      exact ⟨st, h, hr⟩

end

section
variable {env : LearnEnv} {p : Params} {lr : Learner} {X Y : Cmp} {st0 : LearnState} {q : ℚ}

theorem steps_inv (he : env.Good) (hD : LearnData env X Y) (hlr : LearnerTotal X Y lr) {held : List BRule}
    (h0 : LearnInv env q X Y held st0) {st : LearnState} (h : LoopSteps env p lr X X.flip Y.flip st0 st) :
    LearnInv env q X Y held st := by
  induction h with
  | refl => exact h0
  | step _ hn ih =>
    rcases learnIter_outcome he hD hlr ih hn with ⟨st', e, -⟩ | ⟨st', b, e, hi, -⟩ | e | ⟨e, -⟩ | ⟨e, -⟩ <;> cases e
    exact hi

/-- The tail sampler of a state satisfies the hypotheses of `C135`. -/
theorem inv_updates (he : env.Good) (hD : LearnData env X Y) {held : List BRule} {st : LearnState}
    (h : LearnInv env q X Y held st) : ∃ space newRows us new, st.selected = held ++ new ∧
      us = new.map (updateOf env) ∧ applyUpdates (freshSampler space newRows) us = .ok st.sampler.1 := by
  obtain ⟨⟨new, hnew, s0, hf, hu⟩, -⟩ := h
  obtain ⟨g, space, -, hf', -⟩ := tailFit_ok he.heads q true [] hD.labels hD.colsY hD.depthY
  rw [hf'] at hf
  cases hf
  exact ⟨space, _, _, new, hnew, rfl, hu⟩

/-- What is known at a point: the complete iterations before it and the part of the present one. -/
def Behind (env : LearnEnv) (p : Params) (lr : Learner) (X Xc Yc : Cmp) (st0 : LearnState) (pc : LoopPc)
    (st : LearnState) : Prop :=
  match pc with
  | .head => LoopSteps env p lr X Xc Yc st0 st
  | .generating => ∃ st1 h, LoopSteps env p lr X Xc Yc st0 st1 ∧ st = { st1 with sampler := (st1.sampler.1, h) }
  | .generated cands => ∃ st1 h, LoopSteps env p lr X Xc Yc st0 st1 ∧
      (learnGen env X Xc Yc p.nHeads st1.sampler.1 p.nTails st1.sampler.2 []).Outcome (.ok (.ok cands, h)) ∧
      st = { st1 with sampler := (st1.sampler.1, h) }
  | .pooled cands => ∃ st1 h, LoopSteps env p lr X Xc Yc st0 st1 ∧
      (learnGen env X Xc Yc p.nHeads st1.sampler.1 p.nTails st1.sampler.2 []).Outcome (.ok (.ok cands, h)) ∧
      st = { sampler := (st1.sampler.1, h), selected := st1.selected, pool := poolUnion st1.pool cands }
  | .adding best pc => ∃ st1 h cands s, LoopSteps env p lr X Xc Yc st0 st1 ∧
      (learnGen env X Xc Yc p.nHeads st1.sampler.1 p.nTails st1.sampler.2 []).Outcome (.ok (.ok cands, h)) ∧
      pyMax (lr.objective st1.selected) (env.setOrder cands) = .ok best ∧
      lr.stop st1.selected best = .ok false ∧
      UpdPoint (env.order best.support) (env.orderZ best.tail.toFinset) st1.sampler.1 pc s ∧
      st = { sampler := (s, h), selected := st1.selected, pool := poolUnion st1.pool cands }
  | .left => ∃ st1, LoopSteps env p lr X Xc Yc st0 st1 ∧ (learnIter env p lr X Xc Yc st1).Outcome (.ok (.done st))

theorem behind_of_point (he : env.Good) (hD : LearnData env X Y) (hlr : LearnerTotal X Y lr) {held : List BRule}
    (h0 : LearnInv env q X Y held st0) {pc : LoopPc} {st : LearnState}
    (h : LoopPoint env p lr X X.flip Y.flip st0 pc st) : Behind env p lr X X.flip Y.flip st0 pc st := by
  induction h with
  | start => exact .refl
  | generating _ heads ih => exact ⟨_, heads, ih, rfl⟩
  | exhausted _ hg ih =>
    have := learnIter_gen_error (lr := lr) hg
    exact ⟨_, ih, this⟩
  | generated _ hg ih => exact ⟨_, _, ih, hg, rfl⟩
  | pooled _ ih =>
    obtain ⟨st1, h, h1, h2, rfl⟩ := ih
    exact ⟨st1, h, h1, h2, rfl⟩
  | stopped _ hb hs ih =>
    obtain ⟨st1, h, h1, h2, rfl⟩ := ih
    refine ⟨st1, h1, ?_⟩
    have := learnIter_gen_ok (lr := lr) h2
    unfold learnChoose at this
    simp only [hb, hs, bind, Except.bind] at this
    exact this
  | chosen _ hb hs ih =>
    obtain ⟨st1, h, h1, h2, rfl⟩ := ih
    exact ⟨st1, h, _, _, h1, h2, hb, hs, .start, rfl⟩
  | updating _ hu ih =>
    obtain ⟨st1, h, cands, s, h1, h2, h3, h4, h5, rfl⟩ := ih
    exact ⟨st1, h, cands, _, h1, h2, h3, h4, .step h5 hu, rfl⟩
  | added _ ih =>
    obtain ⟨st1, h, cands, s, h1, h2, h3, h4, h5, rfl⟩ := ih
    obtain ⟨space, newRows, us, new, -, -, hu⟩ := inv_updates he hD (steps_inv he hD hlr h0 h1)
    have hup := ((C135_points_of_the_call space newRows us _ hu _ _).1 _).mp h5
    refine .step h1 ?_
    have := learnIter_gen_ok (lr := lr) h2
    unfold learnChoose at this
    simp only [h3, h4, hup, bind, Except.bind] at this
    exact this

theorem point_of_updPoint {Xc Yc : Cmp} {best : BRule} {s : UState} {st1 : LearnState} {h : HeadSampler}
    {pool : List BRule} {pc : UpdPc}
    (hp : LoopPoint env p lr X Xc Yc st0 (.adding best (.rows (env.order best.support)))
      { sampler := (st1.sampler.1, h), selected := st1.selected, pool := pool })
    (hu : UpdPoint (env.order best.support) (env.orderZ best.tail.toFinset) st1.sampler.1 pc s) :
    LoopPoint env p lr X Xc Yc st0 (.adding best pc)
      { sampler := (s, h), selected := st1.selected, pool := pool } := by
  induction hu with
  | start => exact hp
  | step _ hs ih => exact .updating ih hs

theorem point_of_iter (he : env.Good) (hD : LearnData env X Y) (hlr : LearnerTotal X Y lr) {held : List BRule}
    {st : LearnState} (hi : LearnInv env q X Y held st) (h : LoopPoint env p lr X X.flip Y.flip st0 .head st)
    {x : Py (IterResult (UState × HeadSampler))} (hx : (learnIter env p lr X X.flip Y.flip st).Outcome x) :
    (∀ st', x = .ok (.next st') → LoopPoint env p lr X X.flip Y.flip st0 .head st') ∧
    (∀ st', x = .ok (.done st') → LoopPoint env p lr X X.flip Y.flip st0 .left st') ∧
    ∀ e, x = .error e → ∃ pc st', LoopPoint env p lr X X.flip Y.flip st0 pc st' ∧
      LoopRaises env p lr X X.flip Y.flip pc st' e := by
  have hx0 := hx
  unfold learnIter at hx
  rw [RandR.bind_eq, RandR.outcome_bind] at hx
  rcases hx with ⟨⟨g, h'⟩, hg, hx⟩ | ⟨e, hg, -⟩
  swap
  · obtain ⟨-, hta⟩ := hi.tails.choose_spec
    obtain ⟨g, h', e, -⟩ := learnGen_outcome he hD hta p.nHeads p.nTails _ [] _ hi.heads (by simp) hg
    cases e
  cases g with
  | error e =>
    by_cases hne : e = .noMoreSamples
    · subst hne
      cases hx
      refine ⟨fun _ h => (by cases h), fun st' hs => ?_, fun _ h => (by cases h)⟩
      cases hs
      exact .exhausted h hg
    · have hxe : x = .error e := by
        cases e <;> first | exact absurd rfl hne | exact hx
      subst hxe
      refine ⟨fun _ h => (by cases h), fun _ h => (by cases h), fun e' h' => ?_⟩
      cases h'
      exact ⟨_, _, h, .generation hne hg⟩
  | ok cands =>
    have hpool := LoopPoint.pooled (.generated h hg)
    change x = learnChoose env lr st h' cands at hx
    unfold learnChoose at hx
    rcases hb : pyMax (lr.objective st.selected) (env.setOrder cands) with e | best
    · rw [hb] at hx
      cases hx
      refine ⟨fun _ h => (by cases h), fun _ h => (by cases h), fun e' h' => ?_⟩
      cases h'
      exact ⟨_, _, hpool, .choosing hb⟩
    rw [hb] at hx
    simp only [bind, Except.bind] at hx
    rcases hst : lr.stop st.selected best with e | stop
    · rw [hst] at hx
      cases hx
      refine ⟨fun _ h => (by cases h), fun _ h => (by cases h), fun e' h' => ?_⟩
      cases h'
      exact ⟨_, _, hpool, .stopping hb hst⟩
    rw [hst] at hx
    cases stop with
    | true =>
      cases hx
      refine ⟨fun _ h => (by cases h), fun st' hs => ?_, fun _ h => (by cases h)⟩
      cases hs
      exact .stopped hpool hb hst
    | false =>
      have hadd := LoopPoint.chosen hpool hb hst
      obtain ⟨space, newRows, us, new, -, -, hu⟩ := inv_updates he hD hi
      have hpts := C135_points_of_the_call space newRows us _ hu (env.order best.support)
        (env.orderZ best.tail.toFinset)
      rcases hup : updateRowWeights st.sampler.1 (env.order best.support) (env.orderZ best.tail.toFinset) with
        e | s'
      · simp only [hup, Bool.false_eq_true, if_false] at hx
        cases hx
        refine ⟨fun _ h => (by cases h), fun _ h => (by cases h), fun e' h' => ?_⟩
        cases h'
        obtain ⟨pc, obj, h1, h2⟩ := (hpts.2 e).mpr hup
        exact ⟨_, _, point_of_updPoint hadd h1, .updating h2⟩
      · simp only [hup, Bool.false_eq_true, if_false] at hx
        cases hx
        refine ⟨fun st' hs => ?_, fun _ h => (by cases h), fun _ h => (by cases h)⟩
        cases hs
        exact .added (point_of_updPoint hadd ((hpts.1 s').mpr hup))

theorem point_of_steps (he : env.Good) (hD : LearnData env X Y) (hlr : LearnerTotal X Y lr) {held : List BRule}
    (h0 : LearnInv env q X Y held st0) {st : LearnState} (h : LoopSteps env p lr X X.flip Y.flip st0 st) :
    LoopPoint env p lr X X.flip Y.flip st0 .head st := by
  induction h with
  | refl => exact .start
  | step hs hn ih => exact (point_of_iter he hD hlr (steps_inv he hD hlr h0 hs) ih hn).1 _ rfl

/-- Every added rule was a greedy choice. -/
theorem steps_trace (he : env.Good) (hD : LearnData env X Y) (hlr : LearnerTotal X Y lr)
    (h0 : LearnInv env q X Y [] st0) {st : LearnState} (h : LoopSteps env p lr X X.flip Y.flip st0 st) :
    st0.selected <+: st.selected ∧ ∀ i (hi : i < st.selected.length), st0.selected.length ≤ i →
      BestCandidate env p lr q X Y (st.selected.take i) st.selected[i] ∧
        lr.stop (st.selected.take i) st.selected[i] = .ok false := by
  induction h with
  | refl => exact ⟨List.prefix_rfl, fun i hi hle => absurd hi (by omega)⟩
  | @step st st' hs hn ih =>
    obtain ⟨h', cands, best, h1, h2, h3, h4, -⟩ := learnIter_next hn
    refine ⟨h4 ▸ ih.1.trans (List.prefix_append _ _), fun i hi hle => ?_⟩
    by_cases hlt : i < st.selected.length
    · have htake : st'.selected.take i = st.selected.take i := by
        rw [h4, List.take_append_of_le_length (by omega)]
      have hget : st'.selected[i] = st.selected[i] := by
        simp only [h4]
        rw [List.getElem_append_left hlt]
      rw [htake, hget]
      exact ih.2 i hlt hle
    · have hii : i = st.selected.length := by
        rw [h4] at hi
        simp at hi
        omega
      have htake : st'.selected.take i = st.selected := by rw [h4, hii, List.take_left]
      have hget : st'.selected[i] = best := by
        simp only [h4, hii]
        simp
      rw [htake, hget]
      obtain ⟨⟨new, hnew, hta⟩, hhr, -⟩ := steps_inv he hD hlr h0 hs
      rw [List.nil_append] at hnew
      rw [← hnew] at hta
      exact ⟨⟨_, _, cands, h', hta, hhr, h1, h2⟩, h3⟩

end

theorem tailAfter_history {env : LearnEnv} (he : env.Good) {X Y : Cmp} (hD : LearnData env X Y) {q : ℚ}
    {us : List (List ℕ × List ℤ)} {s : UState} (h : TailAfter env.toHeadEnv q true Y us s) : s.history = us := by
  obtain ⟨s0, hf, hu⟩ := h
  obtain ⟨g, space, -, hf', -⟩ := tailFit_ok he.heads q true [] hD.labels hD.colsY hD.depthY
  rw [hf'] at hf
  cases hf
  obtain ⟨-, rfl⟩ := fresh_applyUpdates_inv (space := space) (newRows := naiveNewRows Y space) hu
  rfl

theorem applyUpdates_snoc {u : List ℕ × List ℤ} : ∀ {us : List (List ℕ × List ℤ)} {s s1 s2 : UState},
    applyUpdates s us = .ok s1 → updateRowWeights s1 u.1 u.2 = .ok s2 → applyUpdates s (us ++ [u]) = .ok s2
  | [], s, s1, s2, h1, h2 => by
    cases h1
    rw [List.nil_append, applyUpdates, h2]
    rfl
  | v :: us, s, s1, s2, h1, h2 => by
    rw [applyUpdates] at h1
    rw [List.cons_append, applyUpdates]
    rcases hv : updateRowWeights s v.1 v.2 with e | s'
    · rw [hv] at h1; cases h1
    · rw [hv] at h1
      exact applyUpdates_snoc (us := us) h1 h2

/-! ### C137 -/

section
variable (env : LearnEnv) (he : env.Good) (X Y : Cmp) (hD : LearnData env X Y) (pf pl : ℚ) (p : Params) (lr : Learner)
  (k : ℕ) (hlr : lr = learnerDivMax p Y ∨ (p.nMaxRules = some k ∧ (lr = learnerV2 p ∨ lr = learnerV3 p)))
include he hD hlr

theorem learner_total : LearnerTotal X Y lr := by
  rcases hlr with rfl | ⟨hk, rfl | rfl⟩
  · exact total_DivMax hD.features.toWF hD.labels hD.rows p
  · exact total_V2 hD.features.toWF hD.labels.toWF hD.rows hk
  · exact total_V3 hD.features.toWF hD.labels.toWF hD.rows hk

/-- **C137.** The points are those of the fit: the loop can be left with the rules and samplers of `st` exactly if `st`
is met after it, and the fit can raise `e` exactly if the statement at one of the points can. -/
theorem C137_points_of_the_fit :
    (∀ st, FitPoint env p lr (LearnObj.new pf pl) X Y .left st ↔
      ∃ fuel, (learnRun env p lr (LearnObj.new pf pl) X Y fuel).Outcome (.ok (some st))) ∧
    ∀ e, (∃ pc st, FitPoint env p lr (LearnObj.new pf pl) X Y pc st ∧
        LoopRaises env p lr X X.flip Y.flip pc st e) ↔
      ∃ fuel, (learnRun env p lr (LearnObj.new pf pl) X Y fuel).Outcome (.error e) := by
  obtain ⟨s, hs, -, hinv⟩ := new_inv he hD pf pl
  have htot := learner_total env he X Y hD p lr k hlr
  have hfp : ∀ pc st, FitPoint env p lr (LearnObj.new pf pl) X Y pc st ↔
      LoopPoint env p lr X X.flip Y.flip
        { sampler := (s, (LearnObj.new pf pl).heads), selected := [], pool := [] } pc st := by
    intro pc st
    constructor
    · rintro ⟨s', hs', h⟩
      have : s' = s := by
        have : (Except.ok s' : Py UState) = .ok s := hs'.symm.trans hs
        cases this
        rfl
      subst this
      exact h
    · exact fun h => ⟨s, hs, h⟩
  simp only [hfp, learnRun_new hs]
  refine ⟨fun st => ⟨fun h => ?_, fun ⟨fuel, h⟩ => ?_⟩, fun e => ⟨fun ⟨pc, st, h, hr⟩ => ?_, fun ⟨fuel, h⟩ => ?_⟩⟩
  · obtain ⟨st1, h1, h2⟩ := behind_of_point he hD htot hinv h
    refine loop_of_steps (st' := st1) h1 1 _ ?_
    rw [learnLoop, RandR.bind_eq, RandR.outcome_bind]
    exact Or.inl ⟨_, h2, rfl⟩
  · obtain ⟨st1, h1, h2⟩ := (steps_of_loop fuel _ .refl _ h).1 st rfl
    exact (point_of_iter he hD htot (steps_inv he hD htot hinv h1) (point_of_steps he hD htot hinv h1) h2).2.1 _ rfl
  · have hb := behind_of_point he hD htot hinv h
    have hiter : ∃ st1, LoopSteps env p lr X X.flip Y.flip
        { sampler := (s, (LearnObj.new pf pl).heads), selected := [], pool := [] } st1 ∧
        (learnIter env p lr X X.flip Y.flip st1).Outcome (.error e) := by
      cases hr with
      | generation hne hg =>
        refine ⟨st, hb, ?_⟩
        have := learnIter_gen_error (lr := lr) hg
        rwa [if_neg hne] at this
      | choosing hm =>
        obtain ⟨st1, h, h1, h2, rfl⟩ := hb
        refine ⟨st1, h1, ?_⟩
        have := learnIter_gen_ok (lr := lr) h2
        unfold learnChoose at this
        simp only [hm, bind, Except.bind] at this
        exact this
      | stopping hm hst =>
        obtain ⟨st1, h, h1, h2, rfl⟩ := hb
        refine ⟨st1, h1, ?_⟩
        have := learnIter_gen_ok (lr := lr) h2
        unfold learnChoose at this
        simp only [hm, hst, bind, Except.bind] at this
        exact this
      | updating hu =>
        obtain ⟨st1, h, cands, s1, h1, h2, h3, h4, h5, rfl⟩ := hb
        refine ⟨st1, h1, ?_⟩
        obtain ⟨space, newRows, us, new, -, -, hup⟩ := inv_updates he hD (steps_inv he hD htot hinv h1)
        have hup := ((C135_points_of_the_call space newRows us _ hup _ _).2 _).mp ⟨_, _, h5, hu⟩
        have := learnIter_gen_ok (lr := lr) h2
        unfold learnChoose at this
        simp only [h3, h4, hup, bind, Except.bind] at this
        exact this
    obtain ⟨st1, h1, h2⟩ := hiter
    refine loop_of_steps (st' := st1) h1 1 _ ?_
    rw [learnLoop, RandR.bind_eq, RandR.outcome_bind]
    exact Or.inr ⟨_, h2, rfl⟩
  · obtain ⟨st1, h1, h2⟩ := (steps_of_loop fuel _ .refl _ h).2 e rfl
    exact (point_of_iter he hD htot (steps_inv he hD htot hinv h1) (point_of_steps he hD htot hinv h1) h2).2.2 _ rfl

/-- **C137.** Wherever the loop of a first fit is interrupted or raises, the object holds rules that all have a supporting
row, each the greedy choice after those before it, none of which met the stopping test; the update history of the tail
sampler lists the updates for exactly these rules, except between the end of an update and the addition of the rule,
where it is one ahead. Unless an update was in progress, the tail sampler is in the state in which these updates put
it. -/
theorem C137_interrupted (pc : LoopPc) (st : LearnState)
    (h : FitPoint env p lr (LearnObj.new pf pl) X Y pc st) :
    (∀ b ∈ st.selected, Supported X Y b) ∧
    (∀ i (hi : i < st.selected.length),
      BestCandidate env p lr pl X Y (st.selected.take i) st.selected[i] ∧
        lr.stop (st.selected.take i) st.selected[i] = .ok false) ∧
    match (generalizing := false) pc with
    | .adding best .returned =>
        TailAfter env.toHeadEnv pl true Y ((st.selected ++ [best]).map (updateOf env)) st.sampler.1 ∧
        st.sampler.1.history = (st.selected ++ [best]).map (updateOf env) ∧
        BestCandidate env p lr pl X Y st.selected best
    | .adding best _ =>
        st.sampler.1.history = st.selected.map (updateOf env) ∧ BestCandidate env p lr pl X Y st.selected best
    | _ => TailAfter env.toHeadEnv pl true Y (st.selected.map (updateOf env)) st.sampler.1 ∧
        st.sampler.1.history = st.selected.map (updateOf env) := by
  obtain ⟨s, hs, -, hinv⟩ := new_inv he hD pf pl
  have htot := learner_total env he X Y hD p lr k hlr
  obtain ⟨s', hs', h⟩ := h
  have : s' = s := by
    have : (Except.ok s' : Py UState) = .ok s := hs'.symm.trans hs
    cases this
    rfl
  subst this
  have hb := behind_of_point he hD htot hinv h
  -- the state at the last complete iteration
  have key : ∀ st1, LoopSteps env p lr X X.flip Y.flip
        { sampler := (s', (LearnObj.new pf pl).heads), selected := [], pool := [] } st1 →
      (∀ b ∈ st1.selected, Supported X Y b) ∧
      (∀ i (hi : i < st1.selected.length), BestCandidate env p lr pl X Y (st1.selected.take i) st1.selected[i] ∧
        lr.stop (st1.selected.take i) st1.selected[i] = .ok false) ∧
      TailAfter env.toHeadEnv pl true Y (st1.selected.map (updateOf env)) st1.sampler.1 ∧
      st1.sampler.1.history = st1.selected.map (updateOf env) ∧ HeadReach env.toHeadEnv X st1.sampler.2 := by
    intro st1 h1
    have hi := steps_inv he hD htot hinv h1
    obtain ⟨⟨new, hnew, hta⟩, hhr, hsel, -⟩ := hi
    rw [List.nil_append] at hnew
    rw [← hnew] at hta
    exact ⟨hsel, fun i hi => (steps_trace he hD htot hinv h1).2 i hi (by simp), hta, tailAfter_history he hD hta, hhr⟩
  cases pc with
  | head =>
    obtain ⟨h1, h2, h3, h4, -⟩ := key st hb
    exact ⟨h1, h2, h3, h4⟩
  | generating =>
    obtain ⟨st1, h, hst, rfl⟩ := hb
    obtain ⟨h1, h2, h3, h4, -⟩ := key st1 hst
    exact ⟨h1, h2, h3, h4⟩
  | generated cands =>
    obtain ⟨st1, h, hst, -, rfl⟩ := hb
    obtain ⟨h1, h2, h3, h4, -⟩ := key st1 hst
    exact ⟨h1, h2, h3, h4⟩
  | pooled cands =>
    obtain ⟨st1, h, hst, -, rfl⟩ := hb
    obtain ⟨h1, h2, h3, h4, -⟩ := key st1 hst
    exact ⟨h1, h2, h3, h4⟩
  | left =>
    obtain ⟨st1, hst, hd⟩ := hb
    obtain ⟨h1, h2, h3, h4, -⟩ := key st1 hst
    rcases learnIter_outcome he hD htot (steps_inv he hD htot hinv hst) hd with ⟨st', e, hi, hsel, -⟩ |
      ⟨st', b, e, hi, -⟩ | e | ⟨e, -⟩ | ⟨e, -⟩ <;> cases e
    obtain ⟨⟨new, hnew, hta⟩, -⟩ := hi
    rw [List.nil_append] at hnew
    rw [← hnew] at hta
    refine ⟨hsel ▸ h1, ?_, hta, tailAfter_history he hD hta⟩
    have h2' := h2
    rw [← hsel] at h2'
    exact h2'
  | adding best pc =>
    obtain ⟨st1, hd', cands, s1, hst, hg, hm, hstop, hu, rfl⟩ := hb
    obtain ⟨h1, h2, h3, h4, h5⟩ := key st1 hst
    have hbest : BestCandidate env p lr pl X Y st1.selected best := by
      refine ⟨_, _, cands, hd', h3, h5, hg, ?_⟩
      obtain ⟨hmem, v, hv, hall⟩ := pyMax_spec hm
      exact ⟨(env.setOrder_perm cands).mem_iff.mp hmem, v, hv,
        fun c hc => hall c ((env.setOrder_perm cands).mem_iff.mpr hc)⟩
    obtain ⟨space, newRows, us, new, hnew, hus, hup⟩ := inv_updates he hD (steps_inv he hD htot hinv hst)
    rw [List.nil_append] at hnew
    subst hnew
    have hne : ∀ pc', pc' = pc → pc' ≠ .returned → s1.history = st1.selected.map (updateOf env) := by
      intro pc' e hpc
      subst e
      rw [(C135_interrupted space newRows us _ hup _ _ _ _ hu hpc).2.2.1, hus]
    refine ⟨h1, h2, ?_⟩
    cases pc with
    | returned =>
      have hret := ((C135_points_of_the_call space newRows us _ hup _ _).1 _).mp hu
      have hta : TailAfter env.toHeadEnv pl true Y ((st1.selected ++ [best]).map (updateOf env)) s1 := by
        obtain ⟨s0, hf, ha⟩ := h3
        refine ⟨s0, hf, ?_⟩
        rw [List.map_append]
        exact applyUpdates_snoc ha hret
      exact ⟨hta, tailAfter_history he hD hta, hbest⟩
    | rows todo => exact ⟨hne _ rfl (by simp), hbest⟩
    | labels r els todo => exact ⟨hne _ rfl (by simp), hbest⟩
    | forget r el els todo => exact ⟨hne _ rfl (by simp), hbest⟩
    | normalise => exact ⟨hne _ rfl (by simp), hbest⟩
    | record => exact ⟨hne _ rfl (by simp), hbest⟩

end

/-- **C137.** With `n_max_rules`, interrupting a fit after `k` rules were added is stopping early: a fit with
`n_max_rules = k` passes through the same state, and unless drawing the next candidates raises it ends there, with
the same rules. -/
theorem C137_anytime (env : LearnEnv) (p : Params) (o : LearnObj) (X Y : Cmp) (st : LearnState) (k m : ℕ)
    (hm : p.nMaxRules = some m) (mk : Params → Learner) (hmk : mk = learnerV2 ∨ mk = learnerV3)
    (h : FitPoint env p (mk p) o X Y .head st) (hk : st.selected.length = k) :
    FitPoint env { p with nMaxRules := some k } (mk { p with nMaxRules := some k }) o X Y .head st ∧
    ∀ x, (learnIter env { p with nMaxRules := some k } (mk { p with nMaxRules := some k })
        X X.flip Y.flip st).Outcome x →
      (∃ st', x = .ok (.done st') ∧ st'.selected = st.selected) ∨ ∃ e, x = .error e := by
  have hstop : ∀ sel b, (mk { p with nMaxRules := some k }).stop sel b = .ok (decide (sel.length ≥ k)) := by
    rcases hmk with rfl | rfl <;> exact fun sel b => rfl
  have hobj : (mk { p with nMaxRules := some k }).objective = (mk p).objective := by
    rcases hmk with rfl | rfl <;> rfl
  generalize hlr : mk { p with nMaxRules := some k } = lr at hstop hobj
  constructor
  · obtain ⟨s, hs, h⟩ := h
    refine ⟨s, hs, ?_⟩
    have key : ∀ pc st, LoopPoint env p (mk p) X X.flip Y.flip
          { sampler := (s, o.heads), selected := o.selected, pool := [] } pc st →
        pc ≠ .left → (st.selected.length ≤ k ∧ ∀ b pc', pc = .adding b pc' → st.selected.length < k) →
        LoopPoint env { p with nMaxRules := some k } lr X X.flip Y.flip
          { sampler := (s, o.heads), selected := o.selected, pool := [] } pc st := by
      intro pc st h
      induction h with
      | start => exact fun _ _ => .start
      | generating _ heads ih => exact fun _ hl => .generating (ih (by simp) ⟨hl.1, fun _ _ e => by cases e⟩) heads
      | exhausted _ hg ih => exact fun hne => absurd rfl hne
      | generated _ hg ih => exact fun _ hl => .generated (ih (by simp) ⟨hl.1, fun _ _ e => by cases e⟩) hg
      | pooled _ ih => exact fun _ hl => .pooled (ih (by simp) ⟨hl.1, fun _ _ e => by cases e⟩)
      | stopped _ hb hs ih => exact fun hne => absurd rfl hne
      | chosen _ hb hs ih =>
        intro _ hl
        refine .chosen (ih (by simp) ⟨hl.1, fun _ _ e => by cases e⟩) (hobj ▸ hb) ?_
        rw [hstop]
        have := hl.2 _ _ rfl
        simpa using this
      | updating _ hu ih =>
        intro _ hl
        exact .updating (ih (by simp) ⟨hl.1, fun _ _ _ => hl.2 _ _ rfl⟩) hu
      | added _ ih =>
        intro _ hl
        have hl' := hl.1
        simp only [List.length_append, List.length_singleton] at hl'
        exact .added (ih (by simp) ⟨by omega, fun _ _ _ => by omega⟩)
    exact key _ _ h (by simp) ⟨hk.le, fun _ _ e => by cases e⟩
  · intro x hx
    unfold learnIter at hx
    rw [RandR.bind_eq, RandR.outcome_bind] at hx
    rcases hx with ⟨⟨g, h'⟩, -, hx⟩ | ⟨e, -, he⟩
    swap
    · exact Or.inr ⟨e, he⟩
    cases g with
    | error e => cases e <;> first | exact Or.inr ⟨_, hx⟩ | exact Or.inl ⟨_, hx, rfl⟩
    | ok cands =>
      change x = learnChoose env lr st h' cands at hx
      unfold learnChoose at hx
      rcases hb : pyMax (lr.objective st.selected) (env.setOrder cands) with e | best
      · rw [hb] at hx
        exact Or.inr ⟨e, hx⟩
      · rw [hb] at hx
        simp only [bind, Except.bind, hstop, hk, ge_iff_le, le_refl, decide_true, if_true] at hx
        exact Or.inl ⟨_, hx, rfl⟩

/-- **C137.** So the rules that an interrupted first fit holds between two iterations are rules that a complete fit with
a smaller `n_max_rules` can return, unless drawing one more batch of candidates raises. -/
theorem C137_anytime_run (env : LearnEnv) (he : env.Good) (X Y : Cmp) (hD : LearnData env X Y) (pf pl : ℚ) (p : Params)
    (st : LearnState) (k m : ℕ) (hm : p.nMaxRules = some m) (mk : Params → Learner)
    (hmk : mk = learnerV2 ∨ mk = learnerV3)
    (h : FitPoint env p (mk p) (LearnObj.new pf pl) X Y .head st) (hk : st.selected.length = k) :
    ∃ fuel x, (learnRun env { p with nMaxRules := some k } (mk { p with nMaxRules := some k })
        (LearnObj.new pf pl) X Y fuel).Outcome x ∧
      ((∃ st', x = .ok (some st') ∧ st'.selected = st.selected) ∨ ∃ e, x = .error e) := by
  obtain ⟨⟨s', hs', hpt⟩, hiter⟩ := C137_anytime env p (LearnObj.new pf pl) X Y st k m hm mk hmk h hk
  obtain ⟨s, hs, -, hinv⟩ := new_inv he hD pf pl
  have : s' = s := by
    have : (Except.ok s' : Py UState) = .ok s := hs'.symm.trans hs
    cases this
    rfl
  subst this
  have htot : LearnerTotal X Y (mk { p with nMaxRules := some k }) :=
    learner_total env he X Y hD { p with nMaxRules := some k } _ k
      (Or.inr ⟨rfl, by rcases hmk with rfl | rfl <;> simp⟩)
  have hsteps : LoopSteps _ _ _ _ _ _ _ st := behind_of_point he hD htot hinv hpt
  obtain ⟨x, hx⟩ := (learnIter_proper env { p with nMaxRules := some k } (mk { p with nMaxRules := some k })
    X X.flip Y.flip st).exists_outcome
  rcases hiter x hx with ⟨st', rfl, hsel⟩ | ⟨e, rfl⟩
  · obtain ⟨fuel, hf⟩ := loop_of_steps (st' := st) hsteps 1 (.ok (some st')) (by
      rw [learnLoop, RandR.bind_eq, RandR.outcome_bind]
      exact Or.inl ⟨_, hx, rfl⟩)
    exact ⟨fuel, _, by rw [learnRun_new hs]; exact hf, Or.inl ⟨st', rfl, hsel⟩⟩
  · obtain ⟨fuel, hf⟩ := loop_of_steps (st' := st) hsteps 1 (.error e) (by
      rw [learnLoop, RandR.bind_eq, RandR.outcome_bind]
      exact Or.inr ⟨_, hx, rfl⟩)
    exact ⟨fuel, _, by rw [learnRun_new hs]; exact hf, Or.inr ⟨e, rfl⟩⟩

/-- **C137.** The second round of `GreedyDivMax.fit`. From the moment it empties `selected_rules` the first round's rules
are kept in `selected_rules_round_1`, and after the `i`-th of its assignments `selected_rules` holds the first `i` greedy
choices from the pool, and nothing of the first round. -/
theorem C137_second_round (env : LearnEnv) (p : Params) (sel1 pool : List BRule) (n : ℕ) (o : SecondObj)
    (h : SecondPoint env p sel1 pool n o) :
    (n = 0 ∧ o.selected = sel1 ∧ o.obj = none) ∨
    (o.kept = some sel1 ∧ 0 < n ∧ n ≤ sel1.length + 1 ∧ o.obj = none ∧ o.selected.length + 1 = n ∧
      ∀ i (hi : i < o.selected.length),
        GreedyChoice (objectiveOfRule qualityOfRule p.lambd) (o.selected.take i) pool o.selected[i]) ∨
    (n = sel1.length + 2 ∧ o.kept = some sel1 ∧ o.obj ≠ none) := by
  induction h with
  | start => exact Or.inl ⟨rfl, rfl, rfl⟩
  | copied _ hv ih =>
    left
    rcases ih with ⟨-, h⟩ | ⟨-, h, -⟩ | ⟨h, -⟩
    · exact ⟨rfl, h⟩
    · omega
    · omega
  | cleared _ hk ih =>
    right; left
    refine ⟨hk, by omega, by omega, ?_, rfl, fun i hi => absurd hi (by simp)⟩
    rcases ih with ⟨-, -, h⟩ | ⟨-, h, -⟩ | ⟨h, -⟩
    · exact h
    · omega
    · omega
  | picked _ hp hi hb ih =>
    right; left
    rcases ih with ⟨h, -⟩ | ⟨h1, -, h2, h3, h4, h5⟩ | ⟨h, -⟩
    · omega
    · refine ⟨h1, by omega, by omega, h3, by simp; omega, fun j hj => ?_⟩
      rename_i o best _
      by_cases hlt : j < o.selected.length
      · have e1 : (o.selected ++ [best]).take j = o.selected.take j := List.take_append_of_le_length (by omega)
        have e2 : (o.selected ++ [best])[j]'(by simpa using hj) = o.selected[j] := List.getElem_append_left hlt
        simp only [e1, e2]
        exact h5 j hlt
      · have hj' : j = o.selected.length := by
          simp at hj
          omega
        subst hj'
        simp only [List.take_left, List.getElem_concat_length]
        obtain ⟨hmem, v, hv, hall⟩ := pyMax_spec hb
        exact ⟨(env.setOrder_perm pool).mem_iff.mp hmem, v, hv,
          fun c hc => hall c ((env.setOrder_perm pool).mem_iff.mpr hc)⟩
    · omega
  | finished _ _ _ _ ih => exact Or.inr (Or.inr ⟨rfl, rfl, by simp⟩)

theorem second_snoc {σ ω : Type} (S : Samplers σ ω) (obj : List BRule → BRule → Py ℝ) (pool : List BRule) :
    ∀ (n : ℕ) (sel : List BRule), pickLoop S obj pool (n + 1) sel = (do
      let l ← pickLoop S obj pool n sel
      let best ← selectBest S (obj l) pool
      .ok (l ++ [best]))
  | 0, sel => rfl
  | n + 1, sel => by
    rw [pickLoop]
    conv_rhs => rw [pickLoop]
    rcases selectBest S (obj sel) pool with e | best
    · rfl
    · exact second_snoc S obj pool n (sel ++ [best])

theorem second_pick {env : LearnEnv} {p : Params} {sel1 pool : List BRule} {n : ℕ} {o : SecondObj}
    (h : SecondPoint env p sel1 pool n o) (i : ℕ) (hn : n = i + 1) (hi : i ≤ sel1.length) :
    pickLoop env.secondRound (objectiveOfRule qualityOfRule p.lambd) pool i [] = .ok o.selected := by
  induction h generalizing i with
  | start => omega
  | copied => omega
  | cleared =>
    obtain rfl : i = 0 := by omega
    rfl
  | @picked j o best _ hp hj hb ih =>
    obtain rfl : i = j + 1 := by omega
    rw [second_snoc, ih j rfl (by omega)]
    have : selectBest env.secondRound (objectiveOfRule qualityOfRule p.lambd o.selected) pool = .ok best := hb
    simp only [bind, Except.bind, this]
  | finished => omega

theorem second_of_pick {env : LearnEnv} {p : Params} {sel1 pool : List BRule} (hp : pool ≠ []) {v : ℝ}
    (hv : objectiveOf qualityOfRule p.lambd sel1 sel1 = .ok v) : ∀ (i : ℕ) (sel : List BRule), i ≤ sel1.length →
      pickLoop env.secondRound (objectiveOfRule qualityOfRule p.lambd) pool i [] = .ok sel →
      SecondPoint env p sel1 pool (i + 1) { selected := sel, kept := some sel1, obj := none }
  | 0, sel, _, h => by
    cases h
    exact .cleared (.copied .start hv) rfl
  | i + 1, sel, hi, h => by
    rw [second_snoc] at h
    rcases hl : pickLoop env.secondRound (objectiveOfRule qualityOfRule p.lambd) pool i [] with e | l
    · rw [hl] at h; cases h
    rw [hl] at h
    simp only [bind, Except.bind] at h
    rcases hb : selectBest env.secondRound (objectiveOfRule qualityOfRule p.lambd l) pool with e | best
    · rw [hb] at h; cases h
    rw [hb] at h
    cases h
    exact .picked (second_of_pick hp hv i l (by omega) hl) hp (by omega) hb

/-- **C137.** The last point of the second round is what the fit returns with. -/
theorem C137_second_round_end (env : LearnEnv) (p : Params) (st : LearnState) (o : SecondObj) :
    SecondPoint env p st.selected st.pool (st.selected.length + 2) o ↔
      ∃ res, fitTail env.secondRound p st = .ok res ∧
        o = { selected := res.selected, kept := some res.round1, obj := some res.obj } := by
  constructor
  · intro h
    cases h with
    | picked _ _ hi _ => omega
    | finished h hp h1 h2 =>
      have hpick := second_pick h st.selected.length rfl le_rfl
      unfold fitTail fit2ndRound
      rw [h1]
      simp only [bind, Except.bind, if_neg (by simpa using hp : ¬ st.pool.length = 0), hpick, h2]
      exact ⟨_, rfl, rfl⟩
  · rintro ⟨res, h, rfl⟩
    unfold fitTail fit2ndRound at h
    rcases h1 : objectiveOf qualityOfRule p.lambd st.selected st.selected with e | v1
    · rw [h1] at h; cases h
    rw [h1] at h
    simp only [bind, Except.bind] at h
    by_cases hp : st.pool.length = 0
    · rw [if_pos hp] at h
      cases h
    rw [if_neg hp] at h
    rcases hpick : pickLoop env.secondRound (objectiveOfRule qualityOfRule p.lambd) st.pool st.selected.length [] with
      e | sel2
    · rw [hpick] at h; cases h
    rw [hpick] at h
    simp only [] at h
    rcases h2 : objectiveOf qualityOfRule p.lambd sel2 sel2 with e | v2
    · rw [h2] at h; cases h
    rw [h2] at h
    cases h
    have hp' : st.pool ≠ [] := by simpa using hp
    exact .finished (second_of_pick hp' h1 _ _ le_rfl hpick) hp' h1 h2

/-- **C137.** A fit that raises `InsufficientCandidates` has emptied `selected_rules`. -/
theorem C137_insufficient (env : LearnEnv) (p : Params) (st : LearnState) (hp : st.pool = [])
    (v : ℝ) (hv : objectiveOf qualityOfRule p.lambd st.selected st.selected = .ok v) :
    fitTail env.secondRound p st = .error .insufficientCandidates ∧
    SecondPoint env p st.selected st.pool 1 { selected := [], kept := some st.selected, obj := none } ∧
    ∀ n o, SecondPoint env p st.selected st.pool n o → n ≤ 1 := by
  refine ⟨?_, .cleared (.copied .start hv) rfl, fun n o h => ?_⟩
  · unfold fitTail fit2ndRound
    rw [hv]
    simp only [bind, Except.bind, hp, List.length_nil, if_true]
  · cases h with
    | start => omega
    | copied => omega
    | cleared => omega
    | picked _ h _ _ => exact absurd hp h
    | finished _ h _ _ => exact absurd hp h

/-- A fit whose loop is left with rules. -/
example : ∃ st, FitPoint (someLearnEnv 10) demoParams (learnerV2 demoParams) (LearnObj.new (1 / 2) (1 / 2))
    eyeData eyeData .left st ∧ st.selected ≠ [] := by
  obtain ⟨o, obj, hx, hne⟩ := eye_fits (1 / 2) (1 / 2) false 6 (by norm_num)
  simp only [Bool.false_eq_true, if_false] at hx
  unfold learnFitV2 at hx
  rw [RandR.bind_eq, RandR.outcome_bind] at hx
  rcases hx with ⟨r, hr, hx⟩ | ⟨e, -, h⟩
  swap
  · cases h
  cases r with
  | none => cases hx
  | some st =>
    refine ⟨st, ((C137_points_of_the_fit (someLearnEnv 10) (someLearnEnv_good 10) eyeData eyeData eye_data (1 / 2)
      (1 / 2) demoParams (learnerV2 demoParams) 5 (Or.inr ⟨rfl, Or.inl rfl⟩)).1 st).mpr ⟨6, hr⟩, ?_⟩
    simp only [RandR.bind_eq, RandR.outcome_bind] at hx
    rcases hx with ⟨v, -, hx⟩ | ⟨e, -, h⟩
    · cases hx
      exact hne
    · cases h

end Verif
