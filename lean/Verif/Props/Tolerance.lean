/-
What a smaller tolerance changes.
-/
import Verif.Props.Budget

namespace Verif

/-- Two learners with the same objective, the second of which stops whenever it and the first one disagree later, run
from the same state. -/
theorem loop_later {env : LearnEnv} (he : env.Good) {X Y : Cmp} (hD : LearnData env X Y) {pf pl : ℚ} {p p' : Params}
    (hH : p'.nHeads = p.nHeads) (hT : p'.nTails = p.nTails) {lr lr' : Learner} (hlr : LearnerTotal X Y lr)
    (hlr' : LearnerTotal X Y lr') (hobj : lr'.objective = lr.objective)
    (hstop : ∀ sel b, lr'.stop sel b = lr.stop sel b ∨ lr.stop sel b = .ok true ∧ lr'.stop sel b = .ok false)
    {F G : Py (Option LearnState) → ℝ} (h1 : ∀ e, F (.error e) ≤ G (.error e)) (h2 : F (.ok none) ≤ G (.ok none))
    (h3 : ∀ st st' : LearnState, st.selected <+: st'.selected → F (.ok (some st')) ≤ G (.ok (some st)))
    (h4 : ∀ e st, F (.error e) ≤ G (.ok (some st))) (h5 : ∀ st, F (.ok none) ≤ G (.ok (some st))) :
    ∀ (fuel : ℕ) (st : LearnState), LoopInv env pf pl X Y st →
      (learnLoop env p' lr' X X.flip Y.flip fuel st).expect F ≤ (learnLoop env p lr X X.flip Y.flip fuel st).expect G
  | 0, _, _ => h2
  | fuel + 1, st, hst => by
    have hdis := (learnGen_discrete he hD hst.tails p.nHeads p.nTails _ [] hst.inv.heads hst.tight hst.threshold).1
    have hself : ∀ st' : LearnState, F (.ok (some st')) ≤ G (.ok (some st')) := fun st' => h3 _ _ (List.prefix_refl _)
    rw [learnLoop, learnLoop, RandR.bind_eq, RandR.bind_eq, RandR.expect_bind, RandR.expect_bind]
    unfold learnIter
    rw [RandR.bind_eq, RandR.bind_eq, RandR.expect_bind, RandR.expect_bind, hH, hT]
    refine hdis.mono fun x hx => ?_
    rcases x with e | ⟨g, h'⟩
    · exact h1 e
    rcases g with e | cands
    · cases e
      case noMoreSamples => exact hself _
      all_goals exact h1 _
    have key : ∀ y y', learnChoose env lr st h' cands = y → learnChoose env lr' st h' cands = y' →
        RandR.after F (fun r => match r with
          | .done st' => pure (some st')
          | .next st' => learnLoop env p' lr' X X.flip Y.flip fuel st') y' ≤
        RandR.after G (fun r => match r with
          | .done st' => pure (some st')
          | .next st' => learnLoop env p lr X X.flip Y.flip fuel st') y := by
      intro y y' hy hy'
      have hout : ∀ st', y = .ok (.next st') → LoopInv env pf pl X Y st' := fun st' e => by
        refine hst.next he hD hlr (p := p) ?_
        unfold learnIter
        rw [RandR.bind_eq, RandR.outcome_bind]
        exact Or.inl ⟨_, hx, (hy.trans e).symm⟩
      have hout' : ∀ st', y' = .ok (.next st') → LoopInv env pf pl X Y st' := fun st' e => by
        refine hst.next he hD hlr' (p := p') ?_
        unfold learnIter
        rw [RandR.bind_eq, RandR.outcome_bind, hH, hT]
        exact Or.inl ⟨_, hx, (hy'.trans e).symm⟩
      unfold learnChoose at hy hy'
      rw [hobj] at hy'
      rcases hb : pyMax (lr.objective st.selected) (env.setOrder cands) with e | best
      · rw [hb] at hy hy'
        subst hy hy'
        exact h1 e
      rw [hb] at hy hy'
      rcases hstop st.selected best with hs | ⟨hs, hs'⟩
      · simp only [bind, Except.bind, hs] at hy hy'
        rw [hy] at hy'
        subst hy'
        rcases y with e | r
        · exact h1 e
        cases r with
        | done st' => exact hself _
        | next st' => exact loop_later he hD hH hT hlr hlr' hobj hstop h1 h2 h3 h4 h5 fuel _ (hout _ rfl)
      · simp only [bind, Except.bind, hs, hs', if_true, Bool.false_eq_true, if_false] at hy hy'
        subst hy
        rcases hu : updateRowWeights st.sampler.1 (env.order best.support) (env.orderZ best.tail.toFinset) with e | s'
        · rw [hu] at hy'
          subst hy'
          exact h4 _ _
        rw [hu] at hy'
        subst hy'
        have hinv := hout' _ rfl
        refine le_trans ((learnLoop_discrete he hD hlr' fuel _ hinv).mono fun x hx => ?_)
          (le_of_eq ((learnLoop_discrete he hD hlr' fuel _ hinv).expect_const _))
        rcases x with e | r
        · exact h4 _ _
        rcases r with _ | st''
        · exact h5 _
        refine h3 _ _ ?_
        rcases learnLoop_outcome he hD hlr' fuel _ _ hinv.inv hx with e | ⟨s1, e, -, hpre, -⟩ | e | ⟨e, -⟩ | ⟨e, -⟩ <;>
          cases e
        exact (List.prefix_append _ _).trans hpre
    exact key _ _ rfl rfl

/-- `fit` of a new `GreedyCFTPDivMax` without a rule budget, with a tolerance. -/
noncomputable abbrev fitTolerance (env : LearnEnv) (p : Params) (pf pl : ℚ) (X Y : Cmp) (t : ℚ) (fuel : ℕ) :
    RandR (Option (LearnObj × FitResult)) :=
  learnFitDivMax env { p with nMaxRules := none, tolerance := t } (LearnObj.new pf pl) X Y fuel

theorem tolerance_stop (p : Params) (Y : Cmp) {t t' : ℚ} (htt : t' ≤ t) (sel : List BRule) (b : BRule) :
    (learnerDivMax { p with nMaxRules := none, tolerance := t' } Y).stop sel b =
        (learnerDivMax { p with nMaxRules := none, tolerance := t } Y).stop sel b ∨
      (learnerDivMax { p with nMaxRules := none, tolerance := t } Y).stop sel b = .ok true ∧
        (learnerDivMax { p with nMaxRules := none, tolerance := t' } Y).stop sel b = .ok false := by
  simp only [learnerDivMax, shouldStopDivMax]
  rcases marginalCoverageRatio Y sel b with e | mc
  · exact Or.inl rfl
  · simp only [bind, Except.bind, pure, Except.pure, Except.ok.injEq, decide_eq_true_eq, decide_eq_false_iff_not,
      decide_eq_decide, not_le]
    by_cases h : mc ≤ t
    · by_cases h' : mc ≤ t'
      · exact Or.inl (by simp [h, h'])
      · exact Or.inr ⟨h, not_le.mp h'⟩
    · exact Or.inl (by simp only [h, iff_false, not_le]; exact htt.trans_lt (not_le.mp h))

open Classical in
theorem divmax_of_loop {env : LearnEnv} (he : env.Good) {X Y : Cmp} (hD : LearnData env X Y)
    (hlab : ∃ i l, Y.Stored i l) {pf pl : ℚ} {p : Params} (fuel : ℕ) :
    (∀ E : List BRule → Prop, (learnFitDivMax env p (LearnObj.new pf pl) X Y fuel).probOf
        (fun x => ∃ o res, x = .ok (some (o, res)) ∧ E res.round1) =
      (learnRun env p (learnerDivMax p Y) (LearnObj.new pf pl) X Y fuel).probOf
          (fun x => ∃ st, x = .ok (some st) ∧ E st.selected)) ∧
    (learnFitDivMax env p (LearnObj.new pf pl) X Y fuel).probOf (fun x => ∃ e, x = .error e) =
      (learnRun env p (learnerDivMax p Y) (LearnObj.new pf pl) X Y fuel).probOf (fun x => ∃ e, x = .error e) := by
  have hlr : LearnerTotal X Y (learnerDivMax p Y) := total_DivMax hD.features.toWF hD.labels hD.rows _
  obtain ⟨s, hs, hi⟩ := start_inv he hD pf pl
  constructor
  · intro E
    unfold RandR.probOf learnFitDivMax
    rw [RandR.bind_eq, RandR.expect_bind]
    refine RandR.expect_congr (by rw [learnRun_new hs]; exact learnLoop_proper _ _ _ _ _ _ _ _) fun x hx => ?_
    have hx' := hx
    rw [learnRun_new hs] at hx'
    rcases learnLoop_outcome he hD hlr fuel _ _ hi.inv hx' with rfl | ⟨st', rfl, hi', -⟩ | rfl | ⟨rfl, -⟩ | ⟨rfl, -⟩
    · rw [if_neg (by rintro ⟨_, e, -⟩; cases e)]
      exact if_neg (by rintro ⟨_, _, e, -⟩; cases e)
    · obtain ⟨res, hres, h1⟩ := second_round_returns he hD hlab hx
      simp only [RandR.after, hres]
      refine if_congr ⟨?_, ?_⟩ rfl rfl
      · rintro ⟨o, v', e, h⟩
        cases e
        exact ⟨st', rfl, by rw [← h1]; exact h⟩
      · rintro ⟨st'', e, h⟩
        cases e
        exact ⟨_, _, rfl, by rw [h1]; exact h⟩
    all_goals
      rw [if_neg (by rintro ⟨_, e, -⟩; cases e)]
      exact if_neg (by rintro ⟨_, _, e, -⟩; cases e)
  · unfold RandR.probOf learnFitDivMax
    rw [RandR.bind_eq, RandR.expect_bind]
    refine RandR.expect_congr (by rw [learnRun_new hs]; exact learnLoop_proper _ _ _ _ _ _ _ _) fun x hx => ?_
    have hx' := hx
    rw [learnRun_new hs] at hx'
    rcases learnLoop_outcome he hD hlr fuel _ _ hi.inv hx' with rfl | ⟨st', rfl, hi', -⟩ | rfl | ⟨rfl, -⟩ | ⟨rfl, -⟩
    · rw [if_neg (by rintro ⟨_, e⟩; cases e)]
      exact if_neg (by rintro ⟨_, e⟩; cases e)
    · obtain ⟨res, hres, h1⟩ := second_round_returns he hD hlab hx
      simp only [RandR.after, hres]
      rw [if_neg (by rintro ⟨_, e⟩; cases e)]
      exact if_neg (by rintro ⟨_, e⟩; cases e)
    all_goals
      rw [if_pos ⟨_, rfl⟩]
      exact if_pos ⟨_, rfl⟩

/-- **C165** For tolerances `t' ≤ t` and a property that a list of rules passes on to its beginnings: the first round of
`GreedyCFTPDivMax` returns with it at most as often for the smaller tolerance, which lets the round go on where the
greater one ends it. And for the smaller tolerance `fit` raises at least as often. -/
theorem C165_shorter (env : LearnEnv) (he : env.Good) (X Y : Cmp) (hD : LearnData env X Y) (hlab : ∃ i l, Y.Stored i l)
    (pf pl : ℚ) (p : Params) (t t' : ℚ) (htt : t' ≤ t) (fuel : ℕ) :
    (∀ E : List BRule → Prop, (∀ l l', l <+: l' → E l' → E l) →
      (fitTolerance env p pf pl X Y t' fuel).probOf (fun x => ∃ o res, x = .ok (some (o, res)) ∧ E res.round1) ≤
        (fitTolerance env p pf pl X Y t fuel).probOf (fun x => ∃ o res, x = .ok (some (o, res)) ∧ E res.round1)) ∧
    (fitTolerance env p pf pl X Y t fuel).probOf (fun x => ∃ e, x = .error e) ≤
      (fitTolerance env p pf pl X Y t' fuel).probOf (fun x => ∃ e, x = .error e) := by
  classical
  have hlr : ∀ t, LearnerTotal X Y (learnerDivMax { p with nMaxRules := none, tolerance := t } Y) := fun t =>
    total_DivMax hD.features.toWF hD.labels hD.rows _
  obtain ⟨s, hs, hi⟩ := start_inv he hD pf pl
  have hfit := fun t => divmax_of_loop he hD hlab (pf := pf) (pl := pl) (p := { p with nMaxRules := none, tolerance := t })
    fuel
  constructor
  · intro E hE
    unfold fitTolerance
    rw [(hfit t).1 E, (hfit t').1 E, learnRun_new hs, learnRun_new hs]
    refine loop_later he hD (p := { p with nMaxRules := none, tolerance := t })
      (p' := { p with nMaxRules := none, tolerance := t' }) rfl rfl (hlr t) (hlr t') rfl (tolerance_stop p Y htt)
      (fun e => le_rfl) le_rfl ?_ ?_ ?_ fuel _ hi
    · intro st st' hst
      by_cases h : E st'.selected
      · rw [if_pos ⟨_, rfl, h⟩, if_pos ⟨_, rfl, hE _ _ hst h⟩]
      · rw [if_neg (by rintro ⟨_, e, h'⟩; cases e; exact h h')]
        split_ifs <;> norm_num
    · intro e st
      rw [if_neg (by rintro ⟨_, e, -⟩; cases e)]
      split_ifs <;> norm_num
    · intro st
      rw [if_neg (by rintro ⟨_, e, -⟩; cases e)]
      split_ifs <;> norm_num
  · unfold fitTolerance
    rw [(hfit t).2, (hfit t').2]
    have hd := fun t => learnRun_discrete he hD pf pl (hlr t) (p := { p with nMaxRules := none, tolerance := t }) fuel
    have hnot := fun t => (hd t).probOf_not fun x => ∃ e, x = .error e
    have hle : (learnRun env { p with nMaxRules := none, tolerance := t' }
          (learnerDivMax { p with nMaxRules := none, tolerance := t' } Y) (LearnObj.new pf pl) X Y fuel).probOf
          (fun x => ¬ ∃ e, x = .error e) ≤
        (learnRun env { p with nMaxRules := none, tolerance := t }
          (learnerDivMax { p with nMaxRules := none, tolerance := t } Y) (LearnObj.new pf pl) X Y fuel).probOf
            (fun x => ¬ ∃ e, x = .error e) := by
      rw [learnRun_new hs, learnRun_new hs]
      refine loop_later he hD (p := { p with nMaxRules := none, tolerance := t })
        (p' := { p with nMaxRules := none, tolerance := t' }) rfl rfl (hlr t) (hlr t') rfl (tolerance_stop p Y htt)
        (fun e => le_rfl) le_rfl ?_ ?_ ?_ fuel _ hi
      · intro st st' _
        rw [if_pos (by rintro ⟨_, e⟩; cases e), if_pos (by rintro ⟨_, e⟩; cases e)]
      · intro e st
        rw [if_pos (c := ¬ ∃ e, Except.ok (some st) = Except.error e) (by rintro ⟨_, e⟩; cases e)]
        split_ifs <;> norm_num
      · intro st
        rw [if_pos (by rintro ⟨_, e⟩; cases e), if_pos (by rintro ⟨_, e⟩; cases e)]
    linarith [hnot t, hnot t']

/-- **C165** On data on which no fit raises (C83), for tolerances `0 ≤ t' ≤ t`: a property that a list of rules passes on
to its continuations, such as covering a given share of the label occurrences, is at least as likely for the smaller
tolerance. -/
theorem C165_longer (env : LearnEnv) (he : env.Good) (X Y : Cmp) (hD : LearnData env X Y) (hlab : ∃ i l, Y.Stored i l)
    (pf pl : ℚ) (p : Params) (ht : 0 < p.nTails) (hh : 0 < p.nHeads) (h1 : ¬ SharedFeature X Y)
    (h2 : ¬ FeaturelessTail X Y pl) (h3 : ¬ UniversalLabel Y) (t t' : ℚ) (h0 : 0 ≤ t') (htt : t' ≤ t) (fuel : ℕ)
    (hf : (labelCells Y).card + 1 ≤ fuel) (E : List BRule → Prop) (hE : ∀ l l', l <+: l' → E l → E l') :
    (fitTolerance env p pf pl X Y t fuel).probOf (fun x => ∃ o res, x = .ok (some (o, res)) ∧ E res.round1) ≤
      (fitTolerance env p pf pl X Y t' fuel).probOf (fun x => ∃ o res, x = .ok (some (o, res)) ∧ E res.round1) := by
  classical
  have hlr : ∀ t, LearnerTotal X Y (learnerDivMax { p with nMaxRules := none, tolerance := t } Y) := fun t =>
    total_DivMax hD.features.toWF hD.labels hD.rows _
  have hd := fun t => learnRun_discrete he hD pf pl (hlr t) (p := { p with nMaxRules := none, tolerance := t }) fuel
  obtain ⟨s, hs, hi⟩ := start_inv he hD pf pl
  have hfit := fun t => divmax_of_loop he hD hlab (pf := pf) (pl := pl) (p := { p with nMaxRules := none, tolerance := t })
    fuel
  have hle := (C165_shorter env he X Y hD hlab pf pl p t t' htt fuel).1 (fun l => ¬ E l) fun l l' hl h h' => h (hE l l' hl h')
  unfold fitTolerance at hle ⊢
  rw [(hfit t).1 fun l => ¬ E l, (hfit t').1 fun l => ¬ E l] at hle
  rw [(hfit t).1 E, (hfit t').1 E]
  have hret : ∀ t, 0 ≤ t → ∀ x, (learnRun env { p with nMaxRules := none, tolerance := t }
      (learnerDivMax { p with nMaxRules := none, tolerance := t } Y) (LearnObj.new pf pl) X Y fuel).Outcome x →
      ∃ st, x = .ok (some st) := by
    intro t h0 x hx
    have hx' := hx
    rw [learnRun_new hs] at hx'
    rcases learnLoop_outcome he hD (hlr t) fuel _ _ hi.inv hx' with rfl | ⟨st', rfl, -⟩ | rfl | ⟨rfl, hu⟩ | ⟨rfl, hz⟩
    · exact absurd rfl (C22_end_to_end env he X Y hD pf pl { p with nMaxRules := none, tolerance := t } rfl h0 fuel hf _
        hx).1
    · exact ⟨st', rfl⟩
    · rcases (C83_loop_type_error_iff env he X Y hD pf pl { p with nMaxRules := none, tolerance := t } ht hh _ (hlr t) fuel
        (by omega)).mp hx with h | h
      · exact absurd h h1
      · exact absurd h h2
    · exact absurd hu h3
    · rcases hz with hz | hz
      · exact absurd hz ht.ne'
      · exact absurd hz hh.ne'
  have hsplit : ∀ t, 0 ≤ t → (learnRun env { p with nMaxRules := none, tolerance := t }
        (learnerDivMax { p with nMaxRules := none, tolerance := t } Y) (LearnObj.new pf pl) X Y fuel).probOf
        (fun x => ∃ st, x = .ok (some st) ∧ ¬ E st.selected) =
      1 - (learnRun env { p with nMaxRules := none, tolerance := t }
        (learnerDivMax { p with nMaxRules := none, tolerance := t } Y) (LearnObj.new pf pl) X Y fuel).probOf
        (fun x => ∃ st, x = .ok (some st) ∧ E st.selected) := by
    intro t h0
    rw [← (hd t).probOf_not]
    refine le_antisymm ((hd t).probOf_mono fun x hx h => ?_) ((hd t).probOf_mono fun x hx h => ?_)
    · rintro ⟨st, rfl, h'⟩
      obtain ⟨st', e, h⟩ := h
      cases e
      exact h h'
    · obtain ⟨st, rfl⟩ := hret t h0 x hx
      exact ⟨st, rfl, fun h' => h ⟨st, rfl, h'⟩⟩
  rw [hsplit t' h0, hsplit t (h0.trans htt)] at hle
  linarith

/-- A property of the first kind: at most `m` rules. -/
example (m : ℕ) (l l' : List BRule) (h : l <+: l') (h' : l'.length ≤ m) : l.length ≤ m := h.length_le.trans h'

/-- A property of the second kind: a share of at least `c` of the label occurrences is covered. -/
theorem coverage_extends (Y : Cmp) (c : ℚ) (l l' : List BRule) (h : l <+: l')
    (h' : c ≤ (((labelCells Y).filter fun z => ∃ r ∈ l, z ∈ area r).card : ℚ) / (labelCells Y).card) :
    c ≤ (((labelCells Y).filter fun z => ∃ r ∈ l', z ∈ area r).card : ℚ) / (labelCells Y).card := by
  refine h'.trans (div_le_div_of_nonneg_right ?_ (Nat.cast_nonneg _))
  refine Nat.cast_le.mpr (Finset.card_le_card fun z hz => ?_)
  obtain ⟨hz, r, hr, hzr⟩ := Finset.mem_filter.mp hz
  exact Finset.mem_filter.mpr ⟨hz, r, h.subset hr, hzr⟩

/-- Two rows with features {0}, {1} and labels {0}, {1}: a tolerance of 0 covers any share at least as likely as one half. -/
example (pf pl c : ℚ) :
    (fitTolerance (someLearnEnv 10) demoParams pf pl eyeData eyeData (1 / 2)
        ((labelCells eyeData).card + 1)).probOf (fun x => ∃ o res, x = .ok (some (o, res)) ∧
          c ≤ (((labelCells eyeData).filter fun z => ∃ r ∈ res.round1, z ∈ area r).card : ℚ) / (labelCells eyeData).card) ≤
      (fitTolerance (someLearnEnv 10) demoParams pf pl eyeData eyeData 0
        ((labelCells eyeData).card + 1)).probOf (fun x => ∃ o res, x = .ok (some (o, res)) ∧
          c ≤ (((labelCells eyeData).filter fun z => ∃ r ∈ res.round1, z ∈ area r).card : ℚ) / (labelCells eyeData).card) :=
  C165_longer _ (someLearnEnv_good 10) eyeData eyeData eye_data ⟨0, 0, by decide⟩ pf pl demoParams Nat.one_pos Nat.one_pos
    (eye_clean pl).1 (eye_clean pl).2.1 (eye_clean pl).2.2 (1 / 2) 0 le_rfl (by norm_num) _ le_rfl
    (fun l => c ≤ (((labelCells eyeData).filter fun z => ∃ r ∈ l, z ∈ area r).card : ℚ) / (labelCells eyeData).card)
    (coverage_extends eyeData c)

end Verif
