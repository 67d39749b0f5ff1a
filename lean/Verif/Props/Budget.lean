/-
What a greater rule budget changes.
-/
import Verif.Props.Failing

namespace Verif

/-- Two learners that differ in their budgets only, run from the same state. -/
theorem loop_budget {env : LearnEnv} (he : env.Good) {X Y : Cmp} (hD : LearnData env X Y) {pf pl : ℚ} {p p' : Params}
    (hH : p'.nHeads = p.nHeads) (hT : p'.nTails = p.nTails) {lr lr' : Learner} (hlr : LearnerTotal X Y lr)
    (hlr' : LearnerTotal X Y lr') (hobj : lr'.objective = lr.objective) {k k' : ℕ} (hkk : k ≤ k')
    (hstop : ∀ sel b, lr.stop sel b = .ok (decide (sel.length ≥ k)))
    (hstop' : ∀ sel b, lr'.stop sel b = .ok (decide (sel.length ≥ k')))
    {F G : Py (Option LearnState) → ℝ} (h1 : ∀ e, F (.error e) ≤ G (.error e)) (h2 : F (.ok none) ≤ G (.ok none))
    (h3 : ∀ st st' : LearnState, st.selected = st'.selected.take k → F (.ok (some st')) ≤ G (.ok (some st)))
    (h4 : ∀ e st, F (.error e) ≤ G (.ok (some st))) (h5 : ∀ st, F (.ok none) ≤ G (.ok (some st))) :
    ∀ (fuel : ℕ) (st : LearnState), LoopInv env pf pl X Y st → st.selected.length ≤ k →
      (learnLoop env p' lr' X X.flip Y.flip fuel st).expect F ≤ (learnLoop env p lr X X.flip Y.flip fuel st).expect G
  | 0, _, _, _ => h2
  | fuel + 1, st, hst, hlen => by
    have hdis := (learnGen_discrete he hD hst.tails p.nHeads p.nTails _ [] hst.inv.heads hst.tight hst.threshold).1
    have hself : ∀ st' : LearnState, st'.selected = st.selected → F (.ok (some st')) ≤ G (.ok (some st')) := fun st' e =>
      h3 _ _ (by rw [e, List.take_of_length_le hlen])
    rw [learnLoop, learnLoop, RandR.bind_eq, RandR.bind_eq, RandR.expect_bind, RandR.expect_bind]
    unfold learnIter
    rw [RandR.bind_eq, RandR.bind_eq, RandR.expect_bind, RandR.expect_bind, hH, hT]
    refine hdis.mono fun x hx => ?_
    rcases x with e | ⟨g, h'⟩
    · exact h1 e
    rcases g with e | cands
    · cases e
      case noMoreSamples => exact hself _ rfl
      all_goals exact h1 _
    have key : ∀ y y', learnChoose env lr st h' cands = y → learnChoose env lr' st h' cands = y' →
        RandR.after F (fun r => match r with
          | .done st' => pure (some st')
          | .next st' => learnLoop env p' lr' X X.flip Y.flip fuel st') y' ≤
        RandR.after G (fun r => match r with
          | .done st' => pure (some st')
          | .next st' => learnLoop env p lr X X.flip Y.flip fuel st') y := by
      intro y y' hy hy'
      have hout : ∀ st', y = .ok (.next st') → LoopInv env pf pl X Y st' := fun st' e => by
        refine hst.next he hD hlr (p := p) ?_
        unfold learnIter
        rw [RandR.bind_eq, RandR.outcome_bind]
        exact Or.inl ⟨_, hx, (hy.trans e).symm⟩
      have hout' : ∀ st', y' = .ok (.next st') → LoopInv env pf pl X Y st' := fun st' e => by
        refine hst.next he hD hlr' (p := p') ?_
        unfold learnIter
        rw [RandR.bind_eq, RandR.outcome_bind, hH, hT]
        exact Or.inl ⟨_, hx, (hy'.trans e).symm⟩
      unfold learnChoose at hy hy'
      rw [hobj] at hy'
      rcases hb : pyMax (lr.objective st.selected) (env.setOrder cands) with e | best
      · rw [hb] at hy hy'
        subst hy hy'
        exact h1 e
      rw [hb] at hy hy'
      simp only [bind, Except.bind, hstop, hstop'] at hy hy'
      by_cases hlt : st.selected.length < k
      · rw [if_neg (by simpa using hlt)] at hy
        rw [if_neg (by simpa using hlt.trans_le hkk)] at hy'
        rw [hy] at hy'
        subst hy'
        rcases y with e | r
        · exact h1 e
        rcases hu : updateRowWeights st.sampler.1 (env.order best.support) (env.orderZ best.tail.toFinset) with e | s'
        · rw [hu] at hy; cases hy
        rw [hu] at hy
        cases hy
        refine loop_budget he hD hH hT hlr hlr' hobj hkk hstop hstop' h1 h2 h3 h4 h5 fuel _ (hout _ rfl) ?_
        simpa using hlt
      · have hge : st.selected.length = k := by omega
        rw [if_pos (by simp [hge])] at hy
        subst hy
        by_cases hlt' : st.selected.length < k'
        · rw [if_neg (by simpa using hlt')] at hy'
          rcases hu : updateRowWeights st.sampler.1 (env.order best.support) (env.orderZ best.tail.toFinset) with e | s'
          · rw [hu] at hy'
            subst hy'
            exact h4 _ _
          rw [hu] at hy'
          subst hy'
          have hinv := hout' _ rfl
          refine le_trans ((learnLoop_discrete he hD hlr' fuel _ hinv).mono fun x hx => ?_)
            (le_of_eq ((learnLoop_discrete he hD hlr' fuel _ hinv).expect_const _))
          rcases x with e | r
          · exact h4 _ _
          rcases r with _ | st''
          · exact h5 _
          refine h3 _ _ ?_
          rcases learnLoop_outcome he hD hlr' fuel _ _ hinv.inv hx with e | ⟨s1, e, -, hpre, -⟩ | e | ⟨e, -⟩ | ⟨e, -⟩ <;>
            cases e
          obtain ⟨t, ht⟩ := hpre
          rw [← ht, ← hge, List.append_assoc, List.take_left]
        · rw [if_pos (by simpa using hlt')] at hy'
          subst hy'
          exact hself _ rfl
    exact key _ _ rfl rfl

/-- With a budget of `k` rules the loop ends within `k + 1` iterations. -/
theorem loop_ends {env : LearnEnv} {X Y : Cmp} {p : Params} {lr : Learner} {k : ℕ}
    (hstop : ∀ sel b, lr.stop sel b = .ok (decide (sel.length ≥ k))) :
    ∀ (fuel : ℕ) (st : LearnState), k < st.selected.length + fuel → st.selected.length ≤ k →
      ¬ (learnLoop env p lr X X.flip Y.flip fuel st).Outcome (.ok none)
  | 0, st, h, hle => by omega
  | fuel + 1, st, h, hle => by
    intro hx
    rw [learnLoop, RandR.bind_eq, RandR.outcome_bind] at hx
    rcases hx with ⟨r, hr, hx⟩ | ⟨e, -, hx⟩
    swap
    · cases hx
    cases r with
    | done st' => cases hx
    | next st' =>
      obtain ⟨h', cands, best, -, -, hs, e, -, -⟩ := learnIter_next hr
      have hlt : st.selected.length < k := by
        rw [hstop] at hs
        simpa using hs
      have hl : st'.selected.length = st.selected.length + 1 := by rw [e]; simp
      exact loop_ends hstop fuel st' (by omega) (by omega) hx

open Classical in
/-- What is asked of the rules of a fit can be asked of the loop. -/
theorem fit_of_loop {env : LearnEnv} (he : env.Good) {X Y : Cmp} (hD : LearnData env X Y) {pf pl : ℚ} {p : Params}
    {lr : Learner} (hlr : LearnerTotal X Y lr) {q : List BRule → BRule → Py ℝ}
    (hq : ∀ sel b, BoundTo X Y b → ∃ v, q sel b = .ok v) {s : UState}
    (hs : tailFit env.toHeadEnv pl true [] Y = .ok s)
    (hi : LoopInv env pf pl X Y { sampler := (s, (LearnObj.new pf pl).heads), selected := [], pool := [] }) (fuel : ℕ) :
    (∀ E : List BRule → Prop, (learnFitV2 env p lr q (LearnObj.new pf pl) X Y fuel).probOf
        (fun x => ∃ o v, x = .ok (some (o, v)) ∧ E o.selected) =
      (learnLoop env p lr X X.flip Y.flip fuel
        { sampler := (s, (LearnObj.new pf pl).heads), selected := [], pool := [] }).probOf
          (fun x => ∃ st, x = .ok (some st) ∧ E st.selected)) ∧
    (learnFitV2 env p lr q (LearnObj.new pf pl) X Y fuel).probOf (fun x => ∃ e, x = .error e) =
      (learnLoop env p lr X X.flip Y.flip fuel
        { sampler := (s, (LearnObj.new pf pl).heads), selected := [], pool := [] }).probOf (fun x => ∃ e, x = .error e) := by
  constructor
  · intro E
    unfold RandR.probOf learnFitV2
    rw [RandR.bind_eq, RandR.expect_bind, learnRun_new hs]
    refine RandR.expect_congr (learnLoop_proper _ _ _ _ _ _ _ _) fun x hx => ?_
    rcases learnLoop_outcome he hD hlr fuel _ _ hi.inv hx with rfl | ⟨st', rfl, hi', -⟩ | rfl | ⟨rfl, -⟩ | ⟨rfl, -⟩
    · rw [if_neg (by rintro ⟨_, e, -⟩; cases e)]
      exact if_neg (by rintro ⟨_, _, e, -⟩; cases e)
    · obtain ⟨v, hv⟩ := objectiveOf_total hD.features.toWF hD.labels.toWF hD.rows hq p.lambd st'.selected st'.selected
        hi'.selected
      simp only [RandR.after, hv]
      refine if_congr ⟨?_, ?_⟩ rfl rfl
      · rintro ⟨o, v', e, h⟩
        cases e
        exact ⟨st', rfl, h⟩
      · rintro ⟨st'', e, h⟩
        cases e
        exact ⟨_, _, rfl, h⟩
    all_goals
      rw [if_neg (by rintro ⟨_, e, -⟩; cases e)]
      exact if_neg (by rintro ⟨_, _, e, -⟩; cases e)
  · unfold RandR.probOf learnFitV2
    rw [RandR.bind_eq, RandR.expect_bind, learnRun_new hs]
    refine RandR.expect_congr (learnLoop_proper _ _ _ _ _ _ _ _) fun x hx => ?_
    rcases learnLoop_outcome he hD hlr fuel _ _ hi.inv hx with rfl | ⟨st', rfl, hi', -⟩ | rfl | ⟨rfl, -⟩ | ⟨rfl, -⟩
    · rw [if_neg (by rintro ⟨_, e⟩; cases e)]
      exact if_neg (by rintro ⟨_, e⟩; cases e)
    · obtain ⟨v, hv⟩ := objectiveOf_total hD.features.toWF hD.labels.toWF hD.rows hq p.lambd st'.selected st'.selected
        hi'.selected
      simp only [RandR.after, hv]
      rw [if_neg (by rintro ⟨_, e⟩; cases e)]
      exact if_neg (by rintro ⟨_, e⟩; cases e)
    all_goals
      rw [if_pos ⟨_, rfl⟩]
      exact if_pos ⟨_, rfl⟩

/-- A new `GreedyCFTPDivMaxV2` or `GreedyCFTPDivMaxV3` with a rule budget. -/
noncomputable abbrev fitBudget (env : LearnEnv) (p : Params) (v3 : Bool) (pf pl : ℚ) (X Y : Cmp) (k fuel : ℕ) :
    RandR (Option (LearnObj × ℝ)) :=
  learnFitV2 env { p with nMaxRules := some k }
    (if v3 then learnerV3 { p with nMaxRules := some k } else learnerV2 { p with nMaxRules := some k })
    (if v3 then qualityOfRuleV3 else qualityOfRule) (LearnObj.new pf pl) X Y fuel

/-- **C164** For budgets `k ≤ k'`, whatever is asked of the rules: the first `k` rules of a fit with budget `k'` that
returns have the property at most with the probability that all rules of a fit with budget `k` have it. And the fit with
the greater budget raises at least as often. -/
theorem C164_prefix (env : LearnEnv) (he : env.Good) (X Y : Cmp) (hD : LearnData env X Y) (pf pl : ℚ) (p : Params)
    (v3 : Bool) (k k' : ℕ) (hkk : k ≤ k') (fuel : ℕ) :
    (∀ E : List BRule → Prop,
      (fitBudget env p v3 pf pl X Y k' fuel).probOf (fun x => ∃ o v, x = .ok (some (o, v)) ∧ E (o.selected.take k)) ≤
        (fitBudget env p v3 pf pl X Y k fuel).probOf (fun x => ∃ o v, x = .ok (some (o, v)) ∧ E o.selected)) ∧
    (fitBudget env p v3 pf pl X Y k fuel).probOf (fun x => ∃ e, x = .error e) ≤
      (fitBudget env p v3 pf pl X Y k' fuel).probOf (fun x => ∃ e, x = .error e) := by
  classical
  have hXw := hD.features.toWF
  have hYw := hD.labels.toWF
  have hlr : ∀ k, LearnerTotal X Y
      (if v3 then learnerV3 { p with nMaxRules := some k } else learnerV2 { p with nMaxRules := some k }) := by
    intro k
    split
    · exact total_V3 hXw hYw hD.rows rfl
    · exact total_V2 hXw hYw hD.rows rfl
  have hstop : ∀ k sel b, (if v3 then learnerV3 { p with nMaxRules := some k }
      else learnerV2 { p with nMaxRules := some k }).stop sel b = .ok (decide (sel.length ≥ k)) := by
    intro k sel b
    cases v3 <;> rfl
  have hobj : (if v3 then learnerV3 { p with nMaxRules := some k' }
      else learnerV2 { p with nMaxRules := some k' }).objective = (if v3 then learnerV3 { p with nMaxRules := some k }
      else learnerV2 { p with nMaxRules := some k }).objective := by
    cases v3 <;> rfl
  have hq : ∀ sel b, BoundTo X Y b → ∃ v, (if v3 then qualityOfRuleV3 else qualityOfRule) sel b = .ok v := by
    intro sel b hb
    cases v3
    · exact ⟨_, quality_gain hD.rows sel hb⟩
    · exact ⟨_, qualityV3_gain hD.rows sel hb⟩
  obtain ⟨s, hs, hi⟩ := start_inv he hD pf pl
  have hfit := fun k => fit_of_loop he hD (p := { p with nMaxRules := some k }) (hlr k) hq hs hi fuel
  constructor
  · intro E
    unfold fitBudget
    rw [(hfit k).1 E, (hfit k').1 fun l => E (l.take k)]
    refine loop_budget he hD (p := { p with nMaxRules := some k }) (p' := { p with nMaxRules := some k' }) rfl rfl (hlr k)
      (hlr k') hobj hkk (hstop k) (hstop k') ?_ ?_ ?_ ?_ ?_ fuel _ hi (Nat.zero_le _)
    · intro e
      rw [if_neg (by rintro ⟨_, e, -⟩; cases e)]
      split_ifs <;> norm_num
    · rw [if_neg (by rintro ⟨_, e, -⟩; cases e)]
      split_ifs <;> norm_num
    · intro st st' hst
      refine le_of_eq (if_congr ⟨?_, ?_⟩ rfl rfl)
      · rintro ⟨_, e, h⟩
        cases e
        exact ⟨_, rfl, hst ▸ h⟩
      · rintro ⟨_, e, h⟩
        cases e
        exact ⟨_, rfl, hst ▸ h⟩
    · intro e st
      rw [if_neg (by rintro ⟨_, e, -⟩; cases e)]
      split_ifs <;> norm_num
    · intro st
      rw [if_neg (by rintro ⟨_, e, -⟩; cases e)]
      split_ifs <;> norm_num
  · unfold fitBudget
    rw [(hfit k).2, (hfit k').2]
    have hd := fun k => learnLoop_discrete he hD (hlr k) (p := { p with nMaxRules := some k }) fuel _ hi
    have hnot := fun k => (hd k).probOf_not fun x => ∃ e, x = .error e
    have hle : (learnLoop env { p with nMaxRules := some k' } (if v3 then learnerV3 { p with nMaxRules := some k' }
          else learnerV2 { p with nMaxRules := some k' }) X X.flip Y.flip fuel
          { sampler := (s, (LearnObj.new pf pl).heads), selected := [], pool := [] }).probOf (fun x => ¬ ∃ e, x = .error e) ≤
        (learnLoop env { p with nMaxRules := some k } (if v3 then learnerV3 { p with nMaxRules := some k }
          else learnerV2 { p with nMaxRules := some k }) X X.flip Y.flip fuel
          { sampler := (s, (LearnObj.new pf pl).heads), selected := [], pool := [] }).probOf
            (fun x => ¬ ∃ e, x = .error e) := by
      refine loop_budget he hD (p := { p with nMaxRules := some k }) (p' := { p with nMaxRules := some k' }) rfl rfl (hlr k)
        (hlr k') hobj hkk (hstop k) (hstop k') (fun e => le_rfl) le_rfl ?_ ?_ ?_ fuel _ hi (Nat.zero_le _)
      · intro st st' _
        rw [if_pos (by rintro ⟨_, e⟩; cases e), if_pos (by rintro ⟨_, e⟩; cases e)]
      · intro e st
        rw [if_pos (c := ¬ ∃ e, Except.ok (some st) = Except.error e) (by rintro ⟨_, e⟩; cases e)]
        split_ifs <;> norm_num
      · intro st
        rw [if_pos (by rintro ⟨_, e⟩; cases e), if_pos (by rintro ⟨_, e⟩; cases e)]
    linarith [hnot k, hnot k']

/-- **C164** On data on which no fit raises (C83) the budget only says where to stop: the first `k` rules of a fit with
a greater budget have exactly the law of the rules of a fit with budget `k`. -/
theorem C164_exact (env : LearnEnv) (he : env.Good) (X Y : Cmp) (hD : LearnData env X Y) (pf pl : ℚ) (p : Params)
    (ht : 0 < p.nTails) (hh : 0 < p.nHeads) (h1 : ¬ SharedFeature X Y) (h2 : ¬ FeaturelessTail X Y pl)
    (h3 : ¬ UniversalLabel Y) (v3 : Bool) (k k' : ℕ) (hkk : k ≤ k') (fuel : ℕ) (hf : k' < fuel)
    (E : List BRule → Prop) :
    (fitBudget env p v3 pf pl X Y k' fuel).probOf (fun x => ∃ o v, x = .ok (some (o, v)) ∧ E (o.selected.take k)) =
      (fitBudget env p v3 pf pl X Y k fuel).probOf (fun x => ∃ o v, x = .ok (some (o, v)) ∧ E o.selected) := by
  classical
  have hXw := hD.features.toWF
  have hYw := hD.labels.toWF
  have hlr : ∀ k, LearnerTotal X Y
      (if v3 then learnerV3 { p with nMaxRules := some k } else learnerV2 { p with nMaxRules := some k }) := by
    intro k
    split
    · exact total_V3 hXw hYw hD.rows rfl
    · exact total_V2 hXw hYw hD.rows rfl
  have hdis : ∀ k, (fitBudget env p v3 pf pl X Y k fuel).Discrete := fun k =>
    learnFitV2_discrete he hD pf pl (hlr k) _ fuel
  have hpre := (C164_prefix env he X Y hD pf pl p v3 k k' hkk fuel).1
  have hret : ∀ x, (fitBudget env p v3 pf pl X Y k' fuel).Outcome x → ∃ o v, x = .ok (some (o, v)) := by
    intro x hx
    rcases x with e | r
    · exact absurd hx ((C83_fit_never_raises_iff env he X Y hD pf pl { p with nMaxRules := some k' } k' rfl ht hh v3 fuel
        hf).mpr ⟨h1, h2, h3⟩ e)
    rcases r with _ | ⟨o, v⟩
    · exfalso
      obtain ⟨s, hs, hi⟩ := start_inv he hD pf pl
      unfold fitBudget learnFitV2 at hx
      rw [RandR.bind_eq, RandR.outcome_bind] at hx
      rcases hx with ⟨r, hr, hx⟩ | ⟨e, -, hx⟩
      swap
      · cases hx
      cases r with
      | none =>
        rw [learnRun_new hs] at hr
        refine loop_ends (k := k') (fun sel b => ?_) fuel _ (by simpa using hf) (Nat.zero_le _) hr
        cases v3 <;> rfl
      | some st =>
        dsimp only at hx
        rw [RandR.bind_eq, RandR.outcome_bind] at hx
        rcases hx with ⟨a, -, hx⟩ | ⟨e, -, hx⟩ <;> cases hx
    · exact ⟨o, v, rfl⟩
  refine le_antisymm (hpre E) ?_
  have hno := hpre fun l => ¬ E l
  have hsum' : 1 ≤ (fitBudget env p v3 pf pl X Y k' fuel).probOf
        (fun x => ∃ o v, x = .ok (some (o, v)) ∧ E (o.selected.take k)) +
      (fitBudget env p v3 pf pl X Y k' fuel).probOf
        (fun x => ∃ o v, x = .ok (some (o, v)) ∧ ¬ E (o.selected.take k)) := by
    rw [← (hdis k').probOf_one (E := fun _ => True) fun _ _ => trivial]
    refine (hdis k').probOf_or fun x hx _ => ?_
    obtain ⟨o, v, rfl⟩ := hret x hx
    by_cases hE : E (o.selected.take k)
    · exact Or.inl ⟨o, v, rfl, hE⟩
    · exact Or.inr ⟨o, v, rfl, hE⟩
  have hsum : (fitBudget env p v3 pf pl X Y k fuel).probOf (fun x => ∃ o v, x = .ok (some (o, v)) ∧ ¬ E o.selected) ≤
      1 - (fitBudget env p v3 pf pl X Y k fuel).probOf (fun x => ∃ o v, x = .ok (some (o, v)) ∧ E o.selected) := by
    rw [← (hdis k).probOf_not]
    refine (hdis k).probOf_mono fun x _ hx => ?_
    rintro ⟨o, v, rfl, hE⟩
    obtain ⟨o', v', e, hE'⟩ := hx
    cases e
    exact hE' hE
  linarith

/-- **C164** The same for the first round of `GreedyCFTPDivMax`, on data with at least one label occurrence. -/
theorem C164_prefix_divmax (env : LearnEnv) (he : env.Good) (X Y : Cmp) (hD : LearnData env X Y)
    (hlab : ∃ i l, Y.Stored i l) (pf pl : ℚ) (p : Params) (k k' : ℕ) (hkk : k ≤ k') (fuel : ℕ) (E : List BRule → Prop) :
    (learnFitDivMax env { p with nMaxRules := some k' } (LearnObj.new pf pl) X Y fuel).probOf
        (fun x => ∃ o res, x = .ok (some (o, res)) ∧ E (res.round1.take k)) ≤
      (learnFitDivMax env { p with nMaxRules := some k } (LearnObj.new pf pl) X Y fuel).probOf
        (fun x => ∃ o res, x = .ok (some (o, res)) ∧ E res.round1) := by
  classical
  have hlr : ∀ k, LearnerTotal X Y (learnerDivMax { p with nMaxRules := some k } Y) := fun k =>
    total_DivMax hD.features.toWF hD.labels hD.rows _
  obtain ⟨s, hs, hi⟩ := start_inv he hD pf pl
  have hfit : ∀ (k : ℕ) (E : List BRule → Prop),
      (learnFitDivMax env { p with nMaxRules := some k } (LearnObj.new pf pl) X Y fuel).probOf
        (fun x => ∃ o res, x = .ok (some (o, res)) ∧ E res.round1) =
      (learnLoop env { p with nMaxRules := some k } (learnerDivMax { p with nMaxRules := some k } Y) X X.flip Y.flip fuel
        { sampler := (s, (LearnObj.new pf pl).heads), selected := [], pool := [] }).probOf
          (fun x => ∃ st, x = .ok (some st) ∧ E st.selected) := by
    intro k E
    rw [← learnRun_new hs]
    unfold RandR.probOf learnFitDivMax
    rw [RandR.bind_eq, RandR.expect_bind]
    refine RandR.expect_congr (by rw [learnRun_new hs]; exact learnLoop_proper _ _ _ _ _ _ _ _) fun x hx => ?_
    have hx' := hx
    rw [learnRun_new hs] at hx'
    rcases learnLoop_outcome he hD (hlr k) fuel _ _ hi.inv hx' with rfl | ⟨st', rfl, hi', -⟩ | rfl | ⟨rfl, -⟩ | ⟨rfl, -⟩
    · rw [if_neg (by rintro ⟨_, e, -⟩; cases e)]
      exact if_neg (by rintro ⟨_, _, e, -⟩; cases e)
    · obtain ⟨res, hres, h1⟩ := second_round_returns he hD hlab hx
      simp only [RandR.after, hres]
      refine if_congr ⟨?_, ?_⟩ rfl rfl
      · rintro ⟨o, v', e, h⟩
        cases e
        exact ⟨st', rfl, by rw [← h1]; exact h⟩
      · rintro ⟨st'', e, h⟩
        cases e
        exact ⟨_, _, rfl, by rw [h1]; exact h⟩
    all_goals
      rw [if_neg (by rintro ⟨_, e, -⟩; cases e)]
      exact if_neg (by rintro ⟨_, _, e, -⟩; cases e)
  rw [hfit k E, hfit k' fun l => E (l.take k)]
  refine loop_budget he hD (p := { p with nMaxRules := some k }) (p' := { p with nMaxRules := some k' }) rfl rfl (hlr k)
    (hlr k') rfl hkk (fun sel b => rfl) (fun sel b => rfl) ?_ ?_ ?_ ?_ ?_ fuel _ hi (Nat.zero_le _)
  · intro e
    rw [if_neg (by rintro ⟨_, e, -⟩; cases e)]
    split_ifs <;> norm_num
  · rw [if_neg (by rintro ⟨_, e, -⟩; cases e)]
    split_ifs <;> norm_num
  · intro st st' hst
    refine le_of_eq (if_congr ⟨?_, ?_⟩ rfl rfl)
    · rintro ⟨_, e, h⟩
      cases e
      exact ⟨_, rfl, hst ▸ h⟩
    · rintro ⟨_, e, h⟩
      cases e
      exact ⟨_, rfl, hst ▸ h⟩
  · intro e st
    rw [if_neg (by rintro ⟨_, e, -⟩; cases e)]
    split_ifs <;> norm_num
  · intro st
    rw [if_neg (by rintro ⟨_, e, -⟩; cases e)]
    split_ifs <;> norm_num

/-- Two rows with features {0}, {1} and labels {0}, {1}: the first of at most two rules has the law of the only one. -/
example (pf pl : ℚ) (v3 : Bool) (E : List BRule → Prop) :
    (fitBudget (someLearnEnv 10) demoParams v3 pf pl eyeData eyeData 2 3).probOf
        (fun x => ∃ o v, x = .ok (some (o, v)) ∧ E (o.selected.take 1)) =
      (fitBudget (someLearnEnv 10) demoParams v3 pf pl eyeData eyeData 1 3).probOf
        (fun x => ∃ o v, x = .ok (some (o, v)) ∧ E o.selected) :=
  C164_exact _ (someLearnEnv_good 10) eyeData eyeData eye_data pf pl demoParams Nat.one_pos Nat.one_pos (eye_clean pl).1
    (eye_clean pl).2.1 (eye_clean pl).2.2 v3 1 2 (by norm_num) 3 (by norm_num) E

end Verif
