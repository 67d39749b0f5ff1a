/-
Candidate generation and the learners' loop with samplers in doubles are near the exact ones, on every event.
-/
import Verif.Lemmas.FloatHead
import Verif.Lemmas.Candidate

namespace Verif
open RandR

/-! ### Tails -/

theorem near_tailAfter (S : Summation) {env : LearnEnv} (he : env.Good) {X Y : Cmp} (hD : LearnData env X Y)
    {pf pl : ℚ} {m : ℕ} (hF : FitsDoubles X Y pf pl m) {us : List (List ℕ × List ℤ)} {s : UState}
    (hs : TailAfter env.toHeadEnv pl true Y us s) :
    Near (tailErr Y.nMajor m) (sampleOnce s).toReal (tailOnceF S s) := by
  classical
  obtain ⟨hsp, -, htot⟩ := tail_area he hD hs
  obtain ⟨g, hg, hst, hrows, hnd, hmem⟩ := tailAfter_space he.heads hD.labels hD.depthY hs
  have hlen := naiveNewRows_length Y s.space
  have h := near_tail S s.space (naiveNewRows Y s.space) us
    (by intro h; rw [h] at hlen; have := hD.pos; simp at hlen; omega)
    (by
      rw [← hrows, htot]
      exact (Finset.sum_le_sum fun T _ => openArea_anti Y us T).trans hF.area)
    (by rw [hlen]; exact hF.rows) hF.few
    (by
      intro i hi
      rw [hlen] at hi
      refine le_trans ?_ (hF.perRow i hi)
      have hrow : (naiveNewRows Y s.space).getD i [] =
          (List.range s.space.length).filter fun id => decide (RowContains Y i (s.space.getD id ∅)) := by
        rw [List.getD_eq_getElem?_getD, (C40_naive_exact Y s.space).2 i hi]; rfl
      have hnodup : ((naiveNewRows Y s.space).getD i []).Nodup := by
        rw [hrow]; exact List.nodup_range.filter _
      rw [← List.toFinset_card_of_nodup hnodup]
      have hin : ∀ id ∈ ((naiveNewRows Y s.space).getD i []).toFinset,
          id < s.space.length ∧ RowContains Y i (s.space.getD id ∅) := by
        intro id hid
        rw [List.mem_toFinset, hrow, List.mem_filter, List.mem_range, decide_eq_true_eq] at hid
        exact hid
      refine Finset.card_le_card_of_injOn (fun id => s.space.getD id ∅) ?_ ?_
      · intro id hid
        obtain ⟨h1, h2⟩ := hin id hid
        rw [Finset.mem_coe, Finset.mem_filter, ← hsp, List.mem_toFinset]
        refine ⟨?_, h2⟩
        show s.space.getD id ∅ ∈ s.space
        rw [getD_lt h1]
        exact List.getElem_mem h1
      · intro a ha b hb hab
        obtain ⟨h1, -⟩ := hin a ha
        obtain ⟨h2, -⟩ := hin b hb
        simp only at hab
        rw [getD_lt h1, getD_lt h2] at hab
        exact (List.Nodup.getElem_inj_iff hnd).mp hab)
  rw [hlen, ← hst] at h
  exact h

/-! ### Heads -/

theorem finishIdx_discrete (order : Finset ℕ → List ℕ) (rows : List (List ℕ)) (r : Option (ℕ × ℕ) × CftpState) :
    (finishIdx order rows r).Discrete := by
  unfold finishIdx
  split
  · exact Discrete.proper_done _
  · exact ((pyChoiceIdx_discrete _).bind fun _ _ => Discrete.proper_done _).bind fun _ _ => Discrete.proper_done _

theorem finishOnce_discrete (space : List (Finset ℤ)) (s : HeadSampler) (r : Option ℕ × CftpState) :
    (finishOnce space s r).Discrete := by
  unfold finishOnce
  split
  · exact Discrete.proper_done _
  · exact (Discrete.lift _).bind fun _ _ => Discrete.proper_done _

theorem headErr_nonneg (n : ℕ) : 0 ≤ headErr n := by unfold headErr; positivity

theorem near_headOnce {env : LearnEnv} (he : env.Good) {X Y : Cmp} (hD : LearnData env X Y)
    {pf pl : ℚ} {m : ℕ} (hF : FitsDoubles X Y pf pl m) {h h1 : HeadSampler} (hh : HeadReach env.toHeadEnv X h)
    (ht : h.tight = true) (hm : h.minProba = pf) {T : Finset ℤ}
    (hf : headFit env.toHeadEnv h X (tailColumn Y T) = .ok h1) :
    Near (headErr Y.nMajor) (headSampleOnce env.toHeadEnv h1) (headOnceF env.toHeadEnv h1) := by
  classical
  have hX := hD.features
  obtain ⟨g, space, hg, hb, hnd, hmem⟩ := buildSpaceAndRows_ok he.heads h hX hD.colsX hD.depthX
  obtain ⟨space', hb', hy, hyl, hs'⟩ := inv_fit he.heads hX hD.depthX (headInv_of_reach he.heads hX hD.depthX hh) hf
  rw [hb] at hb'
  cases hb'
  have hsp : space.toFinset = samplesOf X pf := by
    ext S
    rw [List.mem_toFinset, hmem, mem_samplesOf hX hg, hm]
  have hcard : space.length = (samplesOf X pf).card := by rw [← hsp, List.toFinset_card_of_nodup hnd]
  have hylen : (tailColumn Y T).length = Y.nMajor := by simp [tailColumn, labels01]
  have hok := naiveNewRows_ok X space
  have hdom := headCftp_dominated (tight := h.tight) hok hyl
  obtain ⟨hw, hp, hn⟩ := headCftp_whole hok hyl (by rw [hcard, hylen]; exact hF.features)
  rw [← ht] at hw hp hn
  have hpl := posIndices_length hy
  have hnl := negIndices_length (tailColumn Y T)
  have hc1 : (tailColumn Y T).count 1 ≤ Y.nMajor := hylen ▸ List.count_le_length
  have hc0 : (tailColumn Y T).count 0 ≤ Y.nMajor := hylen ▸ List.count_le_length
  have hcc : (tailColumn Y T).count 1 + (tailColumn Y T).count 0 = Y.nMajor := by
    rw [← hylen]
    have hall : ∀ v ∈ tailColumn Y T, v = 0 ∨ v = 1 := by
      intro v hv
      have : v ∈ (tailColumn Y T).toFinset := List.mem_toFinset.mpr hv
      rw [hy] at this
      simpa using this
    clear * - hall
    revert hall
    induction tailColumn Y T with
    | nil => intro _; rfl
    | cons v l ih =>
      intro hall
      have := ih fun w hw => hall w (List.mem_cons_of_mem _ hw)
      rcases hall v List.mem_cons_self with rfl | rfl <;> simp <;> omega
  have hnear := Cftp.near_sample hdom hw hp hn
    (by show (posIndices _).length ≤ _; rw [hpl]; exact hc1.trans hF.rows)
    (by show (negIndices _).length ≤ _; rw [hnl]; exact hc0.trans hF.rows) rfl
  have e1 : (headCftp h.tight space.length (naiveNewRows X space) X.nMajor (tailColumn Y T)).posList.length =
    (tailColumn Y T).count 1 := hpl
  have e2 : (headCftp h.tight space.length (naiveNewRows X space) X.nMajor (tailColumn Y T)).negList.length =
    (tailColumn Y T).count 0 := hnl
  rw [e1, e2] at hnear
  have hnear := (hnear.bind (k := finishIdx env.order (naiveNewRows X space))
    (k' := finishIdx env.order (naiveNewRows X space)) le_rfl (fun r _ => finishIdx_discrete _ _ r)
    fun r _ => Near.refl (finishIdx_discrete _ _ r))
  have hnear := (hnear.bind (k := finishOnce space h1) (k' := finishOnce space h1) le_rfl
    (fun r _ => finishOnce_discrete _ _ r) fun r _ => Near.refl (finishOnce_discrete _ _ r))
  obtain ⟨f1, f2⟩ := headSampleOnce_finish (env := env.toHeadEnv) (s := h1)
    (c := headCftp h.tight space.length (naiveNewRows X space) X.nMajor (tailColumn Y T))
    (rows := naiveNewRows X space) (space := space) (by rw [hs']) (by rw [hs']) (by rw [hs'])
  have hlists : h1.lists = Cftp.reset := by rw [hs']
  have f3 : headOnceF env.toHeadEnv h1 =
      ((Cftp.sampleBits (headCftp h.tight space.length (naiveNewRows X space) X.nMajor (tailColumn Y T))).bind
        (finishIdx env.order (naiveNewRows X space))).bind (finishOnce space h1) := by
    unfold headOnceF Cftp.sampleBits
    simp only [RandR.bind_eq, RandR.bind_assoc]
    congr 1
    funext ω
    rw [f2 ω, hlists, RandR.bind_assoc]
  rw [f3, f1, hlists]
  refine hnear.mono ?_
  have ha : ((tailColumn Y T).count 1 : ℝ) ≤ Y.nMajor := by exact_mod_cast hc1
  have hb2 : ((tailColumn Y T).count 0 : ℝ) ≤ Y.nMajor := by exact_mod_cast hc0
  have hs : ((tailColumn Y T).count 1 : ℝ) + (tailColumn Y T).count 0 = Y.nMajor := by exact_mod_cast hcc
  have ha0 : (0 : ℝ) ≤ (tailColumn Y T).count 1 := by positivity
  have hb0 : (0 : ℝ) ≤ (tailColumn Y T).count 0 := by positivity
  unfold headErr
  rw [add_zero, add_zero, ← mul_div_assoc, ← hs]
  gcongr
  nlinarith [mul_nonneg ha0 hb0]

theorem near_headSample {env : LearnEnv} (he : env.Good) {X Y : Cmp} (hD : LearnData env X Y)
    {pf pl : ℚ} {m : ℕ} (hF : FitsDoubles X Y pf pl m) {h h1 : HeadSampler} (hh : HeadReach env.toHeadEnv X h)
    (ht : h.tight = true) (hm : h.minProba = pf) {T : Finset ℤ}
    (hf : headFit env.toHeadEnv h X (tailColumn Y T) = .ok h1) :
    ∀ n : ℕ, Near (n * headErr Y.nMajor) (headSample env.toHeadEnv n h1) (headSampleF env.toHeadEnv n h1)
  | 0 => by
    rw [Nat.cast_zero, zero_mul]
    exact Near.refl (Discrete.proper_done _)
  | n + 1 => by
    obtain ⟨d1, d2⟩ := headOnce_discrete he hD hh ht hm hf
    have hn := near_headOnce he hD hF hh ht hm hf
    have ih := near_headSample he hD hF hh ht hm hf n
    have h0 : 0 ≤ n * headErr Y.nMajor := mul_nonneg (Nat.cast_nonneg n) (headErr_nonneg _)
    rw [headSample, headSampleF]
    have hrest := fun (o : Option (Finset ℤ)) => ih.bind (k := fun rest => RandR.done (.ok (o :: rest.1, rest.2)))
      (k' := fun rest => RandR.done (.ok (o :: rest.1, rest.2))) (δ := 0) le_rfl
      (fun _ _ => Discrete.proper_done _) fun _ _ => Near.refl (Discrete.proper_done _)
    refine (hn.bind (δ := n * headErr Y.nMajor) h0 (fun r hr => ?_) fun r hr => ?_).mono ?_
    · obtain ⟨o, e⟩ := d2 _ hr
      cases e
      exact (hrest o).left
    · obtain ⟨o, e⟩ := d2 _ (hn.sub _ hr)
      cases e
      exact (hrest o).mono (by rw [add_zero])
    · push_cast
      linarith

/-! ### Candidates -/

/-- After a tail has been drawn, the head sampler is fitted to its column. -/
theorem step_fit {env : LearnEnv} (he : env.Good) {X Y : Cmp} (hD : LearnData env X Y) {pf pl : ℚ}
    {us : List (List ℕ × List ℤ)} {s : UState} (hs : TailAfter env.toHeadEnv pl true Y us s) {h : HeadSampler}
    (hh : HeadReach env.toHeadEnv X h) (ht : h.tight = true) (hm : h.minProba = pf) {T : Finset ℤ}
    (ho : (sampleOnce s).toReal.attempt.Outcome (.ok (.ok T))) {y : List Bool}
    (hy : conjunctiveCollapseV2 Y.flip (env.orderZ T) = .ok y) {h1 : HeadSampler}
    (hf : headFit env.toHeadEnv h X (labels01 y) = .ok h1) :
    headFit env.toHeadEnv h X (tailColumn Y T) = .ok h1 ∧ h1.tight = true ∧ h1.minProba = pf := by
  rw [outcome_attempt] at ho
  obtain ⟨r, ho, e⟩ := ho
  cases e
  rw [outcome_toReal] at ho
  rcases tail_outcome he.heads hD.labels hD.depthY hD.pos hs ho with ⟨e, -⟩ | ⟨T', e, -, hTne, hTr, -⟩
  · cases e
  cases e
  obtain ⟨y0, hy0, hyT⟩ := collapse_tail he hD.labels hTne hTr
  rw [hy0] at hy
  cases hy
  rw [hyT] at hf
  obtain ⟨_, -, -, -, e⟩ := inv_fit he.heads hD.features hD.depthX
    (headInv_of_reach he.heads hD.features hD.depthX hh) hf
  exact ⟨hf, by rw [e]; exact ht, by rw [e]; exact hm⟩

theorem batchErr_succ (n m todo nHeads : ℕ) :
    tailErr n m + (nHeads * headErr n + batchErr n m todo nHeads) = batchErr n m (todo + 1) nHeads := by
  unfold batchErr
  push_cast
  ring

theorem batchErr_nonneg (n m todo nHeads : ℕ) : 0 ≤ batchErr n m todo nHeads :=
  mul_nonneg (Nat.cast_nonneg _) (add_nonneg (tailErr_nonneg _ _) (mul_nonneg (Nat.cast_nonneg _) (headErr_nonneg _)))

theorem near_learnGen (S : Summation) {env : LearnEnv} (he : env.Good) {X Y : Cmp} (hD : LearnData env X Y)
    {pf pl : ℚ} {m : ℕ} (hF : FitsDoubles X Y pf pl m) {us : List (List ℕ × List ℤ)} {s : UState}
    (hs : TailAfter env.toHeadEnv pl true Y us s) (nHeads : ℕ) :
    ∀ (todo : ℕ) (h : HeadSampler) (rules : List BRule), HeadReach env.toHeadEnv X h → h.tight = true →
      h.minProba = pf → Near (batchErr Y.nMajor m todo nHeads)
        (learnGen env X X.flip Y.flip nHeads s todo h rules) (learnGenF S env X X.flip Y.flip nHeads s todo h rules)
  | 0, h, rules, hh, ht, hm => (Near.refl (Discrete.proper_done _)).mono (batchErr_nonneg _ _ _ _)
  | todo + 1, h, rules, hh, ht, hm => by
    have hX := hD.features
    have htail := near_tailAfter S he hD hF hs
    have hd := (learnGen_discrete he hD hs nHeads (todo + 1) h rules hh ht hm).1
    have hδ : 0 ≤ nHeads * headErr Y.nMajor + batchErr Y.nMajor m todo nHeads :=
      add_nonneg (mul_nonneg (Nat.cast_nonneg _) (headErr_nonneg _)) (batchErr_nonneg _ _ _ _)
    have hstep : ∀ t, (sampleOnce s).toReal.attempt.Outcome (.ok t) →
        Near (nHeads * headErr Y.nMajor + batchErr Y.nMajor m todo nHeads)
        (orRaise t h fun T =>
          orRaise (conjunctiveCollapseV2 Y.flip (env.orderZ T)) h fun y =>
            orRaise (headFit env.toHeadEnv h X (labels01 y)) h fun h1 =>
              (headSample env.toHeadEnv nHeads h1).attempt.bind fun hs =>
                orRaise hs h1 fun r =>
                  orRaise (addHeads X.flip Y.flip (env.orderZ T) (r.1.map (Option.map env.orderZ)) rules) r.2
                    fun rules' => learnGen env X X.flip Y.flip nHeads s todo r.2 rules')
        (orRaise t h fun T =>
          orRaise (conjunctiveCollapseV2 Y.flip (env.orderZ T)) h fun y =>
            orRaise (headFit env.toHeadEnv h X (labels01 y)) h fun h1 =>
              (headSampleF env.toHeadEnv nHeads h1).attempt.bind fun hs =>
                orRaise hs h1 fun r =>
                  orRaise (addHeads X.flip Y.flip (env.orderZ T) (r.1.map (Option.map env.orderZ)) rules) r.2
                    fun rules' => learnGenF S env X X.flip Y.flip nHeads s todo r.2 rules') := by
      intro t ho
      refine orRaise_near hδ fun T hT => orRaise_near hδ fun y hy => orRaise_near hδ fun h1 hf => ?_
      subst hT
      obtain ⟨hf', ht1, hm1⟩ := step_fit he hD hs hh ht hm ho hy hf
      have hreach : ∀ q, (headSample env.toHeadEnv nHeads h1).attempt.Outcome (.ok q) → ∀ r, q = .ok r → r.2 = h1 := by
        rintro q hq r rfl
        rw [outcome_attempt] at hq
        obtain ⟨r', hq, e⟩ := hq
        cases e
        obtain ⟨hs', e, -⟩ := headSample_outcome he.heads hX hD.depthX hh hf' nHeads _ hq
        cases e
        rfl
      have hnh := (near_headSample he hD hF hh ht hm hf' nHeads).attempt
      have hinner : ∀ q, (headSample env.toHeadEnv nHeads h1).attempt.Outcome (.ok q) →
          Near (batchErr Y.nMajor m todo nHeads)
            (orRaise q h1 fun r => orRaise (addHeads X.flip Y.flip (env.orderZ T)
              (r.1.map (Option.map env.orderZ)) rules) r.2
                fun rules' => learnGen env X X.flip Y.flip nHeads s todo r.2 rules')
            (orRaise q h1 fun r => orRaise (addHeads X.flip Y.flip (env.orderZ T)
              (r.1.map (Option.map env.orderZ)) rules) r.2
                fun rules' => learnGenF S env X X.flip Y.flip nHeads s todo r.2 rules') := by
        intro q hq
        refine orRaise_near (batchErr_nonneg _ _ _ _) fun r hr => orRaise_near (batchErr_nonneg _ _ _ _)
          fun rules' _ => ?_
        rw [hreach q hq r hr]
        exact near_learnGen S he hD hF hs nHeads todo h1 rules' (.fit _ _ _ hh hf') ht1 hm1
      exact hnh.bind (batchErr_nonneg _ _ _ _) (fun q hq => (hinner q hq).left) fun q hq => hinner q (hnh.sub _ hq)
    rw [learnGen, learnGenF, ← batchErr_succ]
    exact htail.attempt.bind hδ (fun t ho => (hstep t ho).left) fun t ho => hstep t (htail.attempt.sub _ ho)

/-! ### The loop -/

theorem near_learnIter (S : Summation) {env : LearnEnv} (he : env.Good) {X Y : Cmp} (hD : LearnData env X Y)
    {pf pl : ℚ} {m : ℕ} (hF : FitsDoubles X Y pf pl m) {p : Params} {lr : Learner} {st : LearnState}
    (hst : LoopInv env pf pl X Y st) :
    Near (batchErr Y.nMajor m p.nTails p.nHeads) (learnIter env p lr X X.flip Y.flip st)
      (learnIterF S env p lr X X.flip Y.flip st) := by
  have hg := near_learnGen S he hD hF hst.tails p.nHeads p.nTails _ [] hst.inv.heads hst.tight hst.threshold
  unfold learnIter learnIterF
  have hk : ∀ g : Py (List BRule) × HeadSampler, (match g.1 with
      | .error .noMoreSamples => (pure (.done { st with sampler := (st.sampler.1, g.2) }) :
          RandR (IterResult (UState × HeadSampler)))
      | .error e => .raise e
      | .ok cands => .lift (learnChoose env lr st g.2 cands)).Discrete := by
    rintro ⟨g, h'⟩
    cases g with
    | ok cands => exact Discrete.lift _
    | error e => cases e <;> exact Discrete.proper_done _
  exact (hg.bind le_rfl (fun g _ => hk g) fun g _ => Near.refl (hk g)).mono (by rw [add_zero])

theorem near_learnLoop (S : Summation) {env : LearnEnv} (he : env.Good) {X Y : Cmp} (hD : LearnData env X Y)
    {pf pl : ℚ} {m : ℕ} (hF : FitsDoubles X Y pf pl m) {p : Params} {lr : Learner} (hlr : LearnerTotal X Y lr) :
    ∀ (fuel : ℕ) (st : LearnState), LoopInv env pf pl X Y st →
      Near (fuel * batchErr Y.nMajor m p.nTails p.nHeads) (learnLoop env p lr X X.flip Y.flip fuel st)
        (learnLoopF S env p lr X X.flip Y.flip fuel st)
  | 0, _, _ => (Near.refl (Discrete.proper_done _)).mono (by simp)
  | fuel + 1, st, hst => by
    have hi := near_learnIter S he hD hF (p := p) (lr := lr) hst
    have h0 : 0 ≤ fuel * batchErr Y.nMajor m p.nTails p.nHeads :=
      mul_nonneg (Nat.cast_nonneg _) (batchErr_nonneg _ _ _ _)
    rw [learnLoop, learnLoopF]
    have hk : ∀ r, (learnIter env p lr X X.flip Y.flip st).Outcome (.ok r) →
        Near (fuel * batchErr Y.nMajor m p.nTails p.nHeads)
          (match r with
            | .done st' => (pure (some st') : RandR (Option LearnState))
            | .next st' => learnLoop env p lr X X.flip Y.flip fuel st')
          (match r with
            | .done st' => (pure (some st') : RandR (Option LearnState))
            | .next st' => learnLoopF S env p lr X X.flip Y.flip fuel st') := by
      intro r hr
      cases r with
      | done st' => exact (Near.refl (Discrete.proper_done _)).mono h0
      | next st' => exact near_learnLoop S he hD hF hlr fuel st' (hst.next he hD hlr hr)
    refine (hi.bind h0 (fun r hr => (hk r hr).left) fun r hr => hk r (hi.sub _ hr)).mono ?_
    push_cast
    linarith

theorem near_learnRun (S : Summation) {env : LearnEnv} (he : env.Good) {X Y : Cmp} (hD : LearnData env X Y)
    {pf pl : ℚ} {m : ℕ} (hF : FitsDoubles X Y pf pl m) {p : Params} {lr : Learner} (hlr : LearnerTotal X Y lr)
    (fuel : ℕ) :
    Near (fuel * batchErr Y.nMajor m p.nTails p.nHeads) (learnRun env p lr (LearnObj.new pf pl) X Y fuel)
      (learnRunF S env p lr (LearnObj.new pf pl) X Y fuel) := by
  obtain ⟨s, hs, hi⟩ := start_inv he hD pf pl
  have e : learnRunF S env p lr (LearnObj.new pf pl) X Y fuel = learnLoopF S env p lr X X.flip Y.flip fuel
      { sampler := (s, (LearnObj.new pf pl).heads), selected := [], pool := [] } := by
    unfold learnRunF
    rw [show tailFit env.toHeadEnv (LearnObj.new pf pl).minLabelProba true (LearnObj.new pf pl).history Y = .ok s from
      hs]
    rfl
  rw [e, learnRun_new hs]
  exact near_learnLoop S he hD hF hlr fuel _ hi

theorem near_fitV2 (S : Summation) {env : LearnEnv} (he : env.Good) {X Y : Cmp} (hD : LearnData env X Y)
    {pf pl : ℚ} {m : ℕ} (hF : FitsDoubles X Y pf pl m) {p : Params} {lr : Learner} (hlr : LearnerTotal X Y lr)
    (quality : List BRule → BRule → Py ℝ) (fuel : ℕ) :
    Near (fuel * batchErr Y.nMajor m p.nTails p.nHeads)
      (learnFitV2 env p lr quality (LearnObj.new pf pl) X Y fuel)
      (learnFitV2F S env p lr quality (LearnObj.new pf pl) X Y fuel) := by
  have h := near_learnRun S he hD hF (p := p) hlr fuel
  unfold learnFitV2 learnFitV2F
  refine (h.bind le_rfl (fun r _ => ?_) fun r _ => Near.refl ?_).mono (by rw [add_zero]) <;>
  · cases r with
    | none => exact Discrete.proper_done _
    | some st => exact Discrete.bind (Discrete.lift _) fun _ _ => Discrete.proper_done _

end Verif
