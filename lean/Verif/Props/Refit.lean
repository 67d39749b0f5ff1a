/-
C82: fitting a classifier a second time. C29 for the real samplers: data without labels.
-/
import Verif.Props.GiveUp

namespace Verif

open Cmp

/-! ### C82 -/

/-- The initial weight of a row: the sizes of the probable label sets it carries. -/
theorem rowArea_naive {Y : Cmp} {pl : ℚ} {g : UGraph ℚ} {space : List (Finset ℤ)} (hnd : space.Nodup)
    (hmem : ∀ T, T ∈ space ↔ ∃ U, g.Probable pl U ∧ T = intSet U) {i : ℕ} (hi : i < Y.nMajor)
    [DecidablePred (g.Probable pl)] :
    rowArea space (naiveNewRows Y space) [] i =
      ∑ U ∈ (Y.segIdx i).toFinset.powerset with g.Probable pl U, U.card := by
  classical
  have hunc : ∀ T : Finset ℤ, uncoveredPart [] i T = T := by
    intro T
    simp [uncoveredPart, CoveredBy]
  unfold rowArea
  obtain ⟨-, hrow⟩ := C40_naive_exact Y space
  rw [List.getD_eq_getElem?_getD, hrow i hi, Option.getD_some]
  simp only [hunc]
  have h1 : ((List.range space.length).filter fun id => decide (RowContains Y i (space.getD id ∅))).map
      (fun id => (space.getD id ∅).card) =
      (space.filter fun T => decide (RowContains Y i T)).map Finset.card := by
    have : space = (List.range space.length).map fun id => space.getD id ∅ := by
      apply List.ext_getElem
      · simp
      · intro n h1 h2
        simp [List.getD_eq_getElem?_getD, h1]
    conv_rhs => rw [this, List.filter_map, List.map_map]
    rfl
  rw [h1, ← List.sum_toFinset _ (hnd.filter _)]
  symm
  apply Finset.sum_bij (fun U _ => intSet U)
  · intro U hU
    rw [Finset.mem_filter, Finset.mem_powerset] at hU
    rw [List.mem_toFinset, List.mem_filter, decide_eq_true_eq, rowContains_intSet]
    refine ⟨(hmem _).mpr ⟨U, hU.2, rfl⟩, fun l hl => ?_⟩
    rw [← mem_segIdx]
    exact List.mem_toFinset.mp (hU.1 hl)
  · intro a _ b _ h
    exact intSet_injective h
  · intro T hT
    rw [List.mem_toFinset, List.mem_filter, decide_eq_true_eq] at hT
    obtain ⟨U, hU, rfl⟩ := (hmem T).mp hT.1
    refine ⟨U, ?_, rfl⟩
    rw [Finset.mem_filter, Finset.mem_powerset]
    refine ⟨fun l hl => ?_, hU⟩
    rw [List.mem_toFinset, mem_segIdx]
    exact rowContains_intSet.mp hT.2 l hl
  · intro U _
    unfold intSet
    rw [Finset.card_image_of_injective _ Nat.cast_injective]

/-- Whatever the learner and the parameters: a classifier whose tail sampler has been told of a rule, when
fitted again on the same data, may draw a row that the rule covers; its weight no longer matches the
uncovered labels. -/
theorem refit_raises {env : LearnEnv} (he : env.Good) {X Y : Cmp} (hD : LearnData env X Y) {pl : ℚ}
    {new : List BRule} {s : UState} (hta : TailAfter env.toHeadEnv pl true Y (new.map (updateOf env)) s)
    {b : BRule} (hb : b ∈ new) (hsup : Supported X Y b) {i : ℕ} (hi : i ∈ b.support)
    (hlight : LightRow Y pl i 99999) {o : LearnObj} (ho : o.history = s.history)
    (hop : o.minLabelProba = pl) {p : Params} (ht : 0 < p.nTails) (lr : Learner) {fuel : ℕ} (hf : 0 < fuel) :
    (learnRun env p lr o X Y fuel).Outcome (.error .exception) := by
  classical
  obtain ⟨s0, h0, hu⟩ := hta
  obtain ⟨g, space, hg, hfit, hnd, hmem⟩ := tailFit_ok he.heads pl true [] hD.labels hD.colsY hD.depthY
  rw [hfit] at h0
  cases h0
  obtain ⟨g2, space2, hg2, hfit2, hnd2, hmem2⟩ := tailFit_ok he.heads pl true o.history hD.labels hD.colsY hD.depthY
  rw [hg] at hg2
  cases hg2
  obtain ⟨-, htail, -, -, hsp, -⟩ := hsup.1.spec hD.features.toWF hD.labels.toWF hD.rows
  obtain ⟨z, hz⟩ := List.exists_mem_of_ne_nil _ htail
  obtain ⟨hz0, hzs⟩ := ((hsp i).mp hi).2 z hz
  obtain ⟨l, rfl⟩ := Int.eq_ofNat_of_zero_le hz0
  rw [Int.toNat_natCast] at hzs
  have hin := Stored.major_lt hD.labels.toWF hzs
  have hl := Stored.minor_lt hD.labels.toWF hzs
  obtain ⟨g', hg', hwf, -, hn, -⟩ := C48_build_graph Y.flip (Cmp.flip_binary hD.labels)
  rw [hg] at hg'
  cases hg'
  have hprob : g.Probable pl {l} := by
    refine ⟨by simp, ⟨?_, by simp⟩, Or.inl (by simp)⟩
    intro x hx
    rw [Finset.mem_singleton] at hx
    subst hx
    rw [hn]; simpa using hl
  have hsp2 : intSet {l} ∈ space2 := (hmem2 _).mpr ⟨_, hprob, rfl⟩
  obtain ⟨id, hid, hidT⟩ := List.getElem_of_mem hsp2
  have hidT' : space2.getD id ∅ = intSet {l} := by
    rw [List.getD_eq_getElem?_getD, List.getElem?_eq_getElem hid, hidT]; rfl
  have hid' : id ∈ (naiveNewRows Y space2).getD i [] := by
    have : id ∈ recordAt (naiveNewRows Y space2) i := by
      rw [recordAt_naive Y space2 hin, hidT', rowContains_intSet]
      exact ⟨hid, by simpa using hzs⟩
    simpa [recordAt] using this
  have hcov : CoveredBy (new.map (updateOf env)) i (l : ℤ) := by
    refine ⟨updateOf env b, List.mem_map_of_mem hb, ?_, ?_⟩
    · exact ((he.heads.1 b.support).2 i).mpr hi
    · exact ((he.ints b.tail.toFinset).2 (l : ℤ)).mpr (List.mem_toFinset.mpr hz)
  have hsmall : rowArea space2 (naiveNewRows Y space2) [] i ≤ 99999 := by
    obtain ⟨g3, hg3, hle⟩ := hlight
    rw [hg] at hg3
    cases hg3
    rw [rowArea_naive hnd2 hmem2 hin]
    exact hle
  have hdraw := (C39_refit_breaks_sampler space space2 (naiveNewRows Y space) (naiveNewRows Y space2)
    (new.map (updateOf env)) s hu i (by rw [naiveNewRows_length]; exact hin) id hid' (l : ℤ)
    (by rw [hidT']; simp [intSet]) hcov hsmall).2
  obtain ⟨fuel, rfl⟩ : ∃ f, fuel = f + 1 := ⟨fuel - 1, by omega⟩
  obtain ⟨n, hn⟩ : ∃ n, p.nTails = n + 1 := ⟨p.nTails - 1, by omega⟩
  unfold learnRun
  rw [hop]
  change ((RandR.lift (tailFit env.toHeadEnv pl true o.history Y)).bind _).Outcome _
  rw [hfit2, ho]
  change (learnLoop env p lr X X.flip Y.flip (fuel + 1)
    { sampler := (refit s space2 (naiveNewRows Y space2), o.heads), selected := o.selected, pool := [] }).Outcome _
  rw [learnLoop, RandR.bind_eq, RandR.outcome_bind]
  refine Or.inr ⟨_, ?_, rfl⟩
  unfold learnIter
  rw [RandR.bind_eq, RandR.outcome_bind]
  refine Or.inl ⟨(.error .exception, o.heads), ?_, rfl⟩
  show (learnGen env X X.flip Y.flip p.nHeads (refit s space2 (naiveNewRows Y space2)) p.nTails _ []).Outcome _
  rw [hn, learnGen, RandR.bind_eq, RandR.outcome_bind]
  refine Or.inl ⟨.error .exception, ?_, rfl⟩
  rw [outcome_attempt]
  exact ⟨_, (outcome_toReal _ _).mpr hdraw, rfl⟩

/-- What a completed `fit` of a new `GreedyCFTPDivMaxV2` or `V3` leaves behind. -/
theorem fitV2_state {env : LearnEnv} (he : env.Good) {X Y : Cmp} (hD : LearnData env X Y)
    {pf pl : ℚ} {p : Params} {k : ℕ} (hk : p.nMaxRules = some k) {v3 : Bool} {fuel : ℕ} {o : LearnObj}
    {obj : ℝ}
    (hx : (learnFitV2 env p (if v3 then learnerV3 p else learnerV2 p)
      (if v3 then qualityOfRuleV3 else qualityOfRule) (LearnObj.new pf pl) X Y fuel).Outcome
        (.ok (some (o, obj)))) :
    ∃ s, TailAfter env.toHeadEnv pl true Y (o.selected.map (updateOf env)) s ∧ o.history = s.history ∧
      o.minLabelProba = pl ∧ HeadReach env.toHeadEnv X o.heads ∧ ∀ b ∈ o.selected, Supported X Y b := by
  have hXw := hD.features.toWF
  have hYw := hD.labels.toWF
  have hlr : LearnerTotal X Y (if v3 then learnerV3 p else learnerV2 p) := by
    split
    · exact total_V3 hXw hYw hD.rows hk
    · exact total_V2 hXw hYw hD.rows hk
  obtain ⟨s, hs, -, hinv⟩ := new_inv he hD pf pl
  unfold learnFitV2 at hx
  rw [learnRun_new hs, RandR.bind_eq, RandR.outcome_bind] at hx
  rcases hx with ⟨r, hr, hx⟩ | ⟨e, hr, e'⟩
  swap
  · cases e'
  rcases learnLoop_outcome he hD hlr fuel _ _ hinv hr with e | ⟨st', e, hi', -⟩ | e | ⟨e, -⟩ | ⟨e, -⟩
  · cases e; cases hx
  · cases e
    simp only [RandR.bind_eq, RandR.outcome_bind] at hx
    rcases hx with ⟨v', e, hx⟩ | ⟨e, -, e'⟩
    swap
    · cases e'
    cases hx
    obtain ⟨⟨new, hnew, hta⟩, hh, hsel, -⟩ := hi'
    rw [List.nil_append] at hnew
    refine ⟨st'.sampler.1, ?_, rfl, rfl, hh, hsel⟩
    rw [← hnew] at hta
    exact hta
  all_goals cases e

theorem fitV2_supported {env : LearnEnv} (he : env.Good) {X Y : Cmp} (hD : LearnData env X Y)
    {pf pl : ℚ} {p : Params} {k : ℕ} (hk : p.nMaxRules = some k) {v3 : Bool} {fuel : ℕ} {o : LearnObj}
    {obj : ℝ}
    (hx : (learnFitV2 env p (if v3 then learnerV3 p else learnerV2 p)
      (if v3 then qualityOfRuleV3 else qualityOfRule) (LearnObj.new pf pl) X Y fuel).Outcome
        (.ok (some (o, obj)))) : ∀ b ∈ o.selected, Supported X Y b := by
  obtain ⟨-, -, -, -, -, h⟩ := fitV2_state he hD hk hx
  exact h

/-- **C82** Fit a new `GreedyCFTPDivMaxV2` or `V3`, and then the same object again on the same data, with
parameters of any kind. If the first call selected a rule and the probable label sets carried by one of the
rows supporting it have together at most 99999 elements, then the second call raises `Exception` (the
sampler's consistency check) in some execution. -/
theorem C82_refit_may_raise (env : LearnEnv) (he : env.Good) (X Y : Cmp) (hD : LearnData env X Y)
    (pf pl : ℚ) (p : Params) (k : ℕ) (hk : p.nMaxRules = some k) (v3 : Bool) (fuel : ℕ) (o : LearnObj)
    (obj : ℝ)
    (hx : (learnFitV2 env p (if v3 then learnerV3 p else learnerV2 p)
      (if v3 then qualityOfRuleV3 else qualityOfRule) (LearnObj.new pf pl) X Y fuel).Outcome
        (.ok (some (o, obj))))
    (b : BRule) (hb : b ∈ o.selected) (i : ℕ) (hi : i ∈ b.support) (hlight : LightRow Y pl i 99999)
    (p' : Params) (ht' : 0 < p'.nTails) (lr' : Learner) (q' : List BRule → BRule → Py ℝ) (fuel' : ℕ)
    (hf' : 0 < fuel') :
    (learnFitV2 env p' lr' q' o X Y fuel').Outcome (.error .exception) := by
  obtain ⟨s, hta, hh, hp, -, hsel⟩ := fitV2_state he hD hk hx
  unfold learnFitV2
  rw [RandR.bind_eq, RandR.outcome_bind]
  exact Or.inr ⟨_, refit_raises he hD hta hb (hsel b hb) hi hlight hh hp ht' lr' hf', rfl⟩

/-- **C82** The same for `GreedyCFTPDivMax`, with a rule of its first round. -/
theorem C82_divmax_refit_may_raise (env : LearnEnv) (he : env.Good) (X Y : Cmp) (hD : LearnData env X Y)
    (pf pl : ℚ) (p : Params) (fuel : ℕ) (o : LearnObj) (res : FitResult)
    (hx : (learnFitDivMax env p (LearnObj.new pf pl) X Y fuel).Outcome (.ok (some (o, res))))
    (b : BRule) (hb : b ∈ res.round1) (i : ℕ) (hi : i ∈ b.support) (hlight : LightRow Y pl i 99999)
    (p' : Params) (ht' : 0 < p'.nTails) (fuel' : ℕ) (hf' : 0 < fuel') :
    (learnFitDivMax env p' o X Y fuel').Outcome (.error .exception) := by
  have hlr := total_DivMax hD.features.toWF hD.labels hD.rows p
  obtain ⟨s, hs, -, hinv⟩ := new_inv he hD pf pl
  unfold learnFitDivMax at hx
  rw [learnRun_new hs, RandR.bind_eq, RandR.outcome_bind] at hx
  rcases hx with ⟨r, hr, hx⟩ | ⟨e, hr, e'⟩
  swap
  · cases e'
  rcases learnLoop_outcome he hD hlr fuel _ _ hinv hr with e | ⟨st', e, hi', -⟩ | e | ⟨e, -⟩ | ⟨e, -⟩
  · cases e; cases hx
  · cases e
    simp only [RandR.bind_eq, RandR.outcome_bind] at hx
    rcases hx with ⟨res', e, hx⟩ | ⟨e, -, e'⟩
    swap
    · cases e'
    cases hx
    have hr1 : res.round1 = st'.selected := by
      have h : fitTail env.secondRound p st' = .ok res := e.symm
      unfold fitTail at h
      simp only [bind, Except.bind, pure, Except.pure] at h
      split at h
      · cases h
      · split at h
        · cases h
        · cases h; rfl
    obtain ⟨⟨new, hnew, hta⟩, -, hsel, -⟩ := hi'
    rw [List.nil_append] at hnew
    rw [hr1] at hb
    unfold learnFitDivMax
    rw [RandR.bind_eq, RandR.outcome_bind]
    exact Or.inr ⟨_, refit_raises he hD hta (hnew ▸ hb) (hsel b hb) hi hlight rfl rfl ht' _ hf', rfl⟩
  all_goals cases e

/-- A row with at most 12 labels is light, whatever the label graph. -/
theorem lightRow_of_few_labels {Y : Cmp} (hY : Y.Binary) (pl : ℚ) {i : ℕ}
    (h : (Y.segIdx i).length ≤ 12) : LightRow Y pl i 99999 := by
  classical
  obtain ⟨g, hg, -⟩ := C48_build_graph Y.flip (Cmp.flip_binary hY)
  refine ⟨g, hg, ?_⟩
  have hc : (Y.segIdx i).toFinset.card ≤ 12 := (List.toFinset_card_le _).trans h
  calc _ ≤ ∑ U ∈ (Y.segIdx i).toFinset.powerset, U.card :=
        Finset.sum_le_sum_of_subset (Finset.filter_subset _ _)
    _ ≤ ∑ U ∈ (Y.segIdx i).toFinset.powerset, 12 :=
        Finset.sum_le_sum fun U hU => (Finset.card_le_card (Finset.mem_powerset.mp hU)).trans hc
    _ = 2 ^ (Y.segIdx i).toFinset.card * 12 := by rw [Finset.sum_const, Finset.card_powerset, smul_eq_mul]
    _ ≤ 2 ^ 12 * 12 := Nat.mul_le_mul_right _ (Nat.pow_le_pow_right (by norm_num) hc)
    _ ≤ 99999 := by norm_num

/-- **C82** In particular, when no training row has more than 12 labels: after a call of `fit` that selected
a rule, a second call on the same data raises `Exception` in some execution. -/
theorem C82_few_labels (env : LearnEnv) (he : env.Good) (X Y : Cmp) (hD : LearnData env X Y)
    (hfew : ∀ i, (Y.segIdx i).length ≤ 12)
    (pf pl : ℚ) (p : Params) (k : ℕ) (hk : p.nMaxRules = some k) (v3 : Bool) (fuel : ℕ) (o : LearnObj)
    (obj : ℝ)
    (hx : (learnFitV2 env p (if v3 then learnerV3 p else learnerV2 p)
      (if v3 then qualityOfRuleV3 else qualityOfRule) (LearnObj.new pf pl) X Y fuel).Outcome
        (.ok (some (o, obj)))) (hne : o.selected ≠ [])
    (p' : Params) (ht' : 0 < p'.nTails) (lr' : Learner) (q' : List BRule → BRule → Py ℝ) (fuel' : ℕ)
    (hf' : 0 < fuel') :
    (learnFitV2 env p' lr' q' o X Y fuel').Outcome (.error .exception) := by
  obtain ⟨b, hb⟩ := List.exists_mem_of_ne_nil _ hne
  obtain ⟨i, hi⟩ := (fitV2_supported he hD hk hx b hb).2
  exact C82_refit_may_raise env he X Y hD pf pl p k hk v3 fuel o obj hx b hb i hi
    (lightRow_of_few_labels hD.labels pl (hfew i)) p' ht' lr' q' fuel' hf'

/-! ### C29 -/

/-- On data without labels, candidate generation of a new classifier raises `NoMoreSamples`. -/
theorem learnGen_no_labels {env : LearnEnv} (he : env.Good) {X Y : Cmp} (hD : LearnData env X Y)
    (hno : labelCells Y = ∅) {pl : ℚ} {s : UState} (hta : TailAfter env.toHeadEnv pl true Y [] s)
    (nHeads : ℕ) {todo : ℕ} (ht : 0 < todo) (h : HeadSampler) (x : Py (Py (List BRule) × HeadSampler)) :
    (learnGen env X X.flip Y.flip nHeads s todo h []).Outcome x ↔ x = .ok (.error .noMoreSamples, h) := by
  have hnot : ∀ i l, ¬ Y.Stored i l := by
    intro i l hs
    have hm : ((i, (l : ℤ)) : ℕ × ℤ) ∈ labelCells Y := by
      simp only [labelCells, Finset.mem_biUnion, Finset.mem_range, Finset.mem_image, List.mem_toFinset,
        Prod.mk.injEq, mem_segIdx]
      exact ⟨i, Stored.major_lt hD.labels.toWF hs, l, hs, rfl, rfl⟩
    rw [hno] at hm
    simp at hm
  obtain ⟨g, hg, hst, hrows, -, hmem⟩ := tailAfter_space he.heads hD.labels hD.depthY hta
  have hdraw : ∀ r, (sampleOnce s).Outcome r ↔ r = .error .noMoreSamples := by
    have hlen := naiveNewRows_length Y s.space
    have hne : naiveNewRows Y s.space ≠ [] := by
      intro h; rw [h] at hlen; simp at hlen; have := hD.pos; omega
    have hzero : totalArea s.space (naiveNewRows Y s.space) [] = 0 := by
      unfold totalArea
      apply Finset.sum_eq_zero
      intro i hi
      rw [Finset.mem_range, hlen] at hi
      unfold rowArea
      apply List.sum_eq_zero
      intro n hn
      obtain ⟨id, hid, rfl⟩ := List.mem_map.mp hn
      have hid' : id ∈ recordAt (naiveNewRows Y s.space) i := by simpa [recordAt] using hid
      rw [recordAt_naive Y s.space hi] at hid'
      rw [Finset.card_eq_zero, Finset.eq_empty_iff_forall_notMem]
      intro x hx
      simp only [uncoveredPart, Finset.mem_filter] at hx
      obtain ⟨l, -, hl⟩ := hid'.2 x hx.1
      exact hnot i l hl
    intro r
    rw [hst, outcome_once s.space _ [] hne, if_pos hzero]
  obtain ⟨todo, rfl⟩ : ∃ n, todo = n + 1 := ⟨todo - 1, by omega⟩
  rw [learnGen, RandR.bind_eq, RandR.outcome_bind]
  constructor
  · rintro (⟨t, htd, hx⟩ | ⟨e, htd, e'⟩)
    · rw [outcome_attempt] at htd
      obtain ⟨r, htd, e⟩ := htd
      cases e
      rw [outcome_toReal, hdraw] at htd
      subst htd
      exact hx
    · rw [outcome_attempt] at htd
      obtain ⟨r, htd, e⟩ := htd
      cases e
  · rintro rfl
    refine Or.inl ⟨.error .noMoreSamples, ?_, rfl⟩
    rw [outcome_attempt]
    exact ⟨_, (outcome_toReal _ _).mpr ((hdraw _).mpr rfl), rfl⟩

theorem learnRun_no_labels {env : LearnEnv} (he : env.Good) {X Y : Cmp} (hD : LearnData env X Y)
    (hno : labelCells Y = ∅) {pf pl : ℚ} {s : UState} (hs : tailFit env.toHeadEnv pl true [] Y = .ok s)
    (hta : TailAfter env.toHeadEnv pl true Y [] s) {p : Params} (ht : 0 < p.nTails) (lr : Learner) {fuel : ℕ}
    (hf : 0 < fuel) (x : Py (Option LearnState)) :
    (learnRun env p lr (LearnObj.new pf pl) X Y fuel).Outcome x ↔
      x = .ok (some { sampler := (s, (LearnObj.new pf pl).heads), selected := [], pool := [] }) := by
  obtain ⟨fuel, rfl⟩ : ∃ f, fuel = f + 1 := ⟨fuel - 1, by omega⟩
  have hiter : ∀ r, (learnIter env p lr X X.flip Y.flip
      { sampler := (s, (LearnObj.new pf pl).heads), selected := [], pool := [] }).Outcome r ↔
      r = .ok (.done { sampler := (s, (LearnObj.new pf pl).heads), selected := [], pool := [] }) := by
    intro r
    unfold learnIter
    rw [RandR.bind_eq, RandR.outcome_bind]
    simp only [learnGen_no_labels he hD hno hta p.nHeads ht]
    constructor
    · rintro (⟨g, e, hx⟩ | ⟨e, e', -⟩)
      · cases e; exact hx
      · cases e'
    · rintro rfl
      exact Or.inl ⟨_, rfl, rfl⟩
  rw [learnRun_new hs, learnLoop, RandR.bind_eq, RandR.outcome_bind]
  simp only [hiter]
  constructor
  · rintro (⟨g, e, hx⟩ | ⟨e, e', -⟩)
    · cases e; exact hx
    · cases e'
  · rintro rfl
    exact Or.inl ⟨_, rfl, rfl⟩

/-- **C29** `fit` of a new `GreedyCFTPDivMax` raises `InsufficientCandidates` in some execution exactly when
the training data have no label at all, and then in every execution. -/
theorem C29_end_to_end (env : LearnEnv) (he : env.Good) (X Y : Cmp) (hD : LearnData env X Y) (pf pl : ℚ)
    (p : Params) (ht : 0 < p.nTails) (hh : 0 < p.nHeads) (fuel : ℕ) (hf : 0 < fuel) :
    ((learnFitDivMax env p (LearnObj.new pf pl) X Y fuel).Outcome (.error .insufficientCandidates) ↔
      ∀ i l, ¬ Y.Stored i l) ∧
    ((∀ i l, ¬ Y.Stored i l) → ∀ x, (learnFitDivMax env p (LearnObj.new pf pl) X Y fuel).Outcome x →
      x = .error .insufficientCandidates) := by
  have hcells : labelCells Y = ∅ ↔ ∀ i l, ¬ Y.Stored i l := by
    constructor
    · intro h i l hs
      have hm : ((i, (l : ℤ)) : ℕ × ℤ) ∈ labelCells Y := by
        simp only [labelCells, Finset.mem_biUnion, Finset.mem_range, Finset.mem_image, List.mem_toFinset,
          Prod.mk.injEq, mem_segIdx]
        exact ⟨i, Stored.major_lt hD.labels.toWF hs, l, hs, rfl, rfl⟩
      rw [h] at hm
      simp at hm
    · intro h
      rw [Finset.eq_empty_iff_forall_notMem]
      rintro ⟨i, l⟩ hm
      simp only [labelCells, Finset.mem_biUnion, Finset.mem_range, Finset.mem_image, List.mem_toFinset,
        Prod.mk.injEq, mem_segIdx] at hm
      obtain ⟨i', -, l', hs, -⟩ := hm
      exact h _ _ hs
  have hkey : (∀ i l, ¬ Y.Stored i l) → ∀ x,
      (learnFitDivMax env p (LearnObj.new pf pl) X Y fuel).Outcome x ↔ x = .error .insufficientCandidates := by
    intro hno x
    obtain ⟨s, hs, hta, -⟩ := new_inv he hD pf pl
    unfold learnFitDivMax
    rw [RandR.bind_eq, RandR.outcome_bind]
    simp only [learnRun_no_labels he hD (hcells.mpr hno) hs hta ht _ hf]
    have hft : fitTail env.secondRound p
        ({ sampler := (s, (LearnObj.new pf pl).heads), selected := [], pool := [] } : LearnState) =
        .error .insufficientCandidates := rfl
    constructor
    · rintro (⟨r, e, hx⟩ | ⟨e, e', -⟩)
      · cases e
        simp only [hft] at hx
        exact hx
      · cases e'
    · rintro rfl
      refine Or.inl ⟨_, rfl, ?_⟩
      simp only [hft]
      rfl
  refine ⟨⟨fun hx => ?_, fun hno => (hkey hno _).mpr rfl⟩, fun hno x hx => (hkey hno x).mp hx⟩
  rw [← hcells]
  rcases C70_divmax_outcomes env he X Y hD pf pl p ht hh fuel _ hx with e | ⟨o, res, e, -⟩ | e | ⟨e, -⟩ | ⟨-, h⟩
  · cases e
  · cases e
  · cases e
  · cases e
  · exact h

/-! ### The hypotheses can be met -/

/-- Fitting twice on the identity data: the first call returns, the second may raise. -/
example (pf pl : ℚ) (v3 : Bool) (fuel : ℕ) (hf : 5 < fuel) :
    ∃ o obj, (learnFitV2 (someLearnEnv 10) demoParams
      (if v3 then learnerV3 demoParams else learnerV2 demoParams)
      (if v3 then qualityOfRuleV3 else qualityOfRule) (LearnObj.new pf pl) eyeData eyeData fuel).Outcome
        (.ok (some (o, obj))) ∧
      (learnFitV2 (someLearnEnv 10) demoParams
      (if v3 then learnerV3 demoParams else learnerV2 demoParams)
      (if v3 then qualityOfRuleV3 else qualityOfRule) o eyeData eyeData fuel).Outcome (.error .exception) := by
  obtain ⟨o, obj, hx, hne⟩ := eye_fits pf pl v3 fuel hf
  refine ⟨o, obj, hx, C82_few_labels (someLearnEnv 10) (someLearnEnv_good 10) eyeData eyeData eye_data ?_
    pf pl demoParams 5 rfl v3 fuel o obj hx hne demoParams Nat.one_pos _ _ fuel (by omega)⟩
  intro i
  by_cases h : i < 2
  · interval_cases i <;> decide
  · have : eyeData.segIdx i = [] := by
      rw [List.eq_nil_iff_forall_not_mem]
      intro j hj
      rw [mem_segIdx, eye_stored] at hj
      omega
    rw [this]; simp

/-- Two rows without labels. -/
def noLabels : Cmp := { nMajor := 2, nMinor := 2, indptr := [0, 0, 0], indices := [], data := [] }

theorem noLabels_binary : noLabels.Binary :=
  { len_indptr := by decide, ptr_zero := by decide, ptr_mono := by decide, ptr_last := by decide,
    len_data := by decide, idx_lt := by decide, data_one := by decide, nodup := by decide }

example (pf pl : ℚ) (fuel : ℕ) (hf : 0 < fuel) :
    (learnFitDivMax (someLearnEnv 10) demoParams (LearnObj.new pf pl) eyeData noLabels fuel).Outcome
      (.error .insufficientCandidates) := by
  refine (C29_end_to_end (someLearnEnv 10) (someLearnEnv_good 10) eyeData noLabels
    ⟨eye_binary, noLabels_binary, rfl, by decide, by decide, by decide, by decide, by decide⟩ pf pl demoParams Nat.one_pos Nat.one_pos
    fuel hf).1.mpr ?_
  intro i l h
  have hi : i < 2 := Stored.major_lt noLabels_binary.toWF h
  rw [← mem_segIdx] at h
  interval_cases i
  · have e : noLabels.segIdx 0 = [] := by decide
    rw [e] at h; simp at h
  · have e : noLabels.segIdx 1 = [] := by decide
    rw [e] at h; simp at h

end Verif
