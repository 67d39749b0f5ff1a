/-
C70: the learners with their real samplers. C81: they stop early only at full coverage. Their runs are runs
of the learner with arbitrary samplers, so that the theorems about those apply.
-/
import Verif.Lemmas.LearnerRefine
import Verif.Props.Greedy
import Verif.Props.Coverage

namespace Verif

open Cmp

/-! ### C70: candidates and crashes -/

/-- **C70** Candidate generation with the real samplers, in any reachable state of both of them: every
candidate rule is bound to the training data and has a supporting row, and its label area is not empty.
If the call raises, then `NoMoreSamples` (no uncovered label left), `TypeError` (a head draw gave up), or
`AssertionError` (a tail was drawn that every row carries). -/
theorem C70_candidates (env : LearnEnv) (he : env.Good) (X Y : Cmp) (hD : LearnData env X Y) (q : ℚ)
    (prune : Bool) (us : List (List ℕ × List ℤ)) (s : UState)
    (hs : TailAfter env.toHeadEnv q prune Y us s) (h : HeadSampler) (hh : HeadReach env.toHeadEnv X h)
    (nTails nHeads : ℕ) (g : Py (List BRule)) (h' : HeadSampler)
    (hx : (learnGen env X X.flip Y.flip nHeads s nTails h []).Outcome (.ok (g, h'))) :
    (∀ out, g = .ok out → (0 < nTails → 0 < nHeads → out ≠ []) ∧
      ∀ b ∈ out, BoundTo X Y b ∧ b.support.Nonempty ∧ (area b).Nonempty) ∧
    ∀ e, g = .error e → (e = .noMoreSamples ∧ totalArea s.space s.newRows us = 0) ∨ e = .typeError ∨
      (e = .assertionError ∧ ∃ T ∈ s.space, ∀ i < Y.nMajor, RowContains Y i T) := by
  obtain ⟨g', h1, e, -, hg⟩ := learnGen_outcome he hD hs nHeads nTails h [] _ hh (by simp) hx
  cases e
  constructor
  · rintro out rfl
    rcases hg with ⟨out', e, hs', hne⟩ | ⟨e, -⟩ | e | ⟨e, -⟩ <;> cases e
    exact ⟨fun h1 h2 => hne (Or.inr ⟨h1, h2⟩), fun b hb => ⟨(hs' b hb).1, (hs' b hb).2,
      (hs' b hb).area_nonempty hD.features.toWF hD.labels.toWF hD.rows⟩⟩
  · rintro e rfl
    rcases hg with ⟨out', e', -⟩ | ⟨e', h0⟩ | e' | ⟨e', hT⟩ <;> cases e'
    · exact Or.inl ⟨rfl, h0⟩
    · exact Or.inr (Or.inl rfl)
    · exact Or.inr (Or.inr ⟨rfl, hT⟩)

/-- **C70** No two candidates are at an undefined distance: the Jaccard distance of any two supported
rules is a number between 0 and 1. -/
theorem C70_distances_defined (X Y : Cmp) (hX : X.Binary) (hY : Y.Binary) (hn : X.nMajor = Y.nMajor)
    (a b : BRule) (ha : Supported X Y a) (hb : Supported X Y b) :
    distReal a b = .ok (areaDist a b) ∧ 0 ≤ areaDist a b ∧ areaDist a b ≤ 1 := by
  obtain ⟨z, hz⟩ := ha.area_nonempty hX.toWF hY.toWF hn
  refine ⟨distReal_eq ha.1.2.2 hb.1.2.2 ⟨z, by simp [hz]⟩, ?_, ?_⟩
  · unfold areaDist
    rw [sub_nonneg]
    apply div_le_one_of_le₀
    · exact_mod_cast Finset.card_le_card (Finset.inter_subset_left.trans Finset.subset_union_left)
    · positivity
  · unfold areaDist
    have : (0 : ℝ) ≤ ((area a ∩ area b).card : ℝ) / ((area a ∪ area b).card : ℝ) := by positivity
    linarith

/-- The state in which the loop of a new classifier starts. -/
theorem new_inv {env : LearnEnv} (he : env.Good) {X Y : Cmp} (hD : LearnData env X Y) (pf pl : ℚ) :
    ∃ s, tailFit env.toHeadEnv pl true [] Y = .ok s ∧ TailAfter env.toHeadEnv pl true Y [] s ∧
      LearnInv env pl X Y [] { sampler := (s, (LearnObj.new pf pl).heads), selected := [], pool := [] } := by
  obtain ⟨g, space, -, hf, -⟩ := tailFit_ok he.heads pl true [] hD.labels hD.colsY hD.depthY
  have ht : TailAfter env.toHeadEnv pl true Y [] (assignRowWeights space (naiveNewRows Y space) []) :=
    ⟨_, hf, rfl⟩
  exact ⟨_, hf, ht, ⟨[], rfl, ht⟩, .init _ _ _, by simp, by simp⟩

theorem learnRun_new {env : LearnEnv} {p : Params} {lr : Learner} {pf pl : ℚ} {X Y : Cmp} {fuel : ℕ}
    {s : UState} (hs : tailFit env.toHeadEnv pl true [] Y = .ok s) :
    learnRun env p lr (LearnObj.new pf pl) X Y fuel = learnLoop env p lr X X.flip Y.flip fuel
      { sampler := (s, (LearnObj.new pf pl).heads), selected := [], pool := [] } := by
  unfold learnRun
  change (RandR.lift (tailFit env.toHeadEnv pl true [] Y)).bind _ = _
  rw [hs]
  rfl

/-- **C70** `GreedyCFTPDivMaxV2.fit` and `GreedyCFTPDivMaxV3.fit` on a new classifier with
`n_max_rules = k`, for all data and all random draws: `k + 1` iterations are enough. The call either
returns at most `k` rules, each with a supporting row, and an objective, or raises `TypeError` (a head draw
gave up) or `AssertionError`, the latter only if some label is carried by every row.
If it returns fewer than `k` rules then they cover every label occurrence. -/
theorem C70_fit_outcomes (env : LearnEnv) (he : env.Good) (X Y : Cmp) (hD : LearnData env X Y)
    (pf pl : ℚ) (p : Params) (k : ℕ) (hk : p.nMaxRules = some k) (ht : 0 < p.nTails) (hh : 0 < p.nHeads)
    (v3 : Bool) (fuel : ℕ) (hf : k < fuel) (x : Py (Option (LearnObj × ℝ)))
    (hx : (learnFitV2 env p (if v3 then learnerV3 p else learnerV2 p)
      (if v3 then qualityOfRuleV3 else qualityOfRule) (LearnObj.new pf pl) X Y fuel).Outcome x) :
    (∃ o obj, x = .ok (some (o, obj)) ∧ o.selected.length ≤ k ∧ (∀ b ∈ o.selected, Supported X Y b) ∧
      (o.selected.length < k → labelCells Y ⊆ covered o.selected)) ∨
    x = .error .typeError ∨ (x = .error .assertionError ∧ UniversalLabel Y) := by
  obtain ⟨s, hs, -, hinv⟩ := new_inv he hD pf pl
  unfold learnFitV2 at hx
  rw [learnRun_new hs, RandR.bind_eq, RandR.outcome_bind] at hx
  have hXw := hD.features.toWF
  have hYw := hD.labels.toWF
  have hlr : LearnerTotal X Y (if v3 then learnerV3 p else learnerV2 p) := by
    split
    · exact total_V3 hXw hYw hD.rows hk
    · exact total_V2 hXw hYw hD.rows hk
  have hstop : ∀ sel b, (if v3 then learnerV3 p else learnerV2 p).stop sel b =
      .ok (decide (sel.length ≥ k)) := by
    intro sel b
    split <;> simp only [learnerV3, learnerV2, shouldStopV2, hk]
  rcases hx with ⟨r, hr, hx⟩ | ⟨e, hr, rfl⟩
  · obtain ⟨hnone, hlen⟩ := learnLoop_budget he hD hlr hstop fuel _ _ hinv (by simpa using hf) hr
    rcases learnLoop_outcome he hD hlr fuel _ _ hinv hr with e | ⟨st', e, hi, -, hwhy⟩ | e | ⟨e, -⟩ | ⟨e, -⟩
    · exact absurd e hnone
    · cases e
      have hle := hlen st' rfl
      obtain ⟨v, hv⟩ := objectiveOf_total (quality := if v3 then qualityOfRuleV3 else qualityOfRule) hXw hYw
        hD.rows (by
          intro sel b hb
          split
          · exact (quality_total hD.rows sel b hb).2
          · exact (quality_total hD.rows sel b hb).1) p.lambd st'.selected st'.selected hi.selected
      simp only [RandR.bind_eq, RandR.outcome_bind, RandR.lift, hv] at hx
      left
      rcases hx with ⟨v', e, hx⟩ | ⟨e, e', -⟩
      swap
      · cases e'
      cases e
      refine ⟨_, _, hx, by simpa [LearnObj.after] using hle, hi.selected, fun hlt => ?_⟩
      rcases hwhy with ⟨new, e, hcov⟩ | ⟨b, -, hb, hst, -⟩
      · rw [List.nil_append] at e
        rw [← e] at hcov
        exact hcov
      · rw [hstop] at hst
        simp only [Except.ok.injEq, decide_eq_true_eq] at hst
        exact absurd hst (by simpa [LearnObj.after] using hlt)
    all_goals cases e
  · rcases learnLoop_outcome he hD hlr fuel _ _ hinv hr with e' | ⟨st', e', -⟩ | e' | ⟨e', hu⟩ | ⟨e', h0⟩
    · cases e'
    · cases e'
    · cases e'; exact Or.inr (Or.inl rfl)
    · cases e'; exact Or.inr (Or.inr ⟨rfl, hu⟩)
    · cases e'; omega

/-- A tail that every row carries makes the head sampler's `fit` fail. -/
theorem headFit_universal {env : LearnEnv} (he : env.Good) {X Y : Cmp} (hD : LearnData env X Y)
    {h : HeadSampler} (hh : HeadReach env.toHeadEnv X h) {T : Finset ℤ} (hT : T.Nonempty)
    (hall : ∀ i < Y.nMajor, RowContains Y i T) :
    ∃ y, conjunctiveCollapseV2 Y.flip (env.orderZ T) = .ok y ∧
      headFit env.toHeadEnv h X (labels01 y) = .error .assertionError := by
  have hne : env.orderZ T ≠ [] := by
    obtain ⟨l, hl⟩ := hT
    intro h
    have := ((he.ints T).2 l).mpr hl
    rw [h] at this
    simp at this
  have hcol := collapse_int_ok (wf_flip Y) hne (by
    intro x hx
    obtain ⟨j, rfl, hj⟩ := hall 0 hD.pos x (((he.ints T).2 x).mp hx)
    rw [flip_nMajor]
    exact ⟨by positivity, by exact_mod_cast Stored.minor_lt hD.labels.toWF hj⟩)
  rw [flip_nMinor] at hcol
  refine ⟨_, hcol, (C58_fit env.toHeadEnv he.heads X hD.features hD.depthX h hh _).2.1 ?_⟩
  intro hc
  have h0 : (0 : ℤ) ∈ (labels01 ((List.range Y.nMajor).map fun i =>
      decide (RowHas Y.flip (env.orderZ T) i))).toFinset := by rw [hc]; simp
  simp only [labels01, List.mem_toFinset, List.mem_map, List.mem_range] at h0
  obtain ⟨b, ⟨i, hi, rfl⟩, hb⟩ := h0
  have := (rowContains_iff_rowHas hD.labels.toWF (he.ints T).2).mp (hall i hi)
  simp [this] at hb

/-- **C70** A label matrix without columns cannot be fitted: networkx raises, in every state of the object. -/
theorem C70_no_label_columns (env : LearnEnv) (X Y : Cmp) (hY : Y.Binary) (hc : Y.nMinor = 0) (o : LearnObj)
    (p : Params) (lr : Learner) (fuel : ℕ) (x : Py (Option LearnState)) :
    (learnRun env p lr o X Y fuel).Outcome x ↔ x = .error .exception := by
  unfold learnRun tailFit
  rw [buildSpaceAndRows_empty _ hY hc]
  rfl

/-- **C70** If some label is carried by every row, then `fit` of a new classifier does raise
`AssertionError` in some execution, for every learner and all parameters with at least one tail per
iteration: the tail consisting of that label may be drawn, and the head sampler needs negative rows. -/
theorem C70_universal_label_crash (env : LearnEnv) (he : env.Good) (X Y : Cmp) (hD : LearnData env X Y)
    (hu : UniversalLabel Y) (pf pl : ℚ) (p : Params) (ht : 0 < p.nTails) (lr : Learner) (fuel : ℕ)
    (hf : 0 < fuel) :
    (learnRun env p lr (LearnObj.new pf pl) X Y fuel).Outcome (.error .assertionError) := by
  obtain ⟨s, hs, hta, hinv⟩ := new_inv he hD pf pl
  obtain ⟨j, hj⟩ := hu
  obtain ⟨g, hg, hst, hrows, -, hmem⟩ := tailAfter_space he.heads hD.labels hD.depthY hta
  rw [learnRun_new hs]
  obtain ⟨fuel, rfl⟩ : ∃ f, fuel = f + 1 := ⟨fuel - 1, by omega⟩
  rw [learnLoop, RandR.bind_eq, RandR.outcome_bind]
  refine Or.inr ⟨_, ?_, rfl⟩
  unfold learnIter
  rw [RandR.bind_eq, RandR.outcome_bind]
  refine Or.inl ⟨(.error .assertionError, (LearnObj.new pf pl).heads), ?_, rfl⟩
  obtain ⟨n, hn⟩ : ∃ n, p.nTails = n + 1 := ⟨p.nTails - 1, by omega⟩
  have hall : ∀ i < Y.nMajor, RowContains Y i {(j : ℤ)} := by
    intro i hi x hx
    rw [Finset.mem_singleton] at hx
    exact ⟨j, hx, hj i hi⟩
  have hdraw : (sampleOnce s).Outcome (.ok {(j : ℤ)}) := by
    have hjlt := Stored.minor_lt hD.labels.toWF (hj 0 hD.pos)
    obtain ⟨g', hg', hwf, -, hn, -⟩ := C48_build_graph Y.flip (Cmp.flip_binary hD.labels)
    rw [hg] at hg'
    cases hg'
    have hprob : g.Probable pl {j} := by
      refine ⟨by simp, ⟨?_, by simp⟩, Or.inl (by simp)⟩
      intro x hx
      rw [Finset.mem_singleton] at hx
      subst hx
      rw [hn]; simpa using hjlt
    have hin : intSet {j} ∈ s.space := (hmem _).mpr ⟨_, hprob, rfl⟩
    obtain ⟨id, hid, hidT⟩ := List.getElem_of_mem hin
    have hidT' : s.space[id]? = some {(j : ℤ)} := by
      rw [List.getElem?_eq_getElem hid, hidT]; simp [intSet]
    have hlen := naiveNewRows_length Y s.space
    refine (C35_sampled_tail s.space (naiveNewRows Y s.space) [] s
      ((applyUpdates_closed s.space _ [] (by simp)).trans (congrArg _ hst.symm)) ?_ _).mpr
      ⟨0, by rw [hlen]; exact hD.pos, id, ?_, hidT', j, by simp, by simp [CoveredBy]⟩
    · intro h; rw [h] at hlen; simp at hlen; have := hD.pos; omega
    · have : id ∈ recordAt (naiveNewRows Y s.space) 0 := by
        rw [recordAt_naive Y s.space hD.pos]
        refine ⟨hid, ?_⟩
        rw [List.getD_eq_getElem?_getD, hidT']
        exact hall 0 hD.pos
      simpa [recordAt] using this
  obtain ⟨y, hy, hfit⟩ := headFit_universal he hD hinv.heads (T := {(j : ℤ)}) (by simp) hall
  show (learnGen env X X.flip Y.flip p.nHeads s p.nTails _ []).Outcome _
  rw [hn, learnGen, RandR.bind_eq, RandR.outcome_bind]
  refine Or.inl ⟨.ok {(j : ℤ)}, ?_, ?_⟩
  · rw [outcome_attempt]
    exact ⟨_, (outcome_toReal _ _).mpr hdraw, rfl⟩
  · change (orRaise (conjunctiveCollapseV2 Y.flip (env.orderZ {(j : ℤ)})) _ _).Outcome _
    rw [hy]
    change (orRaise (headFit env.toHeadEnv _ X (labels01 y)) _ _).Outcome _
    rw [hfit]
    rfl

/-- **C70** `fit` of a new `GreedyCFTPDivMaxV2` or `V3` can raise `AssertionError` exactly when some label
is carried by every training row. -/
theorem C70_assertion_iff (env : LearnEnv) (he : env.Good) (X Y : Cmp) (hD : LearnData env X Y)
    (pf pl : ℚ) (p : Params) (k : ℕ) (hk : p.nMaxRules = some k) (ht : 0 < p.nTails) (hh : 0 < p.nHeads)
    (v3 : Bool) (fuel : ℕ) (hf : k < fuel) :
    (learnFitV2 env p (if v3 then learnerV3 p else learnerV2 p)
      (if v3 then qualityOfRuleV3 else qualityOfRule) (LearnObj.new pf pl) X Y fuel).Outcome
        (.error .assertionError) ↔ UniversalLabel Y := by
  constructor
  · intro hx
    rcases C70_fit_outcomes env he X Y hD pf pl p k hk ht hh v3 fuel hf _ hx with ⟨o, obj, e, -⟩ | e | ⟨-, h⟩
    · cases e
    · cases e
    · exact h
  · intro hu
    unfold learnFitV2
    rw [RandR.bind_eq, RandR.outcome_bind]
    exact Or.inr ⟨_, C70_universal_label_crash env he X Y hD hu pf pl p ht _ fuel (by omega), rfl⟩

/-! ### C81: early stops -/

/-- **C81** If `GreedyCFTPDivMaxV2.fit` or `V3.fit` returns fewer than `n_max_rules` rules, then every
label occurrence of the training data is covered, and the coverage ratio is 1 if there is any. -/
theorem C81_early_stop_means_full_coverage (env : LearnEnv) (he : env.Good) (X Y : Cmp)
    (hD : LearnData env X Y) (pf pl : ℚ) (p : Params) (k : ℕ) (hk : p.nMaxRules = some k)
    (ht : 0 < p.nTails) (hh : 0 < p.nHeads) (v3 : Bool) (fuel : ℕ) (hf : k < fuel) (o : LearnObj) (obj : ℝ)
    (hx : (learnFitV2 env p (if v3 then learnerV3 p else learnerV2 p)
      (if v3 then qualityOfRuleV3 else qualityOfRule) (LearnObj.new pf pl) X Y fuel).Outcome
        (.ok (some (o, obj)))) (hlt : o.selected.length < k) :
    (∀ i j, Y.Stored i j → ∃ r ∈ o.selected, i ∈ r.support ∧ (j : ℤ) ∈ r.tail) ∧
    ((labelCells Y).Nonempty → coverageRatio Y o.selected = .ok 1) := by
  rcases C70_fit_outcomes env he X Y hD pf pl p k hk ht hh v3 fuel hf _ hx with
    ⟨o', obj', e, -, hsup, hcov⟩ | e | ⟨e, -⟩
  · cases e
    have hc := hcov hlt
    constructor
    · intro i j hij
      have hm : ((i, (j : ℤ)) : ℕ × ℤ) ∈ labelCells Y := by
        simp only [labelCells, Finset.mem_biUnion, Finset.mem_range, Finset.mem_image, List.mem_toFinset,
          Prod.mk.injEq, mem_segIdx]
        exact ⟨i, Stored.major_lt hD.labels.toWF hij, j, hij, rfl, rfl⟩
      obtain ⟨r, hr, hm⟩ := (mem_covered _ _).mp (hc hm)
      have hm := Finset.mem_product.mp hm
      exact ⟨r, hr, hm.1, List.mem_toFinset.mp hm.2⟩
    · intro hne
      obtain ⟨q, hq, hqe, -⟩ := C17_coverage_ratio X Y hD.features.toWF hD.labels hD.rows hne o.selected
        (fun b hb => (hsup b hb).1)
      rw [hq, hqe, Finset.filter_true_of_mem, div_self]
      · exact_mod_cast (Finset.card_pos.mpr hne).ne'
      · intro c hc'
        exact (mem_covered _ _).mp (hc hc')
  · cases e
  · cases e

/-! ### The theorems about arbitrary samplers, for the real ones -/

/-- Every run of a new classifier with real samplers is a run of the learner with arbitrary samplers. -/
theorem real_run_is_tape_run {env : LearnEnv} (he : env.Good) {X Y : Cmp} (hD : LearnData env X Y)
    {pf pl : ℚ} {p : Params} {lr : Learner} {fuel : ℕ} {x : Py (Option LearnState)}
    (hx : (learnRun env p lr (LearnObj.new pf pl) X Y fuel).Outcome x) :
    ∃ ws, runFit (tapeSamplers env pl []) p lr X Y [] ws fuel = forgetRun x := by
  obtain ⟨s, hs, hta, -⟩ := new_inv he hD pf pl
  rw [learnRun_new hs] at hx
  obtain ⟨ws, hws⟩ := learnLoop_tape (history := []) he hD fuel 0 [] _ x hta hx
  refine ⟨ws, ?_⟩
  unfold runFit
  rw [show (tapeSamplers env pl []).tailFit Y = .ok s from hs]
  exact hws

/-- **C22** With `n_max_rules` unset and a tolerance `t ≥ 0`, the first round of a new `GreedyCFTPDivMax`
ends within (number of label occurrences) + 1 iterations in every execution, and a completed round with
`k > 0` rules has `k * t < 1`. -/
theorem C22_end_to_end (env : LearnEnv) (he : env.Good) (X Y : Cmp) (hD : LearnData env X Y) (pf pl : ℚ)
    (p : Params) (hp : p.nMaxRules = none) (ht : 0 ≤ p.tolerance) (fuel : ℕ)
    (hfuel : (labelCells Y).card + 1 ≤ fuel) (x : Py (Option LearnState))
    (hx : (learnRun env p (learnerDivMax p Y) (LearnObj.new pf pl) X Y fuel).Outcome x) :
    x ≠ .ok none ∧ ∀ st, x = .ok (some st) → st.selected ≠ [] →
      (st.selected.length : ℚ) * p.tolerance < 1 := by
  obtain ⟨ws, hws⟩ := real_run_is_tape_run he hD hx
  constructor
  · rintro rfl
    have := C22_first_round_terminates (tapeSamplers env pl []) tapeTails p hp ht X Y hD.features.toWF
      hD.labels hD.rows ws fuel hfuel
    rw [hws] at this
    exact absurd this (by simp [forgetRun])
  · rintro st rfl hne
    exact C22_few_rules (tapeSamplers env pl []) tapeTails p hp X Y hD.features.toWF hD.labels hD.rows ws fuel
      (forget st) hws hne

/-- **C24** In every completed run of a new classifier with real samplers, each selected rule is a greedy
choice: the `i`-th maximises the objective, relative to the rules selected before it, over a batch that
candidate generation returned while the tail sampler knew exactly of these rules, and it did not meet the
stopping test. -/
theorem C24_end_to_end (env : LearnEnv) (he : env.Good) (X Y : Cmp) (hD : LearnData env X Y) (pf pl : ℚ)
    (p : Params) (lr : Learner) (k : ℕ)
    (hlr : lr = learnerDivMax p Y ∨ (p.nMaxRules = some k ∧ (lr = learnerV2 p ∨ lr = learnerV3 p)))
    (fuel : ℕ) (st : LearnState)
    (hx : (learnRun env p lr (LearnObj.new pf pl) X Y fuel).Outcome (.ok (some st))) :
    ∀ i (hi : i < st.selected.length), BestCandidate env p lr pl X Y (st.selected.take i) st.selected[i] ∧
      lr.stop (st.selected.take i) st.selected[i] = .ok false := by
  obtain ⟨s, hs, hta, hinv⟩ := new_inv he hD pf pl
  rw [learnRun_new hs] at hx
  have hXw := hD.features.toWF
  have hYw := hD.labels.toWF
  have htot : LearnerTotal X Y lr := by
    rcases hlr with rfl | ⟨hk, rfl | rfl⟩
    · exact total_DivMax hXw hD.labels hD.rows p
    · exact total_V2 hXw hYw hD.rows hk
    · exact total_V3 hXw hYw hD.rows hk
  intro i hi
  exact learnLoop_trace he hD htot fuel _ st hinv hx i hi (by simp)

/-- **C70** `GreedyCFTPDivMax.fit` on a new classifier, for all data and random draws: if it ends, it
returns rules that all have a supporting row, as many as the first round selected; or it raises
`TypeError` (a head draw gave up), `AssertionError` (only if some label is carried by every row) or
`InsufficientCandidates` (only if there is no label occurrence at all). The first round stops only when
every label occurrence is covered or the best candidate meets the stopping test. -/
theorem C70_divmax_outcomes (env : LearnEnv) (he : env.Good) (X Y : Cmp) (hD : LearnData env X Y)
    (pf pl : ℚ) (p : Params) (ht : 0 < p.nTails) (hh : 0 < p.nHeads) (fuel : ℕ)
    (x : Py (Option (LearnObj × FitResult)))
    (hx : (learnFitDivMax env p (LearnObj.new pf pl) X Y fuel).Outcome x) :
    x = .ok none ∨
    (∃ o res, x = .ok (some (o, res)) ∧ o.selected = res.selected ∧
      (∀ b ∈ res.round1 ++ res.round2 ++ res.selected, Supported X Y b) ∧
      res.round2.length = res.round1.length ∧
      (labelCells Y ⊆ covered res.round1 ∨
        ∃ b, Supported X Y b ∧ BestCandidate env p (learnerDivMax p Y) pl X Y res.round1 b ∧
          shouldStopDivMax p Y res.round1 b = .ok true)) ∨
    x = .error .typeError ∨ (x = .error .assertionError ∧ UniversalLabel Y) ∨
    (x = .error .insufficientCandidates ∧ labelCells Y = ∅) := by
  have hXw := hD.features.toWF
  have hYw := hD.labels.toWF
  have htot := total_DivMax hXw hD.labels hD.rows p
  obtain ⟨s, hs, -, hinv⟩ := new_inv he hD pf pl
  unfold learnFitDivMax at hx
  rw [RandR.bind_eq, RandR.outcome_bind] at hx
  rcases hx with ⟨r, hr, hx⟩ | ⟨e, hr, rfl⟩
  · obtain ⟨ws, hws⟩ := real_run_is_tape_run he hD hr
    rw [learnRun_new hs] at hr
    rcases learnLoop_outcome he hD htot fuel _ _ hinv hr with e | ⟨st', e, hi, -, hwhy⟩ | e | ⟨e, -⟩ | ⟨e, -⟩
    · cases e
      exact Or.inl hx
    · cases e
      right
      simp only [RandR.bind_eq, RandR.outcome_bind] at hx
      obtain ⟨v, hv⟩ := objectiveOf_total (quality := qualityOfRule) hXw hYw hD.rows
        (fun sel b hb => (quality_total hD.rows sel b hb).1) p.lambd st'.selected st'.selected hi.selected
      by_cases hpool : st'.pool = []
      · right; right; right
        have hsel : st'.selected = [] :=
          (C29_insufficient_candidates (tapeSamplers env pl []) p X Y ws fuel (forget st') hws).2.1 hpool
        have hft : fitTail env.secondRound p st' = .error .insufficientCandidates := by
          unfold fitTail
          rw [hv, hpool]
          rfl
        rw [hft] at hx
        rcases hx with ⟨v', e, hx⟩ | ⟨e, e', hx⟩
        · cases e
        · cases e'
          refine ⟨hx, ?_⟩
          rcases hwhy with ⟨new, e, hcov⟩ | ⟨b, ⟨c, hc, -⟩, -⟩
          · rw [hsel, List.nil_append] at e
            subst e
            exact Finset.subset_empty.mp (hcov.trans (by simp [covered]))
          · rw [hpool] at hc
            simp at hc
      · left
        obtain ⟨sel2, obj2, h2⟩ := fit2ndRound_succeeds env.secondRound p X Y hD.rows st'.pool hpool
          (fun b hb => (hi.pool b hb).1) (fun b hb => (hi.pool b hb).area_nonempty hXw hYw hD.rows)
          st'.selected.length
        obtain ⟨hlen, hgc⟩ := C25_second_round env.secondRound p st'.pool _ sel2 obj2 h2
        have hsel2 : ∀ b ∈ sel2, Supported X Y b := by
          intro b hb
          obtain ⟨i, hi', rfl⟩ := List.getElem_of_mem hb
          exact hi.pool _ (hgc i hi').1
        have hft : fitTail env.secondRound p st' = .ok
            { selected := if v > obj2 then st'.selected else sel2,
              obj := min v obj2, objRound1 := v, objRound2 := obj2,
              round1 := st'.selected, round2 := sel2 } := by
          unfold fitTail
          rw [hv, h2]
          rfl
        rw [hft] at hx
        rcases hx with ⟨v', e, hx⟩ | ⟨e, e', hx⟩
        swap
        · cases e'
        cases e
        refine ⟨_, _, hx, rfl, ?_, hlen, ?_⟩
        · intro b hb
          simp only [List.mem_append] at hb
          rcases hb with (hb | hb) | hb
          · exact hi.selected b hb
          · exact hsel2 b hb
          · split at hb
            · exact hi.selected b hb
            · exact hsel2 b hb
        · rcases hwhy with ⟨new, e, hcov⟩ | ⟨b, -, hb, hst, hbc⟩
          · rw [List.nil_append] at e
            subst e
            exact Or.inl hcov
          · exact Or.inr ⟨b, hb, hbc rfl, hst⟩
    all_goals cases e
  · rw [learnRun_new hs] at hr
    right; right
    rcases learnLoop_outcome he hD htot fuel _ _ hinv hr with e' | ⟨st', e', -⟩ | e' | ⟨e', hu⟩ | ⟨e', h0⟩
    · cases e'
    · cases e'
    · cases e'; exact Or.inl rfl
    · cases e'; exact Or.inr (Or.inl ⟨rfl, hu⟩)
    · cases e'; omega

/-- **C81** With `n_max_rules` unset: when the first round of a new `GreedyCFTPDivMax` has ended and
uncovered label occurrences are left, the last batch contained a best candidate whose newly covered share
of the label occurrences was at most the tolerance. -/
theorem C81_tolerance_stop (env : LearnEnv) (he : env.Good) (X Y : Cmp) (hD : LearnData env X Y)
    (pf pl : ℚ) (p : Params) (hp : p.nMaxRules = none) (ht : 0 < p.nTails) (hh : 0 < p.nHeads) (fuel : ℕ)
    (o : LearnObj) (res : FitResult)
    (hx : (learnFitDivMax env p (LearnObj.new pf pl) X Y fuel).Outcome (.ok (some (o, res))))
    (hleft : ¬ labelCells Y ⊆ covered res.round1) :
    ∃ b, Supported X Y b ∧ BestCandidate env p (learnerDivMax p Y) pl X Y res.round1 b ∧
      ((area b \ covered res.round1).card : ℚ) ≤ p.tolerance * (labelCells Y).card := by
  rcases C70_divmax_outcomes env he X Y hD pf pl p ht hh fuel _ hx with e | ⟨o', res', e, -, -, -, h⟩ | e |
    ⟨e, -⟩ | ⟨e, -⟩ <;> cases e
  rcases h with h | ⟨b, hb, hbc, hst⟩
  · exact absurd h hleft
  · refine ⟨b, hb, hbc, ?_⟩
    simp only [shouldStopDivMax, hp] at hst
    rcases hm : marginalCoverageRatio Y res.round1 b with e | v
    · rw [hm] at hst; cases hst
    rw [hm] at hst
    simp only [bind, Except.bind, pure, Except.pure, Except.ok.injEq, decide_eq_true_eq] at hst
    obtain ⟨hpos, hqe⟩ := marginalRatio_ok hm
    rw [card_labelCells hD.labels, ← marginalCoverage_eq, ← hqe]
    have : (0 : ℚ) ≤ Y.nnz := by positivity
    exact mul_le_mul_of_nonneg_right hst this

/-! ### The hypotheses can be met -/

open Classical in
/-- Some environment in which sets are traversed as the language promises. -/
noncomputable def someLearnEnv (depth : ℕ) : LearnEnv :=
  { someEnv depth with
    orderZ := Finset.toList
    setOrder := id
    setOrder_perm := fun l => List.Perm.refl l }

theorem someLearnEnv_good (depth : ℕ) : (someLearnEnv depth).Good :=
  ⟨someEnv_good depth, fun s => ⟨Finset.nodup_toList s, fun _ => Finset.mem_toList⟩⟩

/-- The training data of the examples: rows {0,1}, {0}, {1,2}, {0,1,2} with labels {0,1}, {0}, {1}, {0,1}. -/
theorem train_data : LearnData (someLearnEnv 10) trainX trainY :=
  ⟨trainX_binary, trainY_binary, by decide, by decide, by decide, by decide, by decide, by decide⟩

/-- No label is carried by every row of it, so that `fit` returns or raises `TypeError`. -/
example : ¬ UniversalLabel trainY := by
  rintro ⟨j, hj⟩
  have h1 := hj 1 (by decide)
  have h2 := hj 2 (by decide)
  rw [← mem_segIdx] at h1 h2
  have e1 : trainY.segIdx 1 = [0] := by decide
  have e2 : trainY.segIdx 2 = [1] := by decide
  rw [e1] at h1
  rw [e2] at h2
  simp at h1 h2
  omega

example (pf pl : ℚ) (v3 : Bool) (fuel : ℕ) (hf : 5 < fuel) (x : Py (Option (LearnObj × ℝ)))
    (hx : (learnFitV2 (someLearnEnv 10) demoParams (if v3 then learnerV3 demoParams else learnerV2 demoParams)
      (if v3 then qualityOfRuleV3 else qualityOfRule) (LearnObj.new pf pl) trainX trainY fuel).Outcome x) :
    x ≠ .error .noMoreSamples := by
  have h := C70_fit_outcomes (someLearnEnv 10) (someLearnEnv_good 10) trainX trainY train_data pf pl demoParams 5
    rfl Nat.one_pos Nat.one_pos v3 fuel hf x hx
  intro e
  rw [e] at h
  rcases h with ⟨o, obj, e, -⟩ | e | ⟨e, -⟩ <;> cases e

end Verif
