/-
C83: when `fit` raises `TypeError`.

The head sampler rejects proposals until one is accepted; when it has used up its iteration budget it returns
`None` in place of a head, and candidate generation then builds a rule from `None`. The theorems say for
which data that can happen; they say nothing about how likely it is.
-/
import Verif.Props.Learner
import Verif.Lemmas.GiveUp
import Verif.Lemmas.Live

namespace Verif

open Rand Cmp

/-- The first draw of a new tail sampler returns any tail of its space that some row carries. -/
theorem first_draw {env : LearnEnv} (he : env.Good) {X Y : Cmp} (hD : LearnData env X Y) {pl : ℚ}
    {s : UState} (hta : TailAfter env.toHeadEnv pl true Y [] s) {T : Finset ℤ} (hT : T.Nonempty)
    (hin : T ∈ s.space) {i : ℕ} (hi : i < Y.nMajor) (hc : RowContains Y i T) :
    (sampleOnce s).Outcome (.ok T) := by
  obtain ⟨g, hg, hst, hrows, -, hmem⟩ := tailAfter_space he.heads hD.labels hD.depthY hta
  obtain ⟨id, hid, hidT⟩ := List.getElem_of_mem hin
  have hidT' : s.space[id]? = some T := by
    rw [List.getElem?_eq_getElem hid, hidT]
  have hlen := naiveNewRows_length Y s.space
  obtain ⟨x, hx⟩ := hT
  refine (C35_sampled_tail s.space (naiveNewRows Y s.space) [] s
    ((applyUpdates_closed s.space _ [] (by simp)).trans (congrArg _ hst.symm)) ?_ _).mpr
    ⟨i, by rw [hlen]; exact hi, id, ?_, hidT', x, hx, by simp [CoveredBy]⟩
  · intro h; rw [h] at hlen; simp at hlen; have := hD.pos; omega
  · have : id ∈ recordAt (naiveNewRows Y s.space) i := by
      rw [recordAt_naive Y s.space hi]
      refine ⟨hid, ?_⟩
      rw [List.getD_eq_getElem?_getD, hidT']
      exact hc
    simpa [recordAt] using this

theorem rowContains_intSet {Y : Cmp} {i : ℕ} {U : Finset ℕ} :
    RowContains Y i (intSet U) ↔ ∀ l ∈ U, Y.Stored i l := by
  constructor
  · intro h l hl
    obtain ⟨l', e, hs⟩ := h (l : ℤ) (by simp [intSet]; exact hl)
    have : l = l' := by exact_mod_cast e
    rw [this]; exact hs
  · intro h x hx
    simp only [intSet, Finset.mem_image] at hx
    obtain ⟨l, hl, rfl⟩ := hx
    exact ⟨l, rfl, h l hl⟩

/-- The failing tails of the space, in terms of the data. -/
theorem failing_iff {env : LearnEnv} (he : env.Good) {X Y : Cmp} (hD : LearnData env X Y) {pl : ℚ}
    {us : List (List ℕ × List ℤ)} {s : UState} (hta : TailAfter env.toHeadEnv pl true Y us s) :
    (∃ T ∈ s.space, FailingTail X Y T) ↔ SharedFeature X Y ∨ FeaturelessTail X Y pl := by
  obtain ⟨g, hg, hst, hrows, -, hmem⟩ := tailAfter_space he.heads hD.labels hD.depthY hta
  constructor
  · rintro ⟨T, hT, h1, h2, h3⟩
    obtain ⟨U, hU, rfl⟩ := (hmem T).mp hT
    simp only [rowContains_intSet] at h1 h2 h3
    rcases h3 with h3 | ⟨i, j, f, hi, hj, hci, hcj, hfi, hfj⟩
    · right
      refine ⟨g, U, hg, hU, h1, ?_, ?_⟩
      · obtain ⟨j, hj, hc⟩ := h2
        push Not at hc
        exact ⟨j, hj, hc⟩
      · intro i hc f hf
        exact h3 i (by rw [← hD.rows]; exact Stored.major_lt hD.features.toWF hf) hc f hf
    · left
      push Not at hcj
      obtain ⟨l, hl, hn⟩ := hcj
      exact ⟨i, j, f, l, hfi, hfj, hci l hl, hn⟩
  · rintro (⟨i, j, f, l, hfi, hfj, hli, hlj⟩ | ⟨g', U, hg', hU, h1, ⟨j, hj, hc⟩, h3⟩)
    · have hi := Stored.major_lt hD.labels.toWF hli
      have hl := Stored.minor_lt hD.labels.toWF hli
      have hj : j < Y.nMajor := by rw [← hD.rows]; exact Stored.major_lt hD.features.toWF hfj
      obtain ⟨g', hg', hwf, -, hn, -⟩ := C48_build_graph Y.flip (Cmp.flip_binary hD.labels)
      rw [hg] at hg'
      cases hg'
      have hprob : g.Probable pl {l} := by
        refine ⟨by simp, ⟨?_, by simp⟩, Or.inl (by simp)⟩
        intro x hx
        rw [Finset.mem_singleton] at hx
        subst hx
        rw [hn]; simpa using hl
      refine ⟨intSet {l}, (hmem _).mpr ⟨_, hprob, rfl⟩, ?_⟩
      unfold FailingTail
      simp only [rowContains_intSet, Finset.mem_singleton, forall_eq]
      exact ⟨⟨i, hi, hli⟩, ⟨j, hj, hlj⟩, Or.inr ⟨i, j, f, hi, hj, hli, hlj, hfi, hfj⟩⟩
    · rw [hg] at hg'
      cases hg'
      refine ⟨intSet U, (hmem _).mpr ⟨_, hU, rfl⟩, ?_⟩
      unfold FailingTail
      simp only [rowContains_intSet]
      refine ⟨h1, ⟨j, hj, ?_⟩, Or.inl fun i _ hc f => h3 i hc f⟩
      push Not
      exact hc

/-- **C83** The main loop of a new classifier raises `TypeError` in some execution exactly when two training
rows share a feature while some label is carried by only one of them, or some probable label set occurs,
though not in all rows, and only in rows without features. -/
theorem C83_loop_type_error_iff (env : LearnEnv) (he : env.Good) (X Y : Cmp) (hD : LearnData env X Y)
    (pf pl : ℚ) (p : Params) (ht : 0 < p.nTails) (hh : 0 < p.nHeads) (lr : Learner)
    (hlr : LearnerTotal X Y lr) (fuel : ℕ) (hf : 0 < fuel) :
    (learnRun env p lr (LearnObj.new pf pl) X Y fuel).Outcome (.error .typeError) ↔
      SharedFeature X Y ∨ FeaturelessTail X Y pl := by
  obtain ⟨s, hs, hta, hinv⟩ := new_inv he hD pf pl
  rw [learnRun_new hs]
  constructor
  · intro hx
    obtain ⟨us, s', hta', T, hT, hF⟩ := learnLoop_typeError he hD hlr fuel _ hinv rfl hx
    exact (failing_iff he hD hta').mp ⟨T, hT, hF⟩
  · intro hF
    obtain ⟨T, hT, hF⟩ := (failing_iff he hD hta).mpr hF
    obtain ⟨g, hg, hst, hrows, -, hmem⟩ := tailAfter_space he.heads hD.labels hD.depthY hta
    obtain ⟨⟨i, hi, hc⟩, hF2⟩ := id hF
    have hTne : T.Nonempty := by
      obtain ⟨U, hU, rfl⟩ := (hmem T).mp hT
      obtain ⟨x, hx⟩ := Finset.nonempty_iff_ne_empty.mpr hU.1
      exact ⟨x, by simp [intSet]; exact hx⟩
    have hTr : ∀ l ∈ T, 0 ≤ l ∧ l < Y.nMinor := by
      intro l hl
      obtain ⟨m, rfl, hm⟩ := hc l hl
      exact ⟨by positivity, by exact_mod_cast Stored.minor_lt hD.labels.toWF hm⟩
    obtain ⟨h', hgen⟩ := learnGen_may_fail he hD hh hTne hTr hF (first_draw he hD hta hTne hT hi hc) ht
      hinv.heads rfl
    obtain ⟨fuel, rfl⟩ : ∃ f, fuel = f + 1 := ⟨fuel - 1, by omega⟩
    rw [learnLoop, RandR.bind_eq, RandR.outcome_bind]
    refine Or.inr ⟨_, ?_, rfl⟩
    unfold learnIter
    rw [RandR.bind_eq, RandR.outcome_bind]
    exact Or.inl ⟨_, hgen, rfl⟩

/-- **C83** `fit` of a new `GreedyCFTPDivMaxV2` or `V3` raises `TypeError` in some execution exactly when two
training rows share a feature while some label is carried by only one of them, or some probable label set
occurs, though not in all rows, and only in rows without features. -/
theorem C83_fit_type_error_iff (env : LearnEnv) (he : env.Good) (X Y : Cmp) (hD : LearnData env X Y)
    (pf pl : ℚ) (p : Params) (k : ℕ) (hk : p.nMaxRules = some k) (ht : 0 < p.nTails) (hh : 0 < p.nHeads)
    (v3 : Bool) (fuel : ℕ) (hf : k < fuel) :
    (learnFitV2 env p (if v3 then learnerV3 p else learnerV2 p)
      (if v3 then qualityOfRuleV3 else qualityOfRule) (LearnObj.new pf pl) X Y fuel).Outcome
        (.error .typeError) ↔ SharedFeature X Y ∨ FeaturelessTail X Y pl := by
  have hXw := hD.features.toWF
  have hYw := hD.labels.toWF
  have hlr : LearnerTotal X Y (if v3 then learnerV3 p else learnerV2 p) := by
    split
    · exact total_V3 hXw hYw hD.rows hk
    · exact total_V2 hXw hYw hD.rows hk
  rw [← C83_loop_type_error_iff env he X Y hD pf pl p ht hh _ hlr fuel (by omega)]
  unfold learnFitV2
  rw [RandR.bind_eq, RandR.outcome_bind]
  constructor
  · rintro (⟨r, hr, hx⟩ | ⟨e, hr, e'⟩)
    · obtain ⟨s, hs, -, hinv⟩ := new_inv he hD pf pl
      rw [learnRun_new hs] at hr
      rcases learnLoop_outcome he hD hlr fuel _ _ hinv hr with e | ⟨st', e, hi, -⟩ | e | ⟨e, -⟩ | ⟨e, -⟩
      · cases e; cases hx
      · cases e
        obtain ⟨v, hv⟩ := objectiveOf_total (quality := if v3 then qualityOfRuleV3 else qualityOfRule) hXw hYw
          hD.rows (by
            intro sel b hb
            split
            · exact (quality_total hD.rows sel b hb).2
            · exact (quality_total hD.rows sel b hb).1) p.lambd st'.selected st'.selected hi.selected
        simp only [RandR.bind_eq, RandR.outcome_bind, RandR.lift, hv] at hx
        rcases hx with ⟨v', e, hx⟩ | ⟨e, e', -⟩
        · cases hx
        · cases e'
      all_goals cases e
    · cases e'
      exact hr
  · intro hx
    exact Or.inr ⟨_, hx, rfl⟩

/-- **C83** The same for `GreedyCFTPDivMax`. -/
theorem C83_divmax_type_error_iff (env : LearnEnv) (he : env.Good) (X Y : Cmp) (hD : LearnData env X Y)
    (pf pl : ℚ) (p : Params) (ht : 0 < p.nTails) (hh : 0 < p.nHeads) (fuel : ℕ) (hf : 0 < fuel) :
    (learnFitDivMax env p (LearnObj.new pf pl) X Y fuel).Outcome (.error .typeError) ↔
      SharedFeature X Y ∨ FeaturelessTail X Y pl := by
  have hXw := hD.features.toWF
  have hYw := hD.labels.toWF
  have hlr := total_DivMax hXw hD.labels hD.rows p
  rw [← C83_loop_type_error_iff env he X Y hD pf pl p ht hh _ hlr fuel hf]
  unfold learnFitDivMax
  rw [RandR.bind_eq, RandR.outcome_bind]
  constructor
  · rintro (⟨r, hr, hx⟩ | ⟨e, hr, e'⟩)
    · obtain ⟨s, hs, -, hinv⟩ := new_inv he hD pf pl
      rw [learnRun_new hs] at hr
      rcases learnLoop_outcome he hD hlr fuel _ _ hinv hr with e | ⟨st', e, hi, -⟩ | e | ⟨e, -⟩ | ⟨e, -⟩
      · cases e; cases hx
      · cases e
        exfalso
        obtain ⟨v, hv⟩ := objectiveOf_total (quality := qualityOfRule) hXw hYw hD.rows
          (fun sel b hb => (quality_total hD.rows sel b hb).1) p.lambd st'.selected st'.selected hi.selected
        simp only [RandR.bind_eq, RandR.outcome_bind, RandR.lift] at hx
        by_cases hpool : st'.pool = []
        · have hft : fitTail env.secondRound p st' = .error .insufficientCandidates := by
            unfold fitTail
            rw [hv, hpool]
            rfl
          rw [hft] at hx
          rcases hx with ⟨v', e, hx⟩ | ⟨e, e', hx⟩
          · cases e
          · cases e'
            cases hx
        · obtain ⟨sel2, obj2, h2⟩ := fit2ndRound_succeeds env.secondRound p X Y hD.rows st'.pool hpool
            (fun b hb => (hi.pool b hb).1) (fun b hb => (hi.pool b hb).area_nonempty hXw hYw hD.rows)
            st'.selected.length
          have hft : fitTail env.secondRound p st' = .ok
              { selected := if v > obj2 then st'.selected else sel2,
                obj := min v obj2, objRound1 := v, objRound2 := obj2,
                round1 := st'.selected, round2 := sel2 } := by
            unfold fitTail
            rw [hv, h2]
            rfl
          rw [hft] at hx
          rcases hx with ⟨v', e, hx⟩ | ⟨e, e', hx⟩
          · cases hx
          · cases e'
      all_goals cases e
    · cases e'
      exact hr
  · intro hx
    exact Or.inr ⟨_, hx, rfl⟩

/-- **C83** When every training row has a feature: `fit` raises `TypeError` in some execution exactly when
two rows that share a feature have different label sets. -/
theorem C83_rows_with_features (env : LearnEnv) (he : env.Good) (X Y : Cmp) (hD : LearnData env X Y)
    (hrow : ∀ i < X.nMajor, ∃ f, X.Stored i f)
    (pf pl : ℚ) (p : Params) (k : ℕ) (hk : p.nMaxRules = some k) (ht : 0 < p.nTails) (hh : 0 < p.nHeads)
    (v3 : Bool) (fuel : ℕ) (hf : k < fuel) :
    (learnFitV2 env p (if v3 then learnerV3 p else learnerV2 p)
      (if v3 then qualityOfRuleV3 else qualityOfRule) (LearnObj.new pf pl) X Y fuel).Outcome
        (.error .typeError) ↔
      ∃ i j f, X.Stored i f ∧ X.Stored j f ∧ ¬ ∀ l, Y.Stored i l ↔ Y.Stored j l := by
  rw [C83_fit_type_error_iff env he X Y hD pf pl p k hk ht hh v3 fuel hf]
  constructor
  · rintro (⟨i, j, f, l, h1, h2, h3, h4⟩ | ⟨g, U, -, -, ⟨i, hi, hc⟩, -, h⟩)
    · exact ⟨i, j, f, h1, h2, fun h => h4 ((h l).mp h3)⟩
    · obtain ⟨f, hf⟩ := hrow i (by rw [hD.rows]; exact hi)
      exact absurd hf (h i hc f)
  · rintro ⟨i, j, f, h1, h2, h3⟩
    push Not at h3
    obtain ⟨l, ⟨h3, h4⟩ | ⟨h3, h4⟩⟩ := h3
    · exact Or.inl ⟨i, j, f, l, h1, h2, h3, h4⟩
    · exact Or.inl ⟨j, i, f, l, h2, h1, h4, h3⟩

/-- **C83** On data with none of the three flaws, `fit` of a new `GreedyCFTPDivMaxV2` or `V3` returns in
every execution; on any other data some execution raises. -/
theorem C83_fit_never_raises_iff (env : LearnEnv) (he : env.Good) (X Y : Cmp) (hD : LearnData env X Y)
    (pf pl : ℚ) (p : Params) (k : ℕ) (hk : p.nMaxRules = some k) (ht : 0 < p.nTails) (hh : 0 < p.nHeads)
    (v3 : Bool) (fuel : ℕ) (hf : k < fuel) :
    (∀ e, ¬ (learnFitV2 env p (if v3 then learnerV3 p else learnerV2 p)
      (if v3 then qualityOfRuleV3 else qualityOfRule) (LearnObj.new pf pl) X Y fuel).Outcome (.error e)) ↔
    ¬ SharedFeature X Y ∧ ¬ FeaturelessTail X Y pl ∧ ¬ UniversalLabel Y := by
  have h1 := C83_fit_type_error_iff env he X Y hD pf pl p k hk ht hh v3 fuel hf
  have h2 := C70_assertion_iff env he X Y hD pf pl p k hk ht hh v3 fuel hf
  constructor
  · intro h
    refine ⟨fun hc => h _ (h1.mpr (Or.inl hc)), fun hc => h _ (h1.mpr (Or.inr hc)), fun hc => h _ (h2.mpr hc)⟩
  · rintro ⟨a, b, c⟩ e he'
    rcases C70_fit_outcomes env he X Y hD pf pl p k hk ht hh v3 fuel hf _ he' with ⟨o, obj, e, -⟩ | e | ⟨e, hu⟩
    · cases e
    · cases e
      rcases h1.mp he' with h | h
      · exact a h
      · exact b h
    · exact c hu

/-- **C83** On data with none of the three flaws and at least one label, with `n_max_rules = k ≥ 1`: `fit` has
an execution, and every execution returns at least one rule. -/
theorem C83_clean_data_fits (env : LearnEnv) (he : env.Good) (X Y : Cmp) (hD : LearnData env X Y)
    (h1 : ¬ SharedFeature X Y) (pf pl : ℚ) (h2 : ¬ FeaturelessTail X Y pl) (h3 : ¬ UniversalLabel Y)
    (hlab : ∃ i l, Y.Stored i l) (p : Params) (k : ℕ) (hk : p.nMaxRules = some (k + 1)) (ht : 0 < p.nTails)
    (hh : 0 < p.nHeads) (v3 : Bool) (fuel : ℕ) (hf : k + 1 < fuel) :
    (∃ x, (learnFitV2 env p (if v3 then learnerV3 p else learnerV2 p)
      (if v3 then qualityOfRuleV3 else qualityOfRule) (LearnObj.new pf pl) X Y fuel).Outcome x) ∧
    ∀ x, (learnFitV2 env p (if v3 then learnerV3 p else learnerV2 p)
      (if v3 then qualityOfRuleV3 else qualityOfRule) (LearnObj.new pf pl) X Y fuel).Outcome x →
      ∃ o obj, x = .ok (some (o, obj)) ∧ o.selected ≠ [] := by
  refine ⟨(learnFitV2_proper _ _ _ _ _ _ _ _).exists_outcome, fun x hx => ?_⟩
  have hno := (C83_fit_never_raises_iff env he X Y hD pf pl p (k + 1) hk ht hh v3 fuel hf).mpr ⟨h1, h2, h3⟩
  rcases C70_fit_outcomes env he X Y hD pf pl p (k + 1) hk ht hh v3 fuel hf x hx with
    ⟨o, obj, rfl, -, -, hcov⟩ | rfl | ⟨rfl, -⟩
  · refine ⟨o, obj, rfl, fun hsel => ?_⟩
    rw [hsel] at hcov
    have hsub := hcov (by simp)
    obtain ⟨i, l, hs⟩ := hlab
    have hm : ((i, (l : ℤ)) : ℕ × ℤ) ∈ labelCells Y := by
      simp only [labelCells, Finset.mem_biUnion, Finset.mem_range, Finset.mem_image, List.mem_toFinset,
        Prod.mk.injEq, mem_segIdx]
      exact ⟨i, Stored.major_lt hD.labels.toWF hs, l, hs, rfl, rfl⟩
    have := hsub hm
    simp [covered] at this
  · exact absurd hx (hno _)
  · exact absurd hx (hno _)

/-! ### The hypotheses can be met -/

/-- Rows 0 and 1 of the example data share feature 0, and only row 0 carries label 1. -/
theorem train_shared : SharedFeature trainX trainY := by
  refine ⟨0, 1, 0, 1, ?_, ?_, ?_, ?_⟩
  · rw [← mem_segIdx]; decide
  · rw [← mem_segIdx]; decide
  · rw [← mem_segIdx]; decide
  · rw [← mem_segIdx]; decide

example (pf pl : ℚ) (v3 : Bool) (fuel : ℕ) (hf : 5 < fuel) :
    (learnFitV2 (someLearnEnv 10) demoParams (if v3 then learnerV3 demoParams else learnerV2 demoParams)
      (if v3 then qualityOfRuleV3 else qualityOfRule) (LearnObj.new pf pl) trainX trainY fuel).Outcome
        (.error .typeError) :=
  (C83_fit_type_error_iff (someLearnEnv 10) (someLearnEnv_good 10) trainX trainY train_data pf pl demoParams 5
    rfl Nat.one_pos Nat.one_pos v3 fuel hf).mpr (Or.inl train_shared)

/-- Two rows: features {0} and {1}, labels {0} and {1}. -/
def eyeData : Cmp :=
  { nMajor := 2, nMinor := 2, indptr := [0, 1, 2], indices := [0, 1], data := [1, 1] }

theorem eye_binary : eyeData.Binary :=
  { len_indptr := by decide, ptr_zero := by decide, ptr_mono := by decide, ptr_last := by decide,
    len_data := by decide, idx_lt := by decide, data_one := by decide, nodup := by decide }

theorem eye_data : LearnData (someLearnEnv 10) eyeData eyeData :=
  ⟨eye_binary, eye_binary, rfl, by decide, by decide, by decide, by decide, by decide⟩

theorem eye_stored {i j : ℕ} : eyeData.Stored i j ↔ i < 2 ∧ j = i := by
  constructor
  · intro h
    have hi : i < 2 := Stored.major_lt eye_binary.toWF h
    rw [← mem_segIdx] at h
    have h0 : eyeData.segIdx 0 = [0] := by decide
    have h1 : eyeData.segIdx 1 = [1] := by decide
    refine ⟨hi, ?_⟩
    interval_cases i
    · rw [h0] at h; simpa using h
    · rw [h1] at h; simpa using h
  · rintro ⟨hi, rfl⟩
    rw [← mem_segIdx]
    interval_cases j <;> decide

/-- The identity data have none of the flaws: `fit` has an execution, and every one returns a rule. -/
theorem eye_fits (pf pl : ℚ) (v3 : Bool) (fuel : ℕ) (hf : 5 < fuel) :
    ∃ o obj, (learnFitV2 (someLearnEnv 10) demoParams
      (if v3 then learnerV3 demoParams else learnerV2 demoParams)
      (if v3 then qualityOfRuleV3 else qualityOfRule) (LearnObj.new pf pl) eyeData eyeData fuel).Outcome
        (.ok (some (o, obj))) ∧ o.selected ≠ [] := by
  obtain ⟨⟨x, hx⟩, h⟩ := C83_clean_data_fits (someLearnEnv 10) (someLearnEnv_good 10) eyeData eyeData eye_data
    (by
      rintro ⟨i, j, f, l, h1, h2, h3, h4⟩
      rw [eye_stored] at h1 h2 h3 h4
      exact h4 ⟨h2.1, by rw [h3.2, ← h1.2, h2.2]⟩) pf pl
    (by
      rintro ⟨g, U, -, hU, ⟨i, hi, h1⟩, ⟨j, hj, l, hl, h2⟩, h3⟩
      exact h3 i h1 i (eye_stored.mpr ⟨hi, rfl⟩))
    (by
      rintro ⟨j, hj⟩
      have h0 := eye_stored.mp (hj 0 (by decide))
      have h1 := eye_stored.mp (hj 1 (by decide))
      omega)
    ⟨0, 0, eye_stored.mpr ⟨by omega, rfl⟩⟩ demoParams 4 rfl Nat.one_pos Nat.one_pos v3 fuel hf
  obtain ⟨o, obj, rfl, hne⟩ := h x hx
  exact ⟨o, obj, hx, hne⟩

end Verif
