/-
C126: training data that do not fit together.
-/
import Verif.Props.Thresholds
import Verif.Props.GiveUp

namespace Verif

open Cmp

/-- With different numbers of rows, binding a rule whose head and tail are otherwise acceptable fails: the two
label vectors cannot be combined. (numpy would broadcast a vector of length one; that length is excluded.) -/
theorem bind_mismatch {X Y : Cmp} (hX : X.Binary) (hY : Y.Binary) (hn : X.nMajor ≠ Y.nMajor)
    {orderZ : Finset ℤ → List ℤ} (ho : Traverses orderZ) {T H : Finset ℤ} (hT : T.Nonempty)
    (hTr : ∀ l ∈ T, 0 ≤ l ∧ l < Y.nMinor) {i j : ℕ} (hHi : RowContains X i H) (hHj : ¬ RowContains X j H) :
    bindDataset (Rule.new (orderZ H) (orderZ T)) X.flip Y.flip = .error .valueError := by
  classical
  have hHne : H.Nonempty := by
    rw [Finset.nonempty_iff_ne_empty]
    rintro rfl
    exact hHj (by intro x hx; simp at hx)
  have ne : ∀ {S : Finset ℤ}, S.Nonempty → orderZ S ≠ [] := by
    rintro S ⟨x, hx⟩ h
    have := (ho S).2 x |>.mpr hx
    rw [h] at this
    simp at this
  have hHr : ∀ x ∈ (Rule.new (orderZ H) (orderZ T)).head, 0 ≤ x ∧ x < X.flip.nMajor := by
    intro x hx
    rw [Rule.mem_new_head] at hx
    obtain ⟨k, rfl, hk⟩ := hHi x (((ho H).2 x).mp hx)
    rw [flip_nMajor]
    exact ⟨by positivity, by exact_mod_cast Stored.minor_lt hX.toWF hk⟩
  have hTr' : ∀ x ∈ (Rule.new (orderZ H) (orderZ T)).tail, 0 ≤ x ∧ x < Y.flip.nMajor := by
    intro x hx
    rw [Rule.mem_new_tail] at hx
    rw [flip_nMajor]
    exact hTr x (((ho T).2 x).mp hx)
  have c1 := collapse_int_ok (wf_flip Y) (Rule.new_tail_ne_nil.mpr (ne hT)) hTr'
  have c2 := collapse_int_ok (wf_flip X) (Rule.new_head_ne_nil.mpr (ne hHne)) hHr
  unfold bindDataset
  rw [checkHead_ok hHr, c1, c2]
  simp only [bind, Except.bind]
  split
  · rfl
  · unfold logicalAnd
    rw [if_neg (by simpa using hn)]

/-- When every head is `None` or cannot be bound, and there is a head, adding the heads raises. -/
theorem addHeads_bad {Xc Yc : Cmp} {tail : List ℤ} (heads : List (Option (List ℤ))) (hne : heads ≠ [])
    (h : ∀ x ∈ heads, x = none ∨ ∃ hd, x = some hd ∧ bindDataset (Rule.new hd tail) Xc Yc = .error .valueError) :
    addHeads Xc Yc tail heads [] = .error .typeError ∨ addHeads Xc Yc tail heads [] = .error .valueError := by
  cases heads with
  | nil => exact absurd rfl hne
  | cons x rest =>
    rcases h x (by simp) with rfl | ⟨hd, rfl, hb⟩
    · exact Or.inl rfl
    · right
      simp only [addHeads, List.any_nil, Bool.false_eq_true, if_false, hb]
      rfl

/-- More labels than rows: the constructor of the coupling misses a weight. -/
theorem headFit_too_long {env : HeadEnv} (he : env.Good) {X : Cmp} (hX : X.Binary) (hd : X.nMinor < env.depth)
    (hc : 0 < X.nMinor) {s : HeadSampler} (hs : HeadReach env X s) {y : List ℤ} (hy : y.toFinset = {0, 1})
    (hlen : X.nMajor < y.length) : headFit env s X y = .error .keyError := by
  have hi := headInv_of_reach he hX hd hs
  obtain ⟨g, space, hg, hb, hnd, hmem⟩ := buildSpaceAndRows_ok he s hX hc hd
  have hl := naiveNewRows_length X space
  unfold headFit checkLabels checkKeys
  rw [if_pos hy, spaceAndRows_eq hi, hb]
  simp only [bind, Except.bind]
  have hm : (List.range X.nMajor).mapM (headWeight s.tight space.length (naiveNewRows X space) (posIndices y)) =
      .ok ((List.range X.nMajor).map (weightOf s.tight space.length (naiveNewRows X space) (posIndices y))) :=
    mapM_ok_of_forall fun i hi => headWeight_ok (by rw [hl]; exact List.mem_range.mp hi)
  rw [hm]
  simp only
  rw [if_neg]
  intro h
  have hin : X.nMajor ∈ posIndices y ++ negIndices y := by
    have hg : y.getD X.nMajor 0 ∈ y.toFinset := by
      rw [List.getD_eq_getElem _ _ hlen, List.mem_toFinset]; exact List.getElem_mem hlen
    rw [hy] at hg
    simp only [posIndices, negIndices, List.mem_append, List.mem_filter, List.mem_range, hlen, true_and,
      decide_eq_true_eq]
    rcases Finset.mem_insert.mp hg with e | e
    · exact Or.inr e
    · left; rw [Finset.mem_singleton.mp e]; decide
  exact absurd (h _ hin) (lt_irrefl _)

/-- What the exceptions of fitting data that do not fit together say about them. -/
inductive MalformedError (X Y : Cmp) : PyErr → Prop
  | universal : UniversalLabel Y → MalformedError X Y .assertionError
  | noFeatures : X.nMinor = 0 → MalformedError X Y .exception
  | moreLabels : 0 < X.nMinor → X.nMajor < Y.nMajor → MalformedError X Y .keyError
  | gaveUp : 0 < X.nMinor → Y.nMajor < X.nMajor → MalformedError X Y .typeError
  | moreFeatures : 0 < X.nMinor → Y.nMajor < X.nMajor → MalformedError X Y .valueError

theorem malformed_gen {env : LearnEnv} (he : env.Good) {X Y : Cmp} (hX : X.Binary) (hY : Y.Binary)
    (hdX : X.nMinor < env.depth) (hdY : Y.nMinor < env.depth) (hcY : 0 < Y.nMinor)
    (hlab : ∃ i l, Y.Stored i l) (hbad : X.nMajor ≠ Y.nMajor ∨ X.nMinor = 0) (pf pl : ℚ) {s : UState}
    (hs : tailFit env.toHeadEnv pl true [] Y = .ok s) (nHeads todo : ℕ) (hh : 0 < nHeads)
    (x : Py (Py (List BRule) × HeadSampler))
    (hx : (learnGen env X X.flip Y.flip nHeads s (todo + 1) (LearnObj.new pf pl).heads []).Outcome x) :
    ∃ e h', x = .ok (.error e, h') ∧ MalformedError X Y e := by
  classical
  have hrows : 0 < Y.nMajor := by
    obtain ⟨i, l, h⟩ := hlab
    have := Stored.major_lt hY.toWF h
    omega
  have hD : LearnData env Y Y := ⟨hY, hY, rfl, hrows, hdY, hdY, hcY, hcY⟩
  have hta : TailAfter env.toHeadEnv pl true Y [] s := ⟨s, hs, rfl⟩
  have hreach : HeadReach env.toHeadEnv X (LearnObj.new pf pl).heads := .init _ _ _
  rw [learnGen, RandR.bind_eq, RandR.outcome_bind] at hx
  rcases hx with ⟨t, ht, hx⟩ | ⟨e, ht, -⟩
  swap
  · rw [outcome_attempt] at ht
    obtain ⟨r, -, hr⟩ := ht
    cases hr
  rw [outcome_attempt] at ht
  obtain ⟨r, ht, e⟩ := ht
  cases e
  rw [outcome_toReal] at ht
  rcases tail_outcome he.heads hY hdY hrows hta ht with ⟨rfl, h0⟩ |
    ⟨T, rfl, hTs, hTne, hTr, i, hi, hTi, -⟩
  · have hcov := area_zero_covers he hD (new := []) hta h0
    obtain ⟨i, l, h⟩ := hlab
    have hm : (i, (l : ℤ)) ∈ labelCells Y := by
      simp only [labelCells, Finset.mem_biUnion, Finset.mem_range, Finset.mem_image, List.mem_toFinset,
        Prod.mk.injEq, mem_segIdx]
      exact ⟨i, Stored.major_lt hY.toWF h, l, h, rfl, rfl⟩
    have := hcov hm
    simp [covered] at this
  · have hne : env.orderZ T ≠ [] := by
      obtain ⟨l, hl⟩ := hTne
      intro h
      have := ((he.ints T).2 l).mpr hl
      rw [h] at this
      simp at this
    have hcol : conjunctiveCollapseV2 Y.flip (env.orderZ T) = .ok ((List.range Y.nMajor).map fun i =>
        decide (RowHas Y.flip (env.orderZ T) i)) := by
      have := collapse_int_ok (wf_flip Y) hne (by
        intro x hx
        rw [flip_nMajor]
        exact hTr x (((he.ints T).2 x).mp hx))
      rwa [flip_nMinor] at this
    have hrow : ∀ k, RowHas Y.flip (env.orderZ T) k ↔ RowContains Y k T := fun k =>
      (rowContains_iff_rowHas hY.toWF (he.ints T).2).symm
    have hyy : ((List.range Y.nMajor).map fun i => decide (RowHas Y.flip (env.orderZ T) i)) =
        (List.range Y.nMajor).map fun i => decide (RowContains Y i T) :=
      List.map_congr_left fun k _ => decide_eq_decide.mpr (hrow k)
    change (orRaise (conjunctiveCollapseV2 Y.flip (env.orderZ T)) _ _).Outcome x at hx
    rw [hcol, hyy] at hx
    set y := (List.range Y.nMajor).map fun i => decide (RowContains Y i T) with hy
    change (orRaise (headFit env.toHeadEnv _ X (labels01 y)) _ _).Outcome x at hx
    have hylen : (labels01 y).length = Y.nMajor := by simp [labels01, hy]
    obtain ⟨c1, c2, c3, -⟩ := C58_fit env.toHeadEnv he.heads X hX hdX _ hreach (labels01 y)
    by_cases hyl : (labels01 y).toFinset = {0, 1}
    swap
    · rw [c2 hyl] at hx
      refine ⟨_, _, hx, .universal ?_⟩
      obtain ⟨l, hl⟩ := hTne
      obtain ⟨j, rfl, -⟩ := hTi l hl
      refine ⟨j, fun k hk => ?_⟩
      by_contra hc
      apply hyl
      have hkT : ¬ RowContains Y k T := by
        intro h
        obtain ⟨j', e, h⟩ := h _ hl
        rw [Nat.cast_inj.mp e] at hc
        exact hc h
      have hget : ∀ m < Y.nMajor, (if RowContains Y m T then (1 : ℤ) else 0) ∈ labels01 y := by
        intro m hm
        simp only [labels01, hy, List.map_map, List.mem_map, List.mem_range, Function.comp,
          decide_eq_true_eq]
        exact ⟨m, hm, rfl⟩
      ext z
      simp only [List.mem_toFinset, Finset.mem_insert, Finset.mem_singleton]
      constructor
      · intro hz
        simp only [labels01, List.mem_map] at hz
        obtain ⟨b, -, rfl⟩ := hz
        cases b <;> simp
      · rintro (rfl | rfl)
        · simpa [hkT] using hget k hk
        · simpa [hTi] using hget i hi
    · by_cases hc : X.nMinor = 0
      · rw [c3 hyl hc] at hx
        exact ⟨_, _, hx, .noFeatures hc⟩
      · have hn : X.nMajor ≠ Y.nMajor := hbad.resolve_right hc
        have hc' : 0 < X.nMinor := by omega
        rcases lt_or_gt_of_ne hn with hlt | hgt
        · rw [headFit_too_long he.heads hX hdX hc' hreach hyl (by rw [hylen]; exact hlt)] at hx
          exact ⟨_, _, hx, .moreLabels hc' hlt⟩
        · obtain ⟨h1, hf⟩ := c1.mpr ⟨hyl, by rw [hylen]; omega, hc'⟩
          rw [hf] at hx
          change ((headSample env.toHeadEnv nHeads h1).attempt.bind _).Outcome x at hx
          rw [RandR.outcome_bind] at hx
          rcases hx with ⟨q, hq, hx⟩ | ⟨e, ht, -⟩
          swap
          · rw [outcome_attempt] at ht
            obtain ⟨r, -, hr⟩ := ht
            cases hr
          rw [outcome_attempt] at hq
          obtain ⟨r, hq, e⟩ := hq
          cases e
          obtain ⟨hs', rfl, hlen, hall⟩ := headSample_outcome he.heads hX hdX hreach hf nHeads q hq
          change (orRaise (addHeads X.flip Y.flip (env.orderZ T) (hs'.map (Option.map env.orderZ)) []) h1
            _).Outcome x at hx
          rcases addHeads_bad (Xc := X.flip) (Yc := Y.flip) (tail := env.orderZ T)
              (hs'.map (Option.map env.orderZ)) (by
                intro h
                rw [List.map_eq_nil_iff] at h
                rw [h] at hlen
                simp at hlen
                omega) (by
              intro o ho
              obtain ⟨o', ho', rfl⟩ := List.mem_map.mp ho
              rcases hall o' ho' with rfl | ⟨H, rfl, k, j, -, -, hHk, hHj⟩
              · exact Or.inl rfl
              · exact Or.inr ⟨_, rfl, bind_mismatch hX hY hn he.ints hTne hTr hHk hHj⟩) with h | h
          · rw [h] at hx
            exact ⟨_, _, hx, .gaveUp hc' hgt⟩
          · rw [h] at hx
            exact ⟨_, _, hx, .moreFeatures hc' hgt⟩

/-- **C126** Fitting a new classifier of any of the three classes on matrices with different numbers of rows, or
on features without a column, when there is a label: no execution returns. The exception is `AssertionError`
(only if some label is carried by every row), networkx's exception (only without features), `KeyError` (only
with more label rows than feature rows), and `TypeError` or `ValueError` (only with fewer). -/
theorem C126_run (env : LearnEnv) (he : env.Good) (X Y : Cmp) (hX : X.Binary) (hY : Y.Binary)
    (hdX : X.nMinor < env.depth) (hdY : Y.nMinor < env.depth) (hcY : 0 < Y.nMinor)
    (hlab : ∃ i l, Y.Stored i l) (hbad : X.nMajor ≠ Y.nMajor ∨ X.nMinor = 0) (pf pl : ℚ) (p : Params)
    (ht : 0 < p.nTails) (hh : 0 < p.nHeads) (lr : Learner) (fuel : ℕ) (hf : 0 < fuel)
    (x : Py (Option LearnState)) (hx : (learnRun env p lr (LearnObj.new pf pl) X Y fuel).Outcome x) :
    ∃ e, x = .error e ∧ MalformedError X Y e := by
  obtain ⟨fuel, rfl⟩ : ∃ f, fuel = f + 1 := ⟨fuel - 1, by omega⟩
  obtain ⟨n, hn⟩ : ∃ n, p.nTails = n + 1 := ⟨p.nTails - 1, by omega⟩
  obtain ⟨s, hs⟩ : ∃ s, tailFit env.toHeadEnv pl true [] Y = .ok s := by
    obtain ⟨-, space, -, hs, -⟩ := tailFit_ok he.heads pl true [] hY hcY hdY
    exact ⟨_, hs⟩
  rw [learnRun_new hs, learnLoop, RandR.bind_eq, RandR.outcome_bind] at hx
  have hiter : ∀ z, (learnIter env p lr X X.flip Y.flip (LoopState.mk (s, (LearnObj.new pf pl).heads) [] [])).Outcome z → ∃ e, z = .error e ∧ MalformedError X Y e := by
    intro z hz
    unfold learnIter at hz
    rw [RandR.bind_eq, RandR.outcome_bind] at hz
    rcases hz with ⟨g, hg, hz⟩ | ⟨e, hg, rfl⟩
    · simp only [hn] at hg
      obtain ⟨e, h', e', hm⟩ := malformed_gen he hX hY hdX hdY hcY hlab hbad pf pl hs p.nHeads n hh _ hg
      cases e'
      cases hm <;> exact ⟨_, hz, by constructor <;> assumption⟩
    · simp only [hn] at hg
      obtain ⟨e, h', e', hm⟩ := malformed_gen he hX hY hdX hdY hcY hlab hbad pf pl hs p.nHeads n hh _ hg
      cases e'
  rcases hx with ⟨r, hr, hx⟩ | ⟨e, hr, rfl⟩
  · obtain ⟨e, e', -⟩ := hiter _ hr
    cases e'
  · obtain ⟨e', h, hm⟩ := hiter _ hr
    cases h
    exact ⟨_, rfl, hm⟩

/-- **C126** For `GreedyCFTPDivMaxV2.fit` and `V3.fit`. -/
theorem C126_fit (env : LearnEnv) (he : env.Good) (X Y : Cmp) (hX : X.Binary) (hY : Y.Binary)
    (hdX : X.nMinor < env.depth) (hdY : Y.nMinor < env.depth) (hcY : 0 < Y.nMinor)
    (hlab : ∃ i l, Y.Stored i l) (hbad : X.nMajor ≠ Y.nMajor ∨ X.nMinor = 0) (pf pl : ℚ) (p : Params)
    (ht : 0 < p.nTails) (hh : 0 < p.nHeads) (v3 : Bool) (fuel : ℕ) (hf : 0 < fuel) :
    (∃ x, (learnFitV2 env p (if v3 then learnerV3 p else learnerV2 p)
      (if v3 then qualityOfRuleV3 else qualityOfRule) (LearnObj.new pf pl) X Y fuel).Outcome x) ∧
    ∀ x, (learnFitV2 env p (if v3 then learnerV3 p else learnerV2 p)
      (if v3 then qualityOfRuleV3 else qualityOfRule) (LearnObj.new pf pl) X Y fuel).Outcome x →
      ∃ e, x = .error e ∧ MalformedError X Y e := by
  refine ⟨(learnFitV2_proper _ _ _ _ _ _ _ _).exists_outcome, fun x hx => ?_⟩
  unfold learnFitV2 at hx
  rw [RandR.bind_eq, RandR.outcome_bind] at hx
  rcases hx with ⟨r, hr, hx⟩ | ⟨e, hr, rfl⟩
  · obtain ⟨e, e', -⟩ := C126_run env he X Y hX hY hdX hdY hcY hlab hbad pf pl p ht hh _ fuel hf _ hr
    cases e'
  · obtain ⟨e', h, hm⟩ := C126_run env he X Y hX hY hdX hdY hcY hlab hbad pf pl p ht hh _ fuel hf _ hr
    cases h
    exact ⟨_, rfl, hm⟩

/-- **C126** For `GreedyCFTPDivMax.fit`. -/
theorem C126_divmax (env : LearnEnv) (he : env.Good) (X Y : Cmp) (hX : X.Binary) (hY : Y.Binary)
    (hdX : X.nMinor < env.depth) (hdY : Y.nMinor < env.depth) (hcY : 0 < Y.nMinor)
    (hlab : ∃ i l, Y.Stored i l) (hbad : X.nMajor ≠ Y.nMajor ∨ X.nMinor = 0) (pf pl : ℚ) (p : Params)
    (ht : 0 < p.nTails) (hh : 0 < p.nHeads) (fuel : ℕ) (hf : 0 < fuel) :
    (∃ x, (learnFitDivMax env p (LearnObj.new pf pl) X Y fuel).Outcome x) ∧
    ∀ x, (learnFitDivMax env p (LearnObj.new pf pl) X Y fuel).Outcome x →
      ∃ e, x = .error e ∧ MalformedError X Y e := by
  refine ⟨(learnFitDivMax_proper _ _ _ _ _ _).exists_outcome, fun x hx => ?_⟩
  unfold learnFitDivMax at hx
  rw [RandR.bind_eq, RandR.outcome_bind] at hx
  rcases hx with ⟨r, hr, hx⟩ | ⟨e, hr, rfl⟩
  · obtain ⟨e, e', -⟩ := C126_run env he X Y hX hY hdX hdY hcY hlab hbad pf pl p ht hh _ fuel hf _ hr
    cases e'
  · obtain ⟨e', h, hm⟩ := C126_run env he X Y hX hY hdX hdY hcY hlab hbad pf pl p ht hh _ fuel hf _ hr
    cases h
    exact ⟨_, rfl, hm⟩

/-- **C126** More label rows than feature rows, and no label carried by every row: every execution raises
`KeyError`, and there is one. -/
theorem C126_key_error (env : LearnEnv) (he : env.Good) (X Y : Cmp) (hX : X.Binary) (hY : Y.Binary)
    (hdX : X.nMinor < env.depth) (hdY : Y.nMinor < env.depth) (hcX : 0 < X.nMinor) (hcY : 0 < Y.nMinor)
    (hlab : ∃ i l, Y.Stored i l) (hu : ¬ UniversalLabel Y) (hbad : X.nMajor < Y.nMajor) (pf pl : ℚ)
    (p : Params) (ht : 0 < p.nTails) (hh : 0 < p.nHeads) (v3 : Bool) (fuel : ℕ) (hf : 0 < fuel)
    (x : Py (Option (LearnObj × ℝ))) :
    (learnFitV2 env p (if v3 then learnerV3 p else learnerV2 p)
      (if v3 then qualityOfRuleV3 else qualityOfRule) (LearnObj.new pf pl) X Y fuel).Outcome x ↔
      x = .error .keyError := by
  obtain ⟨⟨z, hz⟩, hall⟩ := C126_fit env he X Y hX hY hdX hdY hcY hlab (Or.inl hbad.ne) pf pl p ht hh v3 fuel hf
  have key : ∀ x, (learnFitV2 env p (if v3 then learnerV3 p else learnerV2 p)
      (if v3 then qualityOfRuleV3 else qualityOfRule) (LearnObj.new pf pl) X Y fuel).Outcome x →
      x = .error .keyError := by
    intro x hx
    obtain ⟨e, rfl, hm⟩ := hall x hx
    cases hm with
    | universal h => exact absurd h hu
    | noFeatures h => omega
    | moreLabels _ _ => rfl
    | gaveUp _ h => omega
    | moreFeatures _ h => omega
  constructor
  · exact key x
  · rintro rfl
    rw [← key z hz]; exact hz

/-- **C126** A label matrix with rows but no label: every execution returns, with no rules and
the objective 0. This does not ask the features to have as many rows, or any column. -/
theorem C126_no_labels (env : LearnEnv) (he : env.Good) (X Y : Cmp) (hY : Y.Binary) (hdY : Y.nMinor < env.depth)
    (hcY : 0 < Y.nMinor) (h0 : 0 < Y.nMajor) (hno : ∀ i l, ¬ Y.Stored i l) (pf pl : ℚ) (p : Params)
    (ht : 0 < p.nTails) (v3 : Bool) (fuel : ℕ) (hf : 0 < fuel) (x : Py (Option (LearnObj × ℝ))) :
    (learnFitV2 env p (if v3 then learnerV3 p else learnerV2 p)
      (if v3 then qualityOfRuleV3 else qualityOfRule) (LearnObj.new pf pl) X Y fuel).Outcome x ↔
      x = .ok (some (LearnObj.new pf pl, 0)) := by
  rw [fit_no_labels env he X Y ⟨hY, hY, rfl, h0, hdY, hdY, hcY, hcY⟩ hno _ p ht _ _ fuel hf]
  have hobj : ∀ q, objectiveOf q p.lambd (LearnObj.new pf pl).selected (LearnObj.new pf pl).selected = .ok 0 := by
    intro q
    simp [objectiveOf, LearnObj.new, pySum, pairs, bind, Except.bind, pure, Except.pure]
  rw [hobj]
  constructor
  · rintro (⟨obj, e, rfl⟩ | ⟨e, h, -⟩)
    · cases e; rfl
    · cases h
  · rintro rfl
    exact Or.inl ⟨0, rfl, rfl⟩

/-- **C126** A label matrix without rows: every execution raises `ValueError`, whatever the features and the
history of the object. -/
theorem C126_no_rows (env : LearnEnv) (he : env.Good) (X Y : Cmp) (hY : Y.Binary) (hdY : Y.nMinor < env.depth)
    (hcY : 0 < Y.nMinor) (h0 : Y.nMajor = 0) (o : LearnObj) (p : Params) (ht : 0 < p.nTails) (lr : Learner)
    (fuel : ℕ) (hf : 0 < fuel) (x : Py (Option LearnState)) :
    (learnRun env p lr o X Y fuel).Outcome x ↔ x = .error .valueError := by
  obtain ⟨fuel, rfl⟩ : ∃ f, fuel = f + 1 := ⟨fuel - 1, by omega⟩
  obtain ⟨n, hn⟩ : ∃ n, p.nTails = n + 1 := ⟨p.nTails - 1, by omega⟩
  obtain ⟨-, space, -, hs, -⟩ := tailFit_ok he.heads o.minLabelProba true o.history hY hcY hdY
  have hrows : naiveNewRows Y space = [] := List.eq_nil_of_length_eq_zero ((naiveNewRows_length Y space).trans h0)
  have hdraw : sampleOnce (assignRowWeights space (naiveNewRows Y space) o.history) = .raise .valueError := by
    rw [hrows]
    rfl
  unfold learnRun
  rw [hs]
  change (learnLoop env p lr X X.flip Y.flip (fuel + 1) _).Outcome x ↔ _
  rw [learnLoop, learnIter, hn, learnGen]
  change ((((sampleOnce (assignRowWeights space (naiveNewRows Y space) o.history)).toReal.attempt.bind _).bind _).bind
    _).Outcome x ↔ _
  rw [hdraw]
  rfl

/-- One row, with the first of two columns. -/
def oneRow : Cmp := { nMajor := 1, nMinor := 2, indptr := [0, 1], indices := [0], data := [1] }

theorem oneRow_binary : oneRow.Binary :=
  { len_indptr := by decide, ptr_zero := by decide, ptr_mono := by decide, ptr_last := by decide,
    len_data := by decide, idx_lt := by decide, data_one := by decide, nodup := by decide }

/-- One feature row and two label rows, no label carried by both: `KeyError` and nothing else. -/
example (pf pl : ℚ) (fuel : ℕ) (hf : 0 < fuel) (x : Py (Option (LearnObj × ℝ))) :
    (learnFitV2 (someLearnEnv 10) demoParams (learnerV2 demoParams) qualityOfRule (LearnObj.new pf pl) oneRow eyeData
      fuel).Outcome x ↔ x = .error .keyError := by
  refine C126_key_error (someLearnEnv 10) (someLearnEnv_good 10) oneRow eyeData oneRow_binary eye_binary ?_ ?_ ?_ ?_
    ⟨0, 0, ?_⟩ ?_ ?_ pf pl demoParams Nat.one_pos Nat.one_pos false fuel hf x
  · change 2 < 10; decide
  · change 2 < 10; decide
  · decide
  · decide
  · rw [← mem_segIdx]; decide
  · rintro ⟨l, h⟩
    have h0 := h 0 (by decide)
    have h1 := h 1 (by decide)
    rw [← mem_segIdx] at h0 h1
    have e0 : l = 0 := by simpa [Cmp.segIdx, Cmp.ptr, eyeData, pySlice] using h0
    have e1 : l = 1 := by simpa [Cmp.segIdx, Cmp.ptr, eyeData, pySlice] using h1
    omega
  · decide

/-- Two feature rows and one label row, carried by every row there is. -/
example (pf pl : ℚ) (fuel : ℕ) (hf : 0 < fuel) (x : Py (Option (LearnObj × FitResult)))
    (hx : (learnFitDivMax (someLearnEnv 10) demoParams (LearnObj.new pf pl) eyeData oneRow fuel).Outcome x) :
    ∃ e, x = .error e ∧ MalformedError eyeData oneRow e :=
  (C126_divmax (someLearnEnv 10) (someLearnEnv_good 10) eyeData oneRow eye_binary oneRow_binary
    (by change 2 < 10; decide) (by change 2 < 10; decide) (by decide) ⟨0, 0, by rw [← mem_segIdx]; decide⟩
    (Or.inl (by decide)) pf pl demoParams Nat.one_pos Nat.one_pos fuel hf).2 x hx

/-- Two rows without labels and one feature row. -/
example (pf pl : ℚ) (fuel : ℕ) (hf : 0 < fuel) (x : Py (Option (LearnObj × ℝ))) :
    (learnFitV2 (someLearnEnv 10) demoParams (learnerV2 demoParams) qualityOfRule (LearnObj.new pf pl) oneRow
      { nMajor := 2, nMinor := 2, indptr := [0, 0, 0], indices := [], data := [] } fuel).Outcome x ↔
      x = .ok (some (LearnObj.new pf pl, 0)) := by
  refine C126_no_labels (someLearnEnv 10) (someLearnEnv_good 10) oneRow _
    { len_indptr := by decide, ptr_zero := by decide, ptr_mono := by decide, ptr_last := by decide,
      len_data := by decide, idx_lt := by decide, data_one := by decide, nodup := by decide } ?_ (by decide)
    (by decide) ?_ pf pl demoParams Nat.one_pos false fuel hf x
  · change 2 < 10; decide
  · intro i l h
    rw [← mem_segIdx] at h
    simp [Cmp.segIdx, pySlice] at h

/-- Two labels and no row. -/
example (pf pl : ℚ) (fuel : ℕ) (hf : 0 < fuel) (x : Py (Option LearnState)) :
    (learnRun (someLearnEnv 10) demoParams (learnerV2 demoParams) (LearnObj.new pf pl) oneRow
      { nMajor := 0, nMinor := 2, indptr := [0], indices := [], data := [] } fuel).Outcome x ↔
      x = .error .valueError :=
  C126_no_rows (someLearnEnv 10) (someLearnEnv_good 10) oneRow _
    { len_indptr := by decide, ptr_zero := by decide, ptr_mono := by decide, ptr_last := by decide,
      len_data := by decide, idx_lt := by decide, data_one := by decide, nodup := by decide }
    (by change 2 < 10; decide) (by decide) rfl _ demoParams Nat.one_pos _ fuel hf x

end Verif
