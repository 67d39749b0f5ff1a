/-
C107: training and evaluating on a data set.
-/
import Verif.Lemmas.Pipeline
import Verif.Props.GiveUp

namespace Verif

namespace Pipeline

open Load (Mat Obj World)
open Cmp

/-- The rules of a fitted classifier. -/
abbrev rulesOf (o : LearnObj) : List Rule := o.selected.map BRule.toRule

theorem universal_iff {Y : Mat} (hY : ZeroOne Y) : UniversalLabel (toCsr Y) ↔ EverywhereTrue Y := by
  simp only [UniversalLabel, EverywhereTrue, toCsr_nMajor, stored_toCsr hY]

theorem learnData {env : LearnEnv} {X Y : Mat} (hX : ZeroOne X) (hY : ZeroOne Y)
    (hn : X.rows.length = Y.rows.length) (hpos : 0 < X.rows.length) (hdX : X.ncols < env.depth)
    (hdY : Y.ncols < env.depth) (hcX : 0 < X.ncols) (hcY : 0 < Y.ncols) : LearnData env (toCsr X) (toCsr Y) :=
  ⟨toCsr_binary hX, toCsr_binary hY, by simpa using hn, by simpa using hn ▸ hpos, hdX, hdY, hcX, hcY⟩

theorem troublesome {X Y : Mat} (hX : ZeroOne X) (hY : ZeroOne Y) (hn : X.rows.length = Y.rows.length) {p : ℚ}
    (h : SharedFeature (toCsr X) (toCsr Y) ∨ FeaturelessTail (toCsr X) (toCsr Y) p) : Troublesome X Y := by
  rcases h with ⟨i, j, f, l, h⟩ | ⟨g, U, -, -, ⟨i, hi, hc⟩, -, h⟩
  · simp only [stored_toCsr hX, stored_toCsr hY] at h
    exact Or.inl ⟨i, j, f, l, h⟩
  · simp only [stored_toCsr hX, stored_toCsr hY, toCsr_nMajor] at h hi hc
    exact Or.inr ⟨i, hn ▸ hi, h i hc⟩

theorem fit_outcome {env : LearnEnv} (he : env.Good) {X Y : Mat} (hX : ZeroOne X) (hY : ZeroOne Y)
    (hn : X.rows.length = Y.rows.length) (hpos : 0 < X.rows.length) (hdX : X.ncols < env.depth)
    (hdY : Y.ncols < env.depth) (hcX : 0 < X.ncols) (hcY : 0 < Y.ncols) {r : Ready} {pf pl : ℚ} (hobj : r.obj = LearnObj.new pf pl) {k : ℕ}
    (hk : r.params.nMaxRules = some k) (ht : 0 < r.params.nTails) (hh : 0 < r.params.nHeads) {fuel : ℕ}
    (hf : k < fuel) {x : Py (Option LearnObj)} (hx : (fitReady env r (toCsr X) (toCsr Y) fuel).Outcome x) :
    (∃ o, x = .ok (some o) ∧ LearnedFrom (rulesOf o) X Y k ∧ ∀ b ∈ o.selected, Supported (toCsr X) (toCsr Y) b) ∨
      (x = .error .typeError ∧ Troublesome X Y) ∨ (x = .error .assertionError ∧ EverywhereTrue Y) := by
  unfold fitReady at hx
  rw [RandR.bind_eq, RandR.outcome_bind, hobj] at hx
  have hD := learnData (env := env) hX hY hn hpos hdX hdY hcX hcY
  rcases hx with ⟨a, ha, hx⟩ | ⟨e, ha, rfl⟩
  · have hx : x = .ok (a.map Prod.fst) := hx
    subst hx
    rcases C70_fit_outcomes env he _ _ hD pf pl r.params k hk ht hh r.v3 fuel hf _ ha with
      ⟨o, obj, e, h1, h2, h3⟩ | e | ⟨e, -⟩
    · cases e
      refine Or.inl ⟨o, rfl, ⟨by simpa using h1, ?_, ?_⟩, h2⟩
      · intro q hq
        obtain ⟨b, hb, rfl⟩ := List.mem_map.1 hq
        obtain ⟨hbt, i, hi⟩ := h2 b hb
        obtain ⟨g1, g2, -, -, g5, -⟩ := hbt.spec (toCsr_wf X) (toCsr_wf Y) (by simpa using hn)
        obtain ⟨f1, f2⟩ := (g5 i).1 hi
        have hY' : HasAll Y b.toRule.tail i := (hasAll_iff hY _ _).2 f2
        refine ⟨g1, g2, i, ?_, (fires_iff hX _ _).1 f1, hY'⟩
        obtain ⟨l, hl⟩ := List.exists_mem_of_ne_nil _ g2
        obtain ⟨j, -, hj⟩ := hY' l hl
        exact hj.lt
      · intro hlt i l hil
        have hm : ((i, (l : ℤ)) : ℕ × ℤ) ∈ labelCells (toCsr Y) := by
          rw [mem_labelCells (toCsr_wf Y)]
          exact ⟨by simp, by simpa [stored_toCsr hY] using hil⟩
        have hm := (mem_covered _ _).1 (h3 (by simpa using hlt) hm)
        exact (covers_iff hX hY hn (fun b hb => (h2 b hb).1) i l).1 hm
    · cases e
    · cases e
  · rcases C70_fit_outcomes env he _ _ hD pf pl r.params k hk ht hh r.v3 fuel hf _ ha with
      ⟨o, obj, e, -⟩ | e | ⟨e, hu⟩
    · cases e
    · cases e
      exact Or.inr (Or.inl ⟨rfl, troublesome hX hY hn
        ((C83_fit_type_error_iff env he _ _ hD pf pl r.params k hk ht hh r.v3 fuel hf).1 ha)⟩)
    · cases e
      exact Or.inr (Or.inr ⟨rfl, (universal_iff hY).1 hu⟩)

theorem tails_valid {X Y : Mat} (hn : X.rows.length = Y.rows.length) {rs : List BRule}
    (hs : ∀ b ∈ rs, Supported (toCsr X) (toCsr Y) b) : ∀ b ∈ rs, ∀ l ∈ b.tail, 0 ≤ l ∧ l < Y.ncols := by
  intro b hb l hl
  obtain ⟨-, -, -, g4, -⟩ := (hs b hb).1.spec (toCsr_wf X) (toCsr_wf Y) (by simpa using hn)
  exact g4 l hl

theorem evaluateFitted_eq {X Y X' Y' : Mat} (hX : ZeroOne X) (hY : ZeroOne Y)
    (hn : X.rows.length = Y.rows.length) (hX' : ZeroOne X') (hY' : ZeroOne Y')
    (hn' : X'.rows.length = Y'.rows.length) (hpos : 0 < Y'.rows.length) (hL : 0 < Y'.ncols)
    (hc : Y'.ncols = Y.ncols) {o : LearnObj} (hs : ∀ b ∈ o.selected, Supported (toCsr X) (toCsr Y) b) :
    evaluateFitted o Y X' Y' = .ok (perfSpec (rulesOf o) X Y X' Y') := by
  obtain ⟨P, h1, h2, h3, h4⟩ := scoresOf_all hX' hY' hn' hpos hL o (hc ▸ tails_valid hn hs) Y.ncols hc
  have hcov := coverageOf_eq hX hY hn (rs := o.selected) (fun b hb => (hs b hb).1)
  have hrep := C67_default_report P (toCsr Y') (by simpa using h2) (by simpa using h3)
  have hinit : evaluatorInit availableMetrics = .ok availableMetrics := by decide
  unfold evaluateFitted scoresOf
  rw [h1, hinit, hcov]
  simp only [bind, Except.bind, pure, Except.pure, hrep, Except.ok.injEq]
  simp only [name2func, List.mem_cons, Prod.mk.injEq, List.not_mem_nil, or_false] at h4
  unfold perfSpec
  rw [h4 "hamming_accuracy" hammingAccuracy (by simp), h4 "subset_accuracy" subsetAccuracy (by simp), h4 "micro_precision" microPrecision (by simp),
    h4 "micro_recall" microRecall (by simp), h4 "micro_f1" microF1 (by simp), h4 "macro_precision" macroPrecision (by simp),
    h4 "macro_recall" macroRecall (by simp), h4 "macro_f1" macroF1 (by simp)]
  simp

/-- The hyperparameters of a sensible configuration, as `fit` sees them. -/
theorem readyOf_sensible {config : Config} {k : ℕ} (h : Sensible config k) (cls : String) :
    ∃ r q f l, readyOf (createFromConfig cls config) = .ok r ∧ r.v3 = decide (cls = "GreedyCFTPDivMaxV3") ∧
      config.get "lambd" (.float 10) = .float q ∧ r.params.lambd = (q : ℝ) ∧
      config.get "min_feature_proba" (.float (8 / 10)) = .float f ∧
      config.get "min_label_proba" (.float (8 / 10)) = .float l ∧ r.obj = LearnObj.new f l ∧
      r.params.nMaxRules = some k ∧ 0 < r.params.nTails ∧ 0 < r.params.nHeads ∧
      config.get "n_tails_per_iter" (.int 100) = .int r.params.nTails ∧
      config.get "n_heads_per_tail" (.int 10) = .int r.params.nHeads := by
  obtain ⟨h1, ⟨t, ht, h2⟩, ⟨hh, hhp, h3⟩, ⟨q, h4⟩, ⟨f, h5⟩, ⟨l, h6⟩⟩ := h
  refine ⟨⟨decide (cls = "GreedyCFTPDivMaxV3"), ⟨(q : ℝ), t, hh, some k, 0⟩, LearnObj.new f l⟩, q, f, l, ?_, rfl, h4, rfl, h5, h6, rfl, rfl, ht, hhp, h2, h3⟩
  have e : createFromConfig cls config =
      Built.mk cls (newCftp (.float f) (.float l) (.float q) (.int t) (.int hh) (.int k)) := by
    unfold createFromConfig
    rw [show defaultOfV2 "min_feature_proba" = .float (8 / 10) from rfl,
      show defaultOfV2 "min_label_proba" = .float (8 / 10) from rfl,
      show defaultOfV2 "lambd" = .float 10 from rfl, show defaultOfV2 "n_tails_per_iter" = .int 100 from rfl,
      show defaultOfV2 "n_heads_per_tail" = .int 10 from rfl, show defaultOfV2 "n_max_rules" = .int 10 from rfl,
      h1, h2, h3, h4, h5, h6]
  rw [e]
  simp [readyOf, Clf.getAttr, newCftp, initBase, updateDict, numOf, countOf, limitOf, bind, Except.bind, pure,
    Except.pure]

theorem split_rows {X Y xt yt xd yd : Mat} {ratio : ℚ} (hn : X.rows.length = Y.rows.length)
    (h : SplitOf X Y xt yt xd yd ratio) :
    (xt.rows ++ xd.rows).Perm X.rows ∧ (yt.rows ++ yd.rows).Perm Y.rows := by
  have hp := h.partition
  have e1 : (records xt yt ++ records xd yd).map Prod.fst = xt.rows ++ xd.rows := by
    rw [List.map_append, records, records, List.map_fst_zip h.trainAligned.ge, List.map_fst_zip h.devAligned.ge]
  have e2 : (records xt yt ++ records xd yd).map Prod.snd = yt.rows ++ yd.rows := by
    rw [List.map_append, records, records, List.map_snd_zip h.trainAligned.le, List.map_snd_zip h.devAligned.le]
  constructor
  · have := hp.map Prod.fst
    rwa [e1, records, List.map_fst_zip hn.le] at this
  · have := hp.map Prod.snd
    rwa [e2, records, List.map_snd_zip hn.ge] at this

theorem zeroOne_split {X Y xt yt xd yd : Mat} {ratio : ℚ} (hn : X.rows.length = Y.rows.length)
    (h : SplitOf X Y xt yt xd yd ratio) (hX : ZeroOne X) (hY : ZeroOne Y) :
    ZeroOne xt ∧ ZeroOne yt ∧ ZeroOne xd ∧ ZeroOne yd := by
  obtain ⟨p1, p2⟩ := split_rows hn h
  obtain ⟨c1, c2, c3, c4⟩ := h.columns
  refine ⟨fun r hr => ?_, fun r hr => ?_, fun r hr => ?_, fun r hr => ?_⟩
  · rw [c1]; exact hX r (p1.subset (by simp [hr]))
  · rw [c3]; exact hY r (p2.subset (by simp [hr]))
  · rw [c2]; exact hX r (p1.subset (by simp [hr]))
  · rw [c4]; exact hY r (p2.subset (by simp [hr]))

/-- The records that a run evaluates on. -/
def Evaluated (ds : Obj) (validation : Bool) (X Y : Mat) : Prop :=
  if validation then ds.data.devX = some X ∧ ds.data.devY = some Y
  else ds.data.tstX = some X ∧ ds.data.tstY = some Y

/-- The parts of a loaded data set. -/
structure Parts (ds : Obj) (depth : ℕ) (X Y : Mat) : Prop where
  trnX : ds.data.trnX = some X
  trnY : ds.data.trnY = some Y
  zeroX : ZeroOne X
  zeroY : ZeroOne Y
  rows : X.rows.length = Y.rows.length
  pos : 0 < X.rows.length
  depthX : X.ncols < depth
  depthY : Y.ncols < depth
  target : ∀ v X' Y', Evaluated ds v X' Y' → ZeroOne X' ∧ ZeroOne Y' ∧ X'.rows.length = Y'.rows.length ∧
    0 < Y'.rows.length ∧ 0 < Y'.ncols ∧ Y'.ncols = Y.ncols
  test : ∃ X' Y', Evaluated ds false X' Y'
  dev : ds.data.splitTrain = true → ∃ X' Y', Evaluated ds true X' Y'
  noDev : ds.data.splitTrain = false → ds.data.devX = none
  colsX : 0 < X.ncols
  colsY : 0 < Y.ncols

theorem loaded_parts {w : World} {perm : ℕ → List ℕ} (hperm : ∀ n, (perm n).Perm (List.range n)) {ds ds' : Obj}
    {depth : ℕ} (hf : ∀ f, (Load.fetch w ds.datadir ds.name).Outcome (.ok f) → GoodData f depth)
    (h : (Load.load w perm ds).Outcome (.ok (.ok (), ds'))) :
    ds'.data.splitTrain = ds.data.splitTrain ∧ ∃ X Y, Parts ds' depth X Y := by
  rw [Load.outcome_load] at h
  rcases h with ⟨e, -, h⟩ | ⟨f, hfo, h⟩
  · cases h
  injection h with h
  unfold Load.finish at h
  injection h with h1 h2
  have g := hf f hfo
  obtain ⟨hs, hr⟩ := (C78_set_data_succeeds_iff perm hperm _ _ _ _ _).1 h1.symm
  cases hd : ds.data.splitTrain with
  | false =>
    have e := (C78_no_split perm ds.data f.trnX f.trnY f.tstX f.tstY hd h1.symm).1
    rw [e] at h2
    subst h2
    refine ⟨hd, f.trnX, f.trnY, rfl, rfl, g.trnX, g.trnY, hs.1, g.train, g.features_lt, g.labels_lt, ?_,
      ⟨f.tstX, f.tstY, by simp [Evaluated]⟩, fun h => ?_, fun _ => rfl, g.features, g.labels⟩
    · intro v X' Y' hv
      cases v with
      | true => simp [Evaluated] at hv
      | false =>
        simp only [Evaluated, Bool.false_eq_true, if_false, Option.some.injEq] at hv
        obtain ⟨rfl, rfl⟩ := hv
        exact ⟨g.tstX, g.tstY, hs.2.1, hs.2.1 ▸ g.test, hs.2.2.2 ▸ g.labels, hs.2.2.2.symm⟩
    · simp [hd] at h
  | true =>
    obtain ⟨xt, yt, xd, yd, e, sp⟩ := C78_split_is_partition perm hperm ds.data f.trnX f.trnY f.tstX f.tstY hd h1.symm
    rw [e] at h2
    subst h2
    obtain ⟨z1, z2, z3, z4⟩ := zeroOne_split hs.1 sp g.trnX g.trnY
    obtain ⟨c1, c2, c3, c4⟩ := sp.columns
    refine ⟨hd, xt, yt, rfl, rfl, z1, z2, sp.trainAligned.symm, sp.trainNonempty, c1 ▸ g.features_lt,
      c3 ▸ g.labels_lt, ?_, ⟨f.tstX, f.tstY, by simp [Evaluated]⟩, fun _ => ⟨xd, yd, by simp [Evaluated]⟩, fun h => ?_,
      c1 ▸ g.features, c3 ▸ g.labels⟩
    · intro v X' Y' hv
      cases v with
      | true =>
        simp only [Evaluated, if_true, Option.some.injEq] at hv
        obtain ⟨rfl, rfl⟩ := hv
        exact ⟨z3, z4, sp.devAligned.symm, sp.devAligned ▸ sp.devNonempty, c4 ▸ g.labels, c4.trans c3.symm⟩
      | false =>
        simp only [Evaluated, Bool.false_eq_true, if_false, Option.some.injEq] at hv
        obtain ⟨rfl, rfl⟩ := hv
        exact ⟨g.tstX, g.tstY, hs.2.1, hs.2.1 ▸ g.test, hs.2.2.2 ▸ g.labels, hs.2.2.2.symm.trans c3.symm⟩
    · simp [hd] at h

theorem outcome_loadOrRaise {w : World} {perm : ℕ → List ℕ} {ds : Obj} {x : Py Obj} :
    (loadOrRaise w perm ds).Outcome x ↔
      (∃ ds', (Load.load w perm ds).Outcome (.ok (.ok (), ds')) ∧ x = .ok ds') ∨
      ∃ e ds', (Load.load w perm ds).Outcome (.ok (.error e, ds')) ∧ x = .error e := by
  unfold loadOrRaise
  rw [RandR.bind_eq, RandR.outcome_bind]
  simp only [outcome_toReal]
  constructor
  · rintro (⟨⟨r, ds'⟩, h, hx⟩ | ⟨e, h, -⟩)
    · cases r with
      | ok u => exact Or.inl ⟨ds', h, hx⟩
      | error e => exact Or.inr ⟨e, ds', h, hx⟩
    · rw [Load.outcome_load] at h
      rcases h with ⟨_, -, h⟩ | ⟨_, -, h⟩ <;> cases h
  · rintro (⟨ds', h, rfl⟩ | ⟨e, ds', h, rfl⟩)
    · exact Or.inl ⟨_, h, rfl⟩
    · exact Or.inl ⟨_, h, rfl⟩

theorem outcome_lift_bind {α β : Type} {r : Py α} {k : α → RandR β} {x : Py β} :
    ((RandR.lift r) >>= k).Outcome x ↔ (∃ a, r = .ok a ∧ (k a).Outcome x) ∨ ∃ e, r = .error e ∧ x = .error e := by
  rw [RandR.bind_eq, RandR.outcome_bind]
  simp only [RandR.lift, RandR.outcome_done, eq_comm]

/-- **C107.** All outcomes of `train_greedy_and_eval`, for every data set whose content is zeros and ones, every sensible
configuration, both versions, with and without validation, and all random choices. A run returns a classifier with at
most `n_max_rules` rules found in the training part together with the scores of these rules on the held-out or test
records, their coverage of the training part and their number; or it raises what loading raises; or
`TypeError` (a head draw gave up), and then two training records share a feature but not all labels, or some
training record has no feature; or `AssertionError`, and then some label is true of every training record;
or `AttributeError`, and then validation was asked for and the data set was not told to split. -/
theorem C107_outcomes (w : World) (perm : ℕ → List ℕ) (hperm : ∀ n, (perm n).Perm (List.range n)) (env : LearnEnv)
    (he : env.Good) (ds : Obj)
    (hf : ∀ f, (Load.fetch w ds.datadir ds.name).Outcome (.ok f) → GoodData f env.depth) (config : Config) (k : ℕ)
    (hc : Sensible config k) (version : String) (hv : version = "v2" ∨ version = "v3") (validation : Bool) (fuel : ℕ)
    (hfuel : k < fuel) (x : Py (Option (LearnObj × Perf)))
    (hx : (trainGreedyAndEval w perm env ds config (some version) validation fuel).Outcome x) :
    (∃ e ds', (Load.load w perm ds).Outcome (.ok (.error e, ds')) ∧ x = .error e) ∨
    ∃ ds' X Y, (Load.load w perm ds).Outcome (.ok (.ok (), ds')) ∧ ds'.data.trnX = some X ∧ ds'.data.trnY = some Y ∧
      ((∃ o X' Y', Evaluated ds' validation X' Y' ∧ LearnedFrom (rulesOf o) X Y k ∧
          x = .ok (some (o, perfSpec (rulesOf o) X Y X' Y'))) ∨
        (x = .error .typeError ∧ Troublesome X Y) ∨
        (x = .error .assertionError ∧ EverywhereTrue Y) ∨
        (x = .error .attributeError ∧ validation = true ∧ ds.data.splitTrain = false)) := by
  unfold trainGreedyAndEval at hx
  rw [RandR.bind_eq, RandR.outcome_bind] at hx
  simp only [outcome_loadOrRaise] at hx
  rcases hx with ⟨ds', (⟨ds1, hl, e⟩ | ⟨e, ds', -, h⟩), hx⟩ | ⟨e, (⟨_, -, h⟩ | ⟨e', ds', hl, h⟩), rfl⟩
  · cases e
    refine Or.inr ?_
    obtain ⟨hsplit, X, Y, hp⟩ := loaded_parts hperm hf hl
    refine ⟨ds', X, Y, hl, hp.trnX, hp.trnY, ?_⟩
    obtain ⟨cls, hcls⟩ : ∃ cls, createVersion config (some version) = .ok (createFromConfig cls config) := by
      rcases hv with rfl | rfl
      · exact ⟨_, rfl⟩
      · exact ⟨_, rfl⟩
    obtain ⟨r, q, f, l, hr, -, -, -, -, -, hobj, hk, ht, hh, -⟩ := readyOf_sensible hc cls
    simp only [outcome_lift_bind, hcls, hr, hp.trnX, hp.trnY, attr, Except.ok.injEq, exists_eq_left', reduceCtorEq,
      false_and, exists_false, or_false] at hx
    rw [RandR.bind_eq, RandR.outcome_bind] at hx
    rcases hx with ⟨a, ha, hx⟩ | ⟨e, ha, rfl⟩
    · rcases fit_outcome he hp.zeroX hp.zeroY hp.rows hp.pos hp.depthX hp.depthY hp.colsX hp.colsY hobj hk ht hh hfuel ha with
        ⟨o, e, hlf, hsup⟩ | ⟨e, -⟩ | ⟨e, -⟩
      · cases e
        simp only [outcome_lift_bind] at hx
        have hev : ∀ X' Y', Evaluated ds' validation X' Y' → targetOf ds' validation = .ok (X', Y') := by
          intro X' Y' h
          unfold Evaluated at h
          unfold targetOf
          cases validation <;> simp only [Bool.false_eq_true, if_true, if_false] at h ⊢ <;>
            · rw [h.1, h.2]
              rfl
        have hgo : ∀ X' Y', Evaluated ds' validation X' Y' →
            x = .ok (some (o, perfSpec (rulesOf o) X Y X' Y')) := by
          intro X' Y' h
          obtain ⟨t1, t2, t3, t4, t5, t6⟩ := hp.target _ _ _ h
          rw [hev X' Y' h] at hx
          have hee := evaluateFitted_eq hp.zeroX hp.zeroY hp.rows t1 t2 t3 t4 t5 t6 hsup
          rcases hx with ⟨a, h1, hx⟩ | ⟨e, h1, -⟩
          · cases h1
            rw [hee] at hx
            rcases hx with ⟨a, h1, hx⟩ | ⟨e, h1, -⟩
            · cases h1
              exact hx
            · cases h1
          · cases h1
        cases validation with
        | false =>
          obtain ⟨X', Y', h⟩ := hp.test
          exact Or.inl ⟨o, X', Y', h, hlf, hgo X' Y' h⟩
        | true =>
          cases hd : ds.data.splitTrain with
          | true =>
            obtain ⟨X', Y', h⟩ := hp.dev (hsplit.trans hd)
            exact Or.inl ⟨o, X', Y', h, hlf, hgo X' Y' h⟩
          | false =>
            have hnd := hp.noDev (hsplit.trans hd)
            have htg : targetOf ds' true = .error .attributeError := by
              unfold targetOf
              rw [hnd]
              rfl
            rw [htg] at hx
            rcases hx with ⟨a, h1, hx⟩ | ⟨e, h1, hx⟩
            · cases h1
            · cases h1
              exact Or.inr (Or.inr (Or.inr ⟨hx, rfl, rfl⟩))
      · cases e
      · cases e
    · rcases fit_outcome he hp.zeroX hp.zeroY hp.rows hp.pos hp.depthX hp.depthY hp.colsX hp.colsY hobj hk ht hh hfuel ha with
        ⟨o, e, -⟩ | ⟨e, htr⟩ | ⟨e, hu⟩
      · cases e
      · cases e
        exact Or.inr (Or.inl ⟨rfl, htr⟩)
      · cases e
        exact Or.inr (Or.inr (Or.inl ⟨rfl, hu⟩))
  · cases h
  · cases h
  · cases h
    exact Or.inl ⟨_, ds', hl, rfl⟩

/-- A run loads, fits, and goes on: what fitting raises the run raises. -/
theorem run_raises {w : World} {perm : ℕ → List ℕ} {env : LearnEnv} {ds ds' : Obj} {config : Config}
    {version : String} {validation : Bool} {fuel : ℕ} {b : Built} {r : Ready} {X Y : Mat} {e : PyErr}
    (hl : (Load.load w perm ds).Outcome (.ok (.ok (), ds'))) (hb : createVersion config (some version) = .ok b)
    (hr : readyOf b = .ok r) (hX : ds'.data.trnX = some X) (hY : ds'.data.trnY = some Y)
    (h : (fitReady env r (toCsr X) (toCsr Y) fuel).Outcome (.error e)) :
    (trainGreedyAndEval w perm env ds config (some version) validation fuel).Outcome (.error e) := by
  unfold trainGreedyAndEval
  rw [RandR.bind_eq, RandR.outcome_bind]
  refine Or.inl ⟨ds', outcome_loadOrRaise.2 (Or.inl ⟨ds', hl, rfl⟩), ?_⟩
  simp only [outcome_lift_bind, hb, hr, hX, hY, attr, Except.ok.injEq, exists_eq_left', reduceCtorEq,
    false_and, exists_false, or_false]
  rw [RandR.bind_eq, RandR.outcome_bind]
  exact Or.inr ⟨e, h, rfl⟩

/-- A run loads, fits, evaluates: what it returns. -/
theorem run_returns {w : World} {perm : ℕ → List ℕ} {env : LearnEnv} {ds ds' : Obj} {config : Config}
    {version : String} {validation : Bool} {fuel : ℕ} {b : Built} {r : Ready} {X Y X' Y' : Mat} {o : LearnObj}
    {perf : Perf} (hl : (Load.load w perm ds).Outcome (.ok (.ok (), ds')))
    (hb : createVersion config (some version) = .ok b)
    (hr : readyOf b = .ok r) (hX : ds'.data.trnX = some X) (hY : ds'.data.trnY = some Y)
    (h : (fitReady env r (toCsr X) (toCsr Y) fuel).Outcome (.ok (some o)))
    (ht : targetOf ds' validation = .ok (X', Y')) (hp : evaluateFitted o Y X' Y' = .ok perf) :
    (trainGreedyAndEval w perm env ds config (some version) validation fuel).Outcome (.ok (some (o, perf))) := by
  unfold trainGreedyAndEval
  rw [RandR.bind_eq, RandR.outcome_bind]
  refine Or.inl ⟨ds', outcome_loadOrRaise.2 (Or.inl ⟨ds', hl, rfl⟩), ?_⟩
  simp only [outcome_lift_bind, hb, hr, hX, hY, attr, Except.ok.injEq, exists_eq_left', reduceCtorEq,
    false_and, exists_false, or_false]
  rw [RandR.bind_eq, RandR.outcome_bind]
  refine Or.inl ⟨some o, h, ?_⟩
  simp only [outcome_lift_bind, ht, hp, Except.ok.injEq, exists_eq_left', reduceCtorEq, false_and, exists_false,
    or_false]
  rfl

theorem outcome_fitReady {env : LearnEnv} {r : Ready} {X Y : Cmp} {fuel : ℕ} {x : Py (Option LearnObj)} :
    (fitReady env r X Y fuel).Outcome x ↔
      ∃ y, (learnFitV2 env r.params (if r.v3 then learnerV3 r.params else learnerV2 r.params)
        (if r.v3 then qualityOfRuleV3 else qualityOfRule) r.obj X Y fuel).Outcome y ∧
        x = y.map (Option.map Prod.fst) := by
  unfold fitReady
  rw [RandR.bind_eq, RandR.outcome_bind]
  constructor
  · rintro (⟨a, ha, hx⟩ | ⟨e, ha, rfl⟩)
    · exact ⟨_, ha, hx⟩
    · exact ⟨_, ha, rfl⟩
  · rintro ⟨y, hy, rfl⟩
    cases y with
    | ok a => exact Or.inl ⟨a, hy, rfl⟩
    | error e => exact Or.inr ⟨e, hy, rfl⟩

theorem created {config : Config} {version : String} (hv : version = "v2" ∨ version = "v3") :
    ∃ cls, createVersion config (some version) = .ok (createFromConfig cls config) ∧
      (version = "v3" ↔ cls = "GreedyCFTPDivMaxV3") := by
  rcases hv with rfl | rfl
  · exact ⟨_, rfl, by decide⟩
  · exact ⟨_, rfl, by decide⟩

/-- **C107.** Whenever loading can give a training part in which two records share a feature but not all labels, a run
can end with `TypeError`. Whenever it can give a training part with a label that is true of every record, a run can end
with `AssertionError`. -/
theorem C107_can_raise (w : World) (perm : ℕ → List ℕ) (hperm : ∀ n, (perm n).Perm (List.range n)) (env : LearnEnv)
    (he : env.Good) (ds : Obj)
    (hf : ∀ f, (Load.fetch w ds.datadir ds.name).Outcome (.ok f) → GoodData f env.depth) (config : Config) (k : ℕ)
    (hc : Sensible config k) (version : String) (hv : version = "v2" ∨ version = "v3") (validation : Bool) (fuel : ℕ)
    (hfuel : k < fuel) (ds' : Obj) (hl : (Load.load w perm ds).Outcome (.ok (.ok (), ds'))) (X Y : Mat)
    (hX : ds'.data.trnX = some X) (hY : ds'.data.trnY = some Y) :
    ((∃ i j f l, HasOne X i f ∧ HasOne X j f ∧ HasOne Y i l ∧ ¬ HasOne Y j l) →
      (trainGreedyAndEval w perm env ds config (some version) validation fuel).Outcome (.error .typeError)) ∧
    (EverywhereTrue Y →
      (trainGreedyAndEval w perm env ds config (some version) validation fuel).Outcome (.error .assertionError)) := by
  obtain ⟨-, X1, Y1, hp⟩ := loaded_parts hperm hf hl
  obtain rfl : X = X1 := Option.some.inj (hX.symm.trans hp.trnX)
  obtain rfl : Y = Y1 := Option.some.inj (hY.symm.trans hp.trnY)
  obtain ⟨cls, hcls, -⟩ := created (config := config) hv
  obtain ⟨r, q, f, l, hr, -, -, -, -, -, hobj, hk, ht, hh, -⟩ := readyOf_sensible hc cls
  have hD := learnData (env := env) hp.zeroX hp.zeroY hp.rows hp.pos hp.depthX hp.depthY hp.colsX hp.colsY
  constructor
  · rintro ⟨i, j, f', l', h⟩
    refine run_raises hl hcls hr hX hY (outcome_fitReady.2 ⟨.error .typeError, ?_, rfl⟩)
    rw [hobj]
    refine (C83_fit_type_error_iff env he _ _ hD f l r.params k hk ht hh r.v3 fuel hfuel).2 (Or.inl ⟨i, j, f', l', ?_⟩)
    simp only [stored_toCsr hp.zeroX, stored_toCsr hp.zeroY]
    exact h
  · intro hu
    refine run_raises hl hcls hr hX hY (outcome_fitReady.2 ⟨.error .assertionError, ?_, rfl⟩)
    rw [hobj]
    exact (C70_assertion_iff env he _ _ hD f l r.params k hk ht hh r.v3 fuel hfuel).2 ((universal_iff hp.zeroY).2 hu)

/-- **C107.** On a training part in which records that share a feature have the same labels, every record has a feature,
some label occurs and none is true of every record, a run for at least one rule can return, and with at least one
rule (and by `C107_outcomes` it returns whatever is drawn). -/
theorem C107_can_return (w : World) (perm : ℕ → List ℕ) (hperm : ∀ n, (perm n).Perm (List.range n)) (env : LearnEnv)
    (he : env.Good) (ds : Obj)
    (hf : ∀ f, (Load.fetch w ds.datadir ds.name).Outcome (.ok f) → GoodData f env.depth) (config : Config) (k : ℕ)
    (hc : Sensible config (k + 1)) (version : String) (hv : version = "v2" ∨ version = "v3") (validation : Bool)
    (hval : validation = true → ds.data.splitTrain = true) (fuel : ℕ) (hfuel : k + 1 < fuel) (ds' : Obj)
    (hl : (Load.load w perm ds).Outcome (.ok (.ok (), ds'))) (X Y : Mat)
    (hX : ds'.data.trnX = some X) (hY : ds'.data.trnY = some Y) (h1 : ¬ Troublesome X Y) (h2 : ¬ EverywhereTrue Y)
    (h3 : ∃ i l, HasOne Y i l) :
    ∃ o perf, rulesOf o ≠ [] ∧
      (trainGreedyAndEval w perm env ds config (some version) validation fuel).Outcome (.ok (some (o, perf))) := by
  obtain ⟨hsplit, X1, Y1, hp⟩ := loaded_parts hperm hf hl
  obtain rfl : X = X1 := Option.some.inj (hX.symm.trans hp.trnX)
  obtain rfl : Y = Y1 := Option.some.inj (hY.symm.trans hp.trnY)
  obtain ⟨cls, hcls, -⟩ := created (config := config) hv
  obtain ⟨r, q, f, l, hr, -, -, -, -, -, hobj, hk, ht, hh, -⟩ := readyOf_sensible hc cls
  have hD := learnData (env := env) hp.zeroX hp.zeroY hp.rows hp.pos hp.depthX hp.depthY hp.colsX hp.colsY
  have hT : ¬ (SharedFeature (toCsr X) (toCsr Y) ∨ FeaturelessTail (toCsr X) (toCsr Y) l) :=
    fun h => h1 (troublesome hp.zeroX hp.zeroY hp.rows h)
  rw [not_or] at hT
  obtain ⟨i0, l0, hil⟩ := h3
  obtain ⟨⟨y, hy⟩, hall⟩ := C83_clean_data_fits env he _ _ hD hT.1 f l hT.2 (fun h => h2 ((universal_iff hp.zeroY).1 h))
    ⟨i0, l0, (stored_toCsr hp.zeroY _ _).2 hil⟩ r.params k hk ht hh r.v3 fuel hfuel
  obtain ⟨o, obj, rfl, hne⟩ := hall y hy
  rw [← hobj] at hy
  have hfit := outcome_fitReady.2 ⟨_, hy, rfl⟩
  have hsup : ∀ b ∈ o.selected, Supported (toCsr X) (toCsr Y) b := by
    rcases fit_outcome he hp.zeroX hp.zeroY hp.rows hp.pos hp.depthX hp.depthY hp.colsX hp.colsY hobj hk ht hh hfuel hfit with
      ⟨o', e, -, hs⟩ | ⟨e, -⟩ | ⟨e, -⟩
    · cases e
      exact hs
    · cases e
    · cases e
  obtain ⟨X', Y', hev⟩ : ∃ X' Y', Evaluated ds' validation X' Y' := by
    cases validation with
    | true => exact hp.dev (hsplit.trans (hval rfl))
    | false => exact hp.test
  obtain ⟨t1, t2, t3, t4, t5, t6⟩ := hp.target _ _ _ hev
  refine ⟨o, _, by simpa [rulesOf] using hne, run_returns hl hcls hr hX hY hfit (X' := X') (Y' := Y') ?_
    (evaluateFitted_eq hp.zeroX hp.zeroY hp.rows t1 t2 t3 t4 t5 t6 hsup)⟩
  unfold Evaluated at hev
  unfold targetOf
  cases validation <;> simp only [Bool.false_eq_true, if_true, if_false] at hev ⊢ <;>
    · rw [hev.1, hev.2]
      rfl

/-- **C107.** With any other version, also one that is not a string, no run returns: it raises what loading raises, and
`AssertionError` if loading succeeds. -/
theorem C107_bad_version (w : World) (perm : ℕ → List ℕ) (env : LearnEnv) (ds : Obj) (config : Config)
    (version : Option String) (hv : version ≠ some "v2" ∧ version ≠ some "v3") (validation : Bool) (fuel : ℕ)
    (x : Py (Option (LearnObj × Perf))) :
    (trainGreedyAndEval w perm env ds config version validation fuel).Outcome x ↔
      (∃ e ds', (Load.load w perm ds).Outcome (.ok (.error e, ds')) ∧ x = .error e) ∨
      (∃ ds', (Load.load w perm ds).Outcome (.ok (.ok (), ds'))) ∧ x = .error .assertionError := by
  have hcv : createVersion config version = .error .assertionError := by
    cases version with
    | none => rfl
    | some v =>
      have h1 : v ≠ "v2" := fun h => hv.1 (by rw [h])
      have h2 : v ≠ "v3" := fun h => hv.2 (by rw [h])
      simp [createVersion, createByVersion, h1, h2]
  unfold trainGreedyAndEval
  rw [RandR.bind_eq, RandR.outcome_bind]
  simp only [outcome_loadOrRaise, outcome_lift_bind, hcv, Except.error.injEq, exists_eq_left', reduceCtorEq,
    false_and, exists_false, false_or]
  constructor
  · rintro (⟨a, (⟨ds', hl, -⟩ | ⟨e, ds', -, h⟩), hx⟩ | ⟨e, (⟨ds', -, h⟩ | ⟨e', ds', hl, h⟩), rfl⟩)
    · exact Or.inr ⟨⟨ds', hl⟩, hx⟩
    · cases h
    · cases h
    · cases h
      exact Or.inl ⟨_, ds', hl, rfl⟩
  · rintro (⟨e, ds', hl, rfl⟩ | ⟨⟨ds', hl⟩, rfl⟩)
    · exact Or.inr ⟨e, Or.inr ⟨e, ds', hl, rfl⟩, rfl⟩
    · exact Or.inl ⟨ds', Or.inl ⟨ds', hl, rfl⟩, rfl⟩

/-- **C107.** Validation on a data set that was not told to split never returns. -/
theorem C107_validation_needs_split (w : World) (perm : ℕ → List ℕ) (hperm : ∀ n, (perm n).Perm (List.range n))
    (env : LearnEnv) (he : env.Good) (ds : Obj)
    (hf : ∀ f, (Load.fetch w ds.datadir ds.name).Outcome (.ok f) → GoodData f env.depth) (config : Config) (k : ℕ)
    (hc : Sensible config k) (version : String) (hv : version = "v2" ∨ version = "v3") (fuel : ℕ) (hfuel : k < fuel)
    (hd : ds.data.splitTrain = false) (x : Py (Option (LearnObj × Perf)))
    (hx : (trainGreedyAndEval w perm env ds config (some version) true fuel).Outcome x) : ∃ e, x = .error e := by
  rcases C107_outcomes w perm hperm env he ds hf config k hc version hv true fuel hfuel x hx with
    ⟨e, -, -, h⟩ | ⟨ds', X, Y, hl, -, -, ⟨o, X', Y', hev, -⟩ | ⟨h, -⟩ | ⟨h, -⟩ | ⟨h, -⟩⟩
  · exact ⟨_, h⟩
  · obtain ⟨hs, X1, Y1, hp⟩ := loaded_parts hperm hf hl
    have := hp.noDev (hs.trans hd)
    simp only [Evaluated, if_true, this] at hev
    cases hev.1
  · exact ⟨_, h⟩
  · exact ⟨_, h⟩
  · exact ⟨_, h⟩

/-- **C107.** In validation mode, the records that are evaluated and the records that were trained on make up the
training records as read, each record being used once: nothing is evaluated that was trained on. -/
theorem C107_heldout (w : World) (perm : ℕ → List ℕ) (hperm : ∀ n, (perm n).Perm (List.range n)) (ds ds' : Obj)
    (hd : ds.data.splitTrain = true) (hl : (Load.load w perm ds).Outcome (.ok (.ok (), ds'))) (X Y X' Y' : Mat)
    (hX : ds'.data.trnX = some X) (hY : ds'.data.trnY = some Y) (hev : Evaluated ds' true X' Y') :
    ∃ RX RY : Mat, ((X.rows.zip Y.rows) ++ (X'.rows.zip Y'.rows)).Perm (RX.rows.zip RY.rows) ∧
      X.rows.length = ⌊ds.data.trainRatio * RX.rows.length⌋₊ ∧ RX.rows.length = RY.rows.length ∧
      ∃ f, (Load.fetch w ds.datadir ds.name).Outcome (.ok f) ∧ f.trnX = RX ∧ f.trnY = RY := by
  rw [Load.outcome_load] at hl
  rcases hl with ⟨e, -, h⟩ | ⟨f, hfo, h⟩
  · cases h
  injection h with h
  unfold Load.finish at h
  injection h with h1 h2
  obtain ⟨hs, -⟩ := (C78_set_data_succeeds_iff perm hperm _ _ _ _ _).1 h1.symm
  obtain ⟨xt, yt, xd, yd, e, sp⟩ := C78_split_is_partition perm hperm ds.data f.trnX f.trnY f.tstX f.tstY hd h1.symm
  rw [e] at h2
  subst h2
  simp only [Evaluated, if_true, Option.some.injEq] at hev hX hY
  obtain ⟨rfl, rfl⟩ := hev
  subst hX
  subst hY
  exact ⟨f.trnX, f.trnY, sp.partition, sp.trainRows, hs.1, f, hfo, rfl, rfl⟩

/-- **C107.** `train_and_eval` with a classifier built from a configuration is `train_greedy_and_eval` without
validation. -/
theorem C107_train_and_eval (w : World) (perm : ℕ → List ℕ) (env : LearnEnv) (ds : Obj) (config : Config) (fuel : ℕ)
    (x : Py (Option (LearnObj × Perf))) :
    ((trainAndEval w perm env ds (createFromConfig "GreedyCFTPDivMaxV2" config) fuel).Outcome x ↔
      (trainGreedyAndEval w perm env ds config (some "v2") false fuel).Outcome x) ∧
    ((trainAndEval w perm env ds (createFromConfig "GreedyCFTPDivMaxV3" config) fuel).Outcome x ↔
      (trainGreedyAndEval w perm env ds config (some "v3") false fuel).Outcome x) := by
  have key : ∀ (version cls : String),
      createVersion config (some version) = .ok (createFromConfig cls config) →
      trainAndEval w perm env ds (createFromConfig cls config) fuel =
        trainGreedyAndEval w perm env ds config (some version) false fuel := by
    intro version cls h
    unfold trainAndEval trainGreedyAndEval
    rw [h]
    congr 1
    funext ds'
    change (RandR.lift (readyOf (createFromConfig cls config)) >>= _) =
      (RandR.lift (readyOf (createFromConfig cls config)) >>= _)
    congr 1
    funext r
    congr 1
    funext X
    congr 1
    funext Y
    congr 1
    funext fitted
    cases fitted with
    | none => rfl
    | some o =>
      simp only [targetOf, Bool.false_eq_true, if_false]
      cases ds'.data.tstX with
      | none => rfl
      | some X' =>
        cases ds'.data.tstY with
        | none => rfl
        | some Y' => rfl
  rw [key "v2" _ rfl, key "v3" _ rfl]
  exact ⟨Iff.rfl, Iff.rfl⟩

theorem coverage_one {rules : List Rule} {X Y : Mat} (hY : ZeroOne Y) (h : coverageSpec rules X Y = some 1) (i l : ℕ)
    (hil : HasOne Y i l) : Covers rules X Y i l := by
  unfold coverageSpec at h
  split at h
  · cases h
  · rename_i h0
    have h0' : ((cells Y.rows.length Y.ncols (HasOne Y)).card : ℚ) ≠ 0 := by exact_mod_cast h0
    rw [Option.some.injEq, div_eq_one_iff_eq h0'] at h
    have hc : (cells Y.rows.length Y.ncols (Covers rules X Y)).card = (cells Y.rows.length Y.ncols (HasOne Y)).card := by
      exact_mod_cast h
    have hsub : cells Y.rows.length Y.ncols (Covers rules X Y) ⊆ cells Y.rows.length Y.ncols (HasOne Y) := by
      intro e he
      rw [mem_cells] at he ⊢
      refine ⟨he.1, he.2.1, ?_⟩
      obtain ⟨r, -, -, ht, hl⟩ := he.2.2
      obtain ⟨j, hj, ho⟩ := ht _ hl
      rwa [show e.2 = j by omega]
    have heq := Finset.eq_of_subset_of_card_le hsub hc.ge
    have hm : (i, l) ∈ cells Y.rows.length Y.ncols (HasOne Y) := mem_cells.2 ⟨hil.lt, hil.col_lt hY, hil⟩
    rw [← heq, mem_cells] at hm
    exact hm.2.2

/-- **C107.** A trial of `scripts/tune_and_eval.py` evaluates on records that it trained on: the evaluated records are
part of the training records. Its dictionary holds three scores on these records, the number of rules and the coverage. -/
theorem C107_tune_trial (perm : ℕ → List ℕ) (hperm : ∀ n, (perm n).Perm (List.range n)) (env : LearnEnv)
    (he : env.Good) (ds : Obj) (X Y : Mat) (hX : ds.data.trnX = some X) (hY : ds.data.trnY = some Y) (zX : ZeroOne X)
    (zY : ZeroOne Y) (hn : X.rows.length = Y.rows.length) (hpos : 2 ≤ X.rows.length) (hL : 0 < Y.ncols)
    (hdX : X.ncols < env.depth) (hdY : Y.ncols < env.depth)
    (hcX : 0 < X.ncols) (hcY : 0 < Y.ncols) (config : Config) (k : ℕ) (hc : Sensible config k)
    (fuel : ℕ) (hfuel : k < fuel) (o : LearnObj) (perf : Perf)
    (hx : (tuneRound perm env ds config fuel).Outcome (.ok (some (o, perf)))) :
    ∃ xt yt X' Y', SplitOf X Y xt yt X' Y' (7 / 10) ∧ LearnedFrom (rulesOf o) X Y k ∧
      (∀ r ∈ X'.rows.zip Y'.rows, r ∈ X.rows.zip Y.rows) ∧
      perf = [("micro_f1", some (rulesScore (rulesOf o) X' Y' "micro_f1")),
        ("macro_f1", some (rulesScore (rulesOf o) X' Y' "macro_f1")),
        ("hamming_accuracy", some (rulesScore (rulesOf o) X' Y' "hamming_accuracy")),
        ("n_rules", some ((rulesOf o).length : ℚ)), ("coverage", coverageSpec (rulesOf o) X Y)] := by
  have hsplit : Splittable X.rows.length (7 / 10) := by
    refine ⟨by norm_num, by norm_num, ?_⟩
    have : (2 : ℚ) ≤ X.rows.length := by exact_mod_cast hpos
    linarith
  obtain ⟨xt, xd, yt, yd, e, sp⟩ := trainTestSplit_spec perm hperm X Y _ hn hsplit
  obtain ⟨r, q, f, l, hr, -, -, -, -, -, hobj, hk, ht, hh, -⟩ := readyOf_sensible hc "GreedyCFTPDivMaxV2"
  unfold tuneRound at hx
  simp only [outcome_lift_bind, hX, hY, attr, e, hr, Except.ok.injEq, exists_eq_left', reduceCtorEq, false_and,
    exists_false, or_false] at hx
  rw [RandR.bind_eq, RandR.outcome_bind] at hx
  rcases hx with ⟨a, ha, hx⟩ | ⟨e, -, h⟩
  · rcases fit_outcome he zX zY hn (by omega) hdX hdY hcX hcY hobj hk ht hh hfuel ha with
      ⟨o', e, hlf, hsup⟩ | ⟨e, -⟩ | ⟨e, -⟩
    · cases e
      obtain ⟨z1, z2, z3, z4⟩ := zeroOne_split hn sp zX zY
      obtain ⟨c1, c2, c3, c4⟩ := sp.columns
      obtain ⟨P, h1, h2, h3, h4⟩ := scoresOf_all z3 z4 sp.devAligned.symm (sp.devAligned ▸ sp.devNonempty)
        (c4 ▸ hL) o' (c4 ▸ tails_valid hn hsup) Y.ncols c4
      have hcov := coverageOf_eq zX zY hn (rs := o'.selected) (fun b hb => (hsup b hb).1)
      have hsc : scoresOf ["micro_f1", "macro_f1", "hamming_accuracy"] o' Y.ncols (toCsr xd) (toCsr yd) =
          .ok [("micro_f1", some (rulesScore (rulesOf o') xd yd "micro_f1")),
            ("macro_f1", some (rulesScore (rulesOf o') xd yd "macro_f1")),
            ("hamming_accuracy", some (rulesScore (rulesOf o') xd yd "hamming_accuracy"))] := by
        unfold scoresOf
        have hinit : evaluatorInit ["micro_f1", "macro_f1", "hamming_accuracy"] =
          .ok ["micro_f1", "macro_f1", "hamming_accuracy"] := by decide
        simp only [name2func, List.mem_cons, Prod.mk.injEq, List.not_mem_nil, or_false] at h4
        rw [h1, hinit]
        simp [evaluatorReport, reportOne, name2func, h2, h3, dictSet, List.lookup, bind, Except.bind,
          pure, Except.pure, h4 "micro_f1" microF1 (by simp), h4 "macro_f1" macroF1 (by simp),
          h4 "hamming_accuracy" hammingAccuracy (by simp)]
      simp only [outcome_lift_bind, hsc, hcov, Except.ok.injEq, exists_eq_left', reduceCtorEq, false_and,
        exists_false, or_false] at hx
      have hx : (.ok (some (o, perf)) : Py (Option (LearnObj × Perf))) = .ok (some (o', _)) := hx
      rw [Except.ok.injEq, Option.some.injEq, Prod.mk.injEq] at hx
      obtain ⟨rfl, rfl⟩ := hx
      refine ⟨xt, yt, xd, yd, sp, hlf, fun r hr => sp.partition.subset (List.mem_append_right _ hr), ?_⟩
      simp
    · cases e
    · cases e
  · cases h

/-- **C107.** So a trial that reports coverage 1 predicts every label of the records it evaluates: full recall there says
nothing about other records. -/
theorem C107_tune_recall (rules : List Rule) (X Y xt yt X' Y' : Mat) (zY : ZeroOne Y)
    (sp : SplitOf X Y xt yt X' Y' (7 / 10)) (h : coverageSpec rules X Y = some 1) (i l : ℕ) (hil : HasOne Y' i l) :
    Predicts rules X' i l := by
  obtain ⟨ry, hry, hl⟩ := hil
  obtain ⟨hi, rfl⟩ := List.getElem?_eq_some_iff.1 hry
  have hi' : i < X'.rows.length := sp.devAligned ▸ hi
  have hm : (X'.rows[i], Y'.rows[i]) ∈ records X Y := sp.partition.subset (List.mem_append_right _ (by
    rw [records]
    have : (X'.rows.zip Y'.rows)[i]'(by simp [hi, hi']) = (X'.rows[i], Y'.rows[i]) := by simp
    rw [← this]
    exact List.getElem_mem _))
  obtain ⟨j, hj, hjv⟩ := List.getElem_of_mem hm
  simp only [records, List.length_zip, lt_inf_iff] at hj
  simp only [records, List.getElem_zip, Prod.mk.injEq] at hjv
  obtain ⟨r, hr, hh, -, hl'⟩ := coverage_one zY h j l
    ⟨Y.rows[j], List.getElem?_eq_getElem hj.2, by rw [hjv.2]; exact hl⟩
  refine ⟨r, hr, fun f hf => ?_, hl'⟩
  obtain ⟨c, hc, rx, hrx, hone⟩ := hh f hf
  obtain ⟨_, rfl⟩ := List.getElem?_eq_some_iff.1 hrx
  exact ⟨c, hc, X'.rows[i], List.getElem?_eq_getElem hi', by rw [← hjv.1]; exact hone⟩

theorem readyOf_values {config : Config} {k t h : ℕ} {q f l : ℚ} (h1 : config.get "n_max_rules" (.int 10) = .int k)
    (h2 : config.get "n_tails_per_iter" (.int 100) = .int t) (h3 : config.get "n_heads_per_tail" (.int 10) = .int h)
    (h4 : config.get "lambd" (.float 10) = .float q) (h5 : config.get "min_feature_proba" (.float (8 / 10)) = .float f)
    (h6 : config.get "min_label_proba" (.float (8 / 10)) = .float l) (cls : String) :
    readyOf (createFromConfig cls config) =
      .ok ⟨decide (cls = "GreedyCFTPDivMaxV3"), ⟨(q : ℝ), t, h, some k, 0⟩, LearnObj.new f l⟩ := by
  have e : createFromConfig cls config =
      Built.mk cls (newCftp (.float f) (.float l) (.float q) (.int t) (.int h) (.int k)) := by
    unfold createFromConfig
    rw [show defaultOfV2 "min_feature_proba" = .float (8 / 10) from rfl,
      show defaultOfV2 "min_label_proba" = .float (8 / 10) from rfl,
      show defaultOfV2 "lambd" = .float 10 from rfl, show defaultOfV2 "n_tails_per_iter" = .int 100 from rfl,
      show defaultOfV2 "n_heads_per_tail" = .int 10 from rfl, show defaultOfV2 "n_max_rules" = .int 10 from rfl,
      h1, h2, h3, h4, h5, h6]
  rw [e]
  simp [readyOf, Clf.getAttr, newCftp, initBase, updateDict, numOf, countOf, limitOf, bind, Except.bind, pure,
    Except.pure]

/-- **C107.** The rules are the greedy choices of the version asked for, with the hyperparameters of the configuration:
each maximises the objective of that version, given the rules before it, over candidates drawn when the tail sampler
knew of just those rules. -/
theorem C107_greedy (w : World) (perm : ℕ → List ℕ) (hperm : ∀ n, (perm n).Perm (List.range n)) (env : LearnEnv)
    (he : env.Good) (ds : Obj)
    (hf : ∀ f, (Load.fetch w ds.datadir ds.name).Outcome (.ok f) → GoodData f env.depth) (config : Config) (k t h : ℕ)
    (q pl : ℚ) (hc : Sensible config k) (hq : config.get "lambd" (.float 10) = .float q)
    (hpl : config.get "min_label_proba" (.float (8 / 10)) = .float pl)
    (ht : config.get "n_tails_per_iter" (.int 100) = .int t) (hh : config.get "n_heads_per_tail" (.int 10) = .int h)
    (v3 : Bool) (validation : Bool) (fuel : ℕ) (o : LearnObj) (perf : Perf)
    (hx : (trainGreedyAndEval w perm env ds config (some (if v3 then "v3" else "v2")) validation fuel).Outcome
      (.ok (some (o, perf)))) :
    ∃ ds' X Y, (Load.load w perm ds).Outcome (.ok (.ok (), ds')) ∧ ds'.data.trnX = some X ∧
      ds'.data.trnY = some Y ∧
      ∀ p : Params, p = ⟨(q : ℝ), t, h, some k, 0⟩ → ∀ i (hi : i < o.selected.length),
        BestCandidate env p (if v3 then learnerV3 p else learnerV2 p) pl (toCsr X) (toCsr Y)
          (o.selected.take i) o.selected[i] := by
  obtain ⟨pf, hpf⟩ := hc.features
  have hr := readyOf_values hc.limit ht hh hq hpf hpl
  have hcls : createVersion config (some (if v3 then "v3" else "v2")) =
      .ok (createFromConfig (if v3 then "GreedyCFTPDivMaxV3" else "GreedyCFTPDivMaxV2") config) := by
    cases v3 <;> rfl
  have hdec : decide ((if v3 then "GreedyCFTPDivMaxV3" else "GreedyCFTPDivMaxV2") = "GreedyCFTPDivMaxV3") = v3 := by
    cases v3 <;> decide
  unfold trainGreedyAndEval at hx
  rw [RandR.bind_eq, RandR.outcome_bind] at hx
  simp only [outcome_loadOrRaise] at hx
  rcases hx with ⟨ds', (⟨ds1, hl, e⟩ | ⟨e, ds', -, h⟩), hx⟩ | ⟨e, -, h'⟩
  · cases e
    obtain ⟨-, X, Y, hp⟩ := loaded_parts hperm hf hl
    refine ⟨ds', X, Y, hl, hp.trnX, hp.trnY, ?_⟩
    rintro p rfl i hi
    simp only [outcome_lift_bind, hcls, hr, hdec, hp.trnX, hp.trnY, attr, Except.ok.injEq, exists_eq_left',
      reduceCtorEq, false_and, exists_false, or_false] at hx
    rw [RandR.bind_eq, RandR.outcome_bind] at hx
    rcases hx with ⟨a, ha, hx⟩ | ⟨e, -, h⟩
    · cases a with
      | none => cases hx
      | some o' =>
        simp only [outcome_lift_bind] at hx
        have ho : o = o' := by
          rcases hx with ⟨tg, -, ⟨pf, -, hx⟩ | ⟨e, -, h⟩⟩ | ⟨e, -, h⟩
          · have hx : (.ok (some (o, perf)) : Py (Option (LearnObj × Perf))) = .ok (some (o', pf)) := hx
            cases hx
            rfl
          · cases h
          · cases h
        subst ho
        obtain ⟨y, hy, e⟩ := outcome_fitReady.1 ha
        rcases y with e' | (- | ⟨o', obj⟩)
        · cases e
        · cases e
        · obtain rfl : o = o' := by
            have e : (.ok (some o) : Py (Option LearnObj)) = .ok (some o') := e
            cases e
            rfl
          have hD := learnData (env := env) hp.zeroX hp.zeroY hp.rows hp.pos hp.depthX hp.depthY hp.colsX hp.colsY
          simp only at hy
          unfold learnFitV2 at hy
          rw [RandR.bind_eq, RandR.outcome_bind] at hy
          rcases hy with ⟨st, hst, hy⟩ | ⟨e, -, h⟩
          · cases st with
            | none => cases hy
            | some st =>
              simp only [outcome_lift_bind] at hy
              rcases hy with ⟨v, -, hy⟩ | ⟨e, -, h⟩
              · have hy : (.ok (some (o, obj)) : Py (Option (LearnObj × ℝ))) =
                  .ok (some ((LearnObj.new pf pl).after st, v)) := hy
                cases hy
                refine (C24_end_to_end env he _ _ hD pf pl _ _ k (Or.inr ⟨rfl, ?_⟩) fuel st hst i hi).1
                cases v3
                · exact Or.inl rfl
                · exact Or.inr rfl
              · cases h
          · cases h
    · cases h
  · cases h
  · cases h'

/-! ### Examples -/

deriving instance DecidableEq for RowMat

/-- The configuration without entries: ten rules, a hundred tails, ten heads. -/
theorem sensible_default : Sensible (fun _ => none) (9 + 1) :=
  ⟨rfl, ⟨100, by decide, rfl⟩, ⟨10, by decide, rfl⟩, ⟨10, rfl⟩, ⟨_, rfl⟩, ⟨_, rfl⟩⟩

/-- What a toy object reads is good data. -/
theorem toy_good (f : Load.Fetched)
    (h : (Load.fetch Load.emptyWorld Load.toyObj.datadir Load.toyObj.name).Outcome (.ok f)) : GoodData f 10 := by
  have h : (.ok f : Py Load.Fetched) = .ok Load.toy := h
  cases h
  refine ⟨?_, ?_, ?_, ?_, ?_, ?_, ?_, ?_, ?_, ?_⟩ <;> simp [Load.toy, ZeroOne]

/-- On the toy data a run can end with `TypeError`: two of the records trained on share the last feature, but not the
labels. -/
example (validation : Bool) :
    (trainGreedyAndEval Load.emptyWorld List.range (someLearnEnv 10) Load.toyObj (fun _ => none) (some "v2") validation
      20).Outcome (.error .typeError) := by
  refine (C107_can_raise Load.emptyWorld List.range (fun n => .refl _) (someLearnEnv 10) (someLearnEnv_good 10)
    Load.toyObj toy_good (fun _ => none) 10 sensible_default "v2" (Or.inl rfl) validation 20 (by decide)
    (Load.finish List.range Load.toyObj Load.toy).2 ((Load.outcome_load _ _ _ _).2 (Or.inr ⟨Load.toy, rfl, ?_⟩))
    ⟨[[0, 1, 1], [1, 0, 1]], 3⟩ ⟨[[0, 1], [1, 0]], 2⟩ (by decide +kernel) (by decide +kernel)).1 ⟨0, 1, 2, 1, ?_⟩
  · refine congrArg Except.ok (Prod.ext ?_ rfl)
    decide +kernel
  · simp [HasOne]

/-- Four records, each with one feature and the label of the same number. -/
def eyeMat : Mat := ⟨[[1, 0], [0, 1], [1, 0], [0, 1]], 2⟩

/-- A world in which the library reads these records from every file. -/
def eyeWorld : World :=
  { Load.emptyWorld with lib := fun _ _ _ => .ok ⟨eyeMat, eyeMat, ["a".toList, "b".toList], ["c".toList, "d".toList]⟩ }

/-- `Dataset(name="eye", split_train=True)`. -/
def eyeObj : Obj := ⟨"eye".toList, "./data".toList, DatasetObj.new true (7 / 10), none, none, none, none, none⟩

theorem eye_fetched (f : Load.Fetched) (h : (Load.fetch eyeWorld eyeObj.datadir eyeObj.name).Outcome (.ok f)) :
    f = ⟨eyeMat, eyeMat, eyeMat, eyeMat, ["c".toList, "d".toList].map .text, ["a".toList, "b".toList].map .text⟩ := by
  have h : (.ok f : Py Load.Fetched) = .ok ⟨eyeMat, eyeMat, eyeMat, eyeMat, ["c".toList, "d".toList].map .text,
    ["a".toList, "b".toList].map .text⟩ := h
  cases h
  rfl

theorem eye_good (f : Load.Fetched) (h : (Load.fetch eyeWorld eyeObj.datadir eyeObj.name).Outcome (.ok f)) :
    GoodData f 10 := by
  rw [eye_fetched f h]
  refine ⟨?_, ?_, ?_, ?_, ?_, ?_, ?_, ?_, ?_, ?_⟩ <;> simp [eyeMat, ZeroOne]

theorem eye_not_troublesome : ¬ Troublesome ⟨[[1, 0], [0, 1]], 2⟩ ⟨[[1, 0], [0, 1]], 2⟩ := by
  rintro (⟨i, j, f, l, h1, h2, h3, h4⟩ | ⟨i, hi, h⟩)
  · refine h4 ?_
    obtain ⟨r, hr, e1⟩ := h1
    obtain ⟨r', hr', e2⟩ := h2
    obtain ⟨r'', hr'', e3⟩ := h3
    have hi : i = 0 ∨ i = 1 := by have := (List.getElem?_eq_some_iff.1 hr).1; simp at this; omega
    have hj : j = 0 ∨ j = 1 := by have := (List.getElem?_eq_some_iff.1 hr').1; simp at this; omega
    rcases hi with rfl | rfl <;> rcases hj with rfl | rfl <;> simp at hr hr' hr'' <;> subst hr hr' hr'' <;>
      rcases f with _ | _ | f <;> simp at e1 e2 <;> exact ⟨_, rfl, e3⟩
  · have hi' : i = 0 ∨ i = 1 := by simp at hi; omega
    rcases hi' with rfl | rfl
    · exact h 0 ⟨_, rfl, rfl⟩
    · exact h 1 ⟨_, rfl, rfl⟩

/-- On these records a run returns rules, in both versions, with and without validation. -/
example (version : String) (hv : version = "v2" ∨ version = "v3") (validation : Bool) :
    ∃ o perf, rulesOf o ≠ [] ∧
      (trainGreedyAndEval eyeWorld List.range (someLearnEnv 10) eyeObj (fun _ => none) (some version) validation
        20).Outcome (.ok (some (o, perf))) := by
  refine C107_can_return eyeWorld List.range (fun n => .refl _) (someLearnEnv 10) (someLearnEnv_good 10) eyeObj eye_good
    (fun _ => none) 9 sensible_default version hv validation (fun _ => rfl) 20 (by decide)
    (Load.finish List.range eyeObj ⟨eyeMat, eyeMat, eyeMat, eyeMat, ["c".toList, "d".toList].map .text,
      ["a".toList, "b".toList].map .text⟩).2 ((Load.outcome_load _ _ _ _).2 (Or.inr ⟨_, rfl, ?_⟩))
    ⟨[[1, 0], [0, 1]], 2⟩ ⟨[[1, 0], [0, 1]], 2⟩ (by decide +kernel) (by decide +kernel) eye_not_troublesome ?_
    ⟨0, 0, _, rfl, rfl⟩
  · refine congrArg Except.ok (Prod.ext ?_ rfl)
    decide +kernel
  · rintro ⟨l, h⟩
    obtain ⟨r, h0, e0⟩ := h 0 (by decide)
    obtain ⟨r', h1, e1⟩ := h 1 (by decide)
    simp at h0 h1
    subst h0 h1
    rcases l with _ | _ | l <;> simp at e0 e1

/-- A trial of the tuning script on these records: the hypotheses of `C107_tune_trial` hold. -/
example (fuel : ℕ) (hfuel : 10 < fuel) (o : LearnObj) (perf : Perf)
    (hx : (tuneRound List.range (someLearnEnv 10)
      { eyeObj with data := { eyeObj.data with trnX := some eyeMat, trnY := some eyeMat } } (fun _ => none)
      fuel).Outcome (.ok (some (o, perf)))) : perf.map Prod.fst = ["micro_f1", "macro_f1", "hamming_accuracy", "n_rules",
        "coverage"] ∧ (rulesOf o).length ≤ 10 := by
  obtain ⟨xt, yt, X', Y', -, hl, -, e⟩ := C107_tune_trial List.range (fun n => .refl _) (someLearnEnv 10)
    (someLearnEnv_good 10) { eyeObj with data := { eyeObj.data with trnX := some eyeMat, trnY := some eyeMat } } eyeMat
    eyeMat rfl rfl (by simp [ZeroOne, eyeMat]) (by simp [ZeroOne, eyeMat]) rfl (by decide) (by decide) (by decide)
    (by decide) (by decide) (by decide) (fun _ => none) 10 sensible_default fuel hfuel o perf hx
  rw [e]
  exact ⟨rfl, hl.few⟩

end Pipeline

end Verif
