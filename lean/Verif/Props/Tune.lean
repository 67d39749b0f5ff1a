/-
The trial of `scripts/tune_greedy.py`: it reports averages of scores on records that were not trained on.
-/
import Verif.Spec.Tune
import Verif.Props.Pipeline
import Verif.Props.Mlflow

namespace Verif

namespace Tune

open Pipeline
open Load (Mat Obj World)
open Arff (Text)
open Mlflow (Store)

theorem train_eq (w : World) (perm : ℕ → List ℕ) (env : LearnEnv) (ds : Obj) (config : Config)
    (version : Option String) (validation : Bool) (fuel : ℕ) :
    trainGreedyAndEval w perm env ds config version validation fuel =
      (loadOrRaise w perm ds).bind (afterLoad env config version validation fuel) := rfl

theorem loggedParams_eq (str : PyVal → String) (config : Config) (version : String)
    (hv : version = "v2" ∨ version = "v3") : loggedParams str config version = .ok (paramsSpec str config) := by
  rcases hv with rfl | rfl <;> rfl

/-- The data set object before a round. -/
structure Ours (su : Setup) (datadir : Text) (ds : Obj) : Prop where
  name : ds.name = su.dataset
  datadir : ds.datadir = datadir
  split : ds.data.splitTrain = true
  ratio : ds.data.trainRatio = 7 / 10

theorem Ours.load {su : Setup} {datadir : Text} {ds ds' : Obj} (h : Ours su datadir ds) {w : World} {perm : ℕ → List ℕ}
    (hperm : ∀ n, (perm n).Perm (List.range n)) (hl : (Load.load w perm ds).Outcome (.ok (.ok (), ds'))) :
    Ours su datadir ds' := by
  rw [Load.outcome_load] at hl
  rcases hl with ⟨e, -, hl⟩ | ⟨f, -, hl⟩
  · cases hl
  injection hl with hl
  unfold Load.finish at hl
  injection hl with h1 h2
  obtain ⟨xt, yt, xd, yd, e, -⟩ := C78_split_is_partition perm hperm ds.data _ _ _ _ h.split h1.symm
  rw [e] at h2
  subst h2
  exact ⟨h.name, h.datadir, h.split, h.ratio⟩

theorem Ours.load_error {su : Setup} {datadir : Text} {ds ds' : Obj} (h : Ours su datadir ds) {w : World}
    {perm : ℕ → List ℕ} (hperm : ∀ n, (perm n).Perm (List.range n)) {e : PyErr}
    (hl : (Load.load w perm ds).Outcome (.ok (.error e, ds'))) : Cause w datadir su.dataset e := by
  rw [Load.outcome_load, h.name, h.datadir] at hl
  rcases hl with ⟨e', he, hl⟩ | ⟨f, hf, hl⟩
  · cases hl
    exact Or.inl he
  · injection hl with hl
    unfold Load.finish at hl
    injection hl with h1 h2
    refine Or.inr (Or.inl ⟨f, hf, ?_⟩)
    by_contra hc
    push Not at hc
    have := (C78_set_data_succeeds_iff perm hperm ds.data f.trnX f.trnY f.tstX f.tstY).2
      ⟨⟨hc.1, hc.2.1, hc.2.2.1, hc.2.2.2.1⟩, fun _ => ?_⟩
    · rw [this] at h1
      cases h1
    · rw [h.ratio]
      refine ⟨by norm_num, by norm_num, ?_⟩
      have : (2 : ℚ) ≤ f.trnX.rows.length := by exact_mod_cast hc.2.2.2.2
      linarith

/-- What is assumed of the environment of the rounds: permutations are permutations, sets are traversed completely, and
the data read are zeros and ones. -/
structure GoodRound (w : World) (datadir dataset : Text) (e : RoundEnv) : Prop where
  perm : ∀ n, (e.perm n).Perm (List.range n)
  env : e.env.Good
  data : ∀ f, (Load.fetch w datadir dataset).Outcome (.ok f) → GoodData f e.env.depth

theorem oneRound_outcome {w : World} {str : PyVal → String} {su : Setup} {datadir : Text} {k fuel : ℕ}
    (hc : Sensible su.config k) (hv : su.version = "v2" ∨ su.version = "v3") (hfuel : k < fuel) {e : RoundEnv}
    (he : GoodRound w datadir su.dataset e) {s : State} (hs : Ours su datadir s.ds) {i : String}
    (hi : Mlflow.getExperimentIdByName e.freshId s.store su.experiment = (.ok i, s.store))
    {x : Py (Option (Py Unit × State))} (hx : (oneRound w str su fuel e s).Outcome x) :
    (∃ r ds', Fair w datadir su.dataset k r ∧ Ours su datadir ds' ∧
      x = .ok (some (.ok (), ⟨ds', s.store, s.runs ++ [r.run str su i], s.perfs ++ [r.perf]⟩))) ∨
    ∃ err, Cause w datadir su.dataset err ∧
      x = .ok (some (.error err, { s with runs := s.runs ++ [failedRun i su.dataset su.version] })) := by
  unfold oneRound at hx
  rw [hi] at hx
  simp only at hx
  rw [RandR.bind_eq, RandR.outcome_bind] at hx
  simp only [outcome_attempt] at hx
  have hf : ∀ f, (Load.fetch w s.ds.datadir s.ds.name).Outcome (.ok f) → GoodData f e.env.depth := by
    rw [hs.name, hs.datadir]; exact he.data
  rcases hx with ⟨r, ⟨r', hr, e1⟩, hx⟩ | ⟨_, ⟨r', -, e1⟩, -⟩
  swap
  · cases e1
  cases e1
  rw [RandR.bind_eq, RandR.outcome_bind] at hr
  simp only [outcome_loadOrRaise] at hr
  rcases hr with ⟨ds', (⟨ds1, hl, e1⟩ | ⟨_, _, -, e1⟩), hr⟩ | ⟨err, (⟨_, -, e1⟩ | ⟨err', ds1, hl, e1⟩), e2⟩
  · cases e1
    rw [RandR.bind_eq, RandR.outcome_bind] at hr
    have htrain : ∀ y, (afterLoad e.env su.config (some su.version) true fuel ds').Outcome y →
        (trainGreedyAndEval w e.perm e.env s.ds su.config (some su.version) true fuel).Outcome y := by
      intro y hy
      rw [train_eq, RandR.outcome_bind]
      exact Or.inl ⟨ds', outcome_loadOrRaise.2 (Or.inl ⟨ds', hl, rfl⟩), hy⟩
    have hdiv : ∀ (ds'' : Obj) (X Y X' Y' : Mat), (Load.load w e.perm s.ds).Outcome (.ok (.ok (), ds'')) →
        ds''.data.trnX = some X → ds''.data.trnY = some Y → Evaluated ds'' true X' Y' →
        DividedFrom w datadir su.dataset ⟨X, Y, X', Y'⟩ := by
      intro ds'' X Y X' Y' hl hX hY hev
      obtain ⟨RX, RY, h1, h2, h3, f, h4, rfl, rfl⟩ :=
        C107_heldout w e.perm he.perm s.ds ds'' hs.split hl X Y X' Y' hX hY hev
      rw [hs.name, hs.datadir] at h4
      rw [hs.ratio] at h2
      exact ⟨f, h4, h1, h2, h3⟩
    have hdev : ∀ ds'' : Obj, (Load.load w e.perm s.ds).Outcome (.ok (.ok (), ds'')) →
        ∃ X' Y', Evaluated ds'' true X' Y' := by
      intro ds'' hl
      obtain ⟨h1, X, Y, hp⟩ := loaded_parts he.perm hf hl
      exact hp.dev (h1.trans hs.split)
    rcases hr with ⟨o, ho, hr⟩ | ⟨err, ho, rfl⟩
    · have := C107_outcomes w e.perm he.perm e.env he.env s.ds hf su.config k hc su.version hv true fuel hfuel _
        (htrain _ ho)
      rcases this with ⟨err, -, -, e2⟩ | ⟨ds'', X, Y, hl', hX, hY, ⟨ob, X', Y', hev, hlf, e2⟩ | ⟨e2, -⟩ | ⟨e2, -⟩ | ⟨e2, -⟩⟩
      · cases e2
      · cases e2
        left
        rw [loggedParams_eq str su.config su.version hv] at hr
        cases hr
        refine ⟨⟨⟨X, Y, X', Y'⟩, rulesOf ob⟩, ds', ⟨hdiv ds'' X Y X' Y' hl' hX hY hev, hlf⟩, hs.load he.perm hl, ?_⟩
        cases hx
        rw [hs.name]
        rfl
      all_goals cases e2
    · right
      have := C107_outcomes w e.perm he.perm e.env he.env s.ds hf su.config k hc su.version hv true fuel hfuel _
        (htrain _ ho)
      rw [hs.name] at hx
      rcases this with ⟨err', ds'', hl', e2⟩ | ⟨ds'', X, Y, hl', hX, hY, ⟨ob, X', Y', hev, hlf, e2⟩ | ⟨e2, ht⟩ | ⟨e2, ht⟩ |
        ⟨e2, -, hsf⟩⟩
      · cases e2
        exact ⟨err, hs.load_error he.perm hl', hx⟩
      · cases e2
      · cases e2
        obtain ⟨X', Y', hev⟩ := hdev ds'' hl'
        exact ⟨_, Or.inr (Or.inr (Or.inl ⟨rfl, _, hdiv ds'' X Y X' Y' hl' hX hY hev, ht⟩)), hx⟩
      · cases e2
        obtain ⟨X', Y', hev⟩ := hdev ds'' hl'
        exact ⟨_, Or.inr (Or.inr (Or.inr ⟨rfl, _, hdiv ds'' X Y X' Y' hl' hX hY hev, ht⟩)), hx⟩
      · rw [hs.split] at hsf
        cases hsf
  · cases e1
  · cases e1
  · cases e1
    subst e2
    rw [hs.name] at hx
    exact Or.inr ⟨err, hs.load_error he.perm hl, hx⟩

theorem rounds_outcome {w : World} {str : PyVal → String} {su : Setup} {datadir : Text} {k fuel : ℕ}
    (hc : Sensible su.config k) (hv : su.version = "v2" ∨ su.version = "v3") (hfuel : k < fuel) {es : List RoundEnv}
    (he : ∀ e ∈ es, GoodRound w datadir su.dataset e) {s : State} (hs : Ours su datadir s.ds) {i : String}
    (hi : ∀ j, Mlflow.getExperimentIdByName j s.store su.experiment = (.ok i, s.store))
    {x : Py (Option (Py Unit × State))} (hx : (rounds w str su fuel es s).Outcome x) :
    ∃ rs : List Round, (∀ r ∈ rs, Fair w datadir su.dataset k r) ∧
      ((rs.length = es.length ∧ ∃ ds', x = .ok (some (.ok (), ⟨ds', s.store, s.runs ++ rs.map (Round.run str su i),
          s.perfs ++ rs.map Round.perf⟩))) ∨
        (rs.length < es.length ∧ ∃ err ds' perfs, Cause w datadir su.dataset err ∧ x = .ok (some (.error err,
          ⟨ds', s.store, s.runs ++ rs.map (Round.run str su i) ++ [failedRun i su.dataset su.version], perfs⟩)))) := by
  induction es generalizing s with
  | nil =>
    refine ⟨[], by simp, Or.inl ⟨rfl, s.ds, ?_⟩⟩
    cases hx
    simp
  | cons e es ih =>
    unfold rounds at hx
    rw [RandR.bind_eq, RandR.outcome_bind] at hx
    rcases hx with ⟨r, hr, hx⟩ | ⟨err, hr, rfl⟩
    · rcases oneRound_outcome hc hv hfuel (he e (by simp)) hs (hi _) hr with ⟨rd, ds', hfair, hours, e1⟩ | ⟨err, hcause, e1⟩
      · cases e1
        obtain ⟨rs, hrs, h⟩ := ih (fun e' h' => he e' (by simp [h'])) (s := ⟨ds', s.store, _, _⟩) hours hi hx
        refine ⟨rd :: rs, by simpa using ⟨hfair, hrs⟩, ?_⟩
        rcases h with ⟨hlen, ds'', rfl⟩ | ⟨hlen, err, ds'', perfs, hcause, rfl⟩
        · exact Or.inl ⟨by simp [hlen], ds'', by simp⟩
        · exact Or.inr ⟨by simpa using hlen, err, ds'', perfs, hcause, by simp⟩
      · cases e1
        cases hx
        exact ⟨[], by simp, Or.inr ⟨by simp, err, s.ds, s.perfs, hcause, by simp⟩⟩
    · rcases oneRound_outcome hc hv hfuel (he e (by simp)) hs (hi _) hr with ⟨_, _, -, -, e1⟩ | ⟨_, -, e1⟩ <;> cases e1

/-- The mean of the scores is the specified report. -/
theorem meanPerf_eq (r : Round) (rs : List Round) : meanPerf ((r :: rs).map Round.perf) = reportSpec (r :: rs) := by
  have hcol : ∀ (key : String) (f : Round → Option ℚ), (∀ r : Round, (r.perf.lookup key).join = f r) →
      columnOf ((r :: rs).map Round.perf) key = (r :: rs).filterMap f := by
    intro key f h
    unfold columnOf
    rw [List.filterMap_map]
    exact List.filterMap_congr fun r _ => h r
  have hsome : ∀ (key : String) (f : Round → ℚ), (∀ r : Round, (r.perf.lookup key).join = some (f r)) →
      meanOf (columnOf ((r :: rs).map Round.perf) key) = some (average ((r :: rs).map f)) := by
    intro key f h
    rw [hcol key _ h]
    have : ∀ l : List Round, l.filterMap (fun r => some (f r)) = l.map f := fun l => List.filterMap_eq_map' ▸ rfl
    rw [this]
    simp [meanOf, average]
  have hm : meanPerf ((r :: rs).map Round.perf) =
      r.perf.map fun e => (e.1, meanOf (columnOf ((r :: rs).map Round.perf) e.1)) := rfl
  rw [hm]
  have hscore : ∀ m ∈ ["hamming_accuracy", "subset_accuracy", "micro_precision", "micro_recall", "micro_f1",
      "macro_precision", "macro_recall", "macro_f1"], ∀ r : Round, (r.perf.lookup m).join = some (r.score m) := by
    intro m hm r
    simp only [List.mem_cons, List.not_mem_nil, or_false] at hm
    rcases hm with rfl | rfl | rfl | rfl | rfl | rfl | rfl | rfl <;> rfl
  have hcov : meanOf (columnOf ((r :: rs).map Round.perf) "coverage") =
      if (r :: rs).filterMap Round.coverage = [] then none
        else some (average ((r :: rs).filterMap Round.coverage)) := by
    rw [hcol "coverage" Round.coverage fun r => rfl]
    rfl
  have hn := hsome "n_rules" (fun r => (r.rules.length : ℚ)) fun r => rfl
  have hperf : r.perf = (["hamming_accuracy", "subset_accuracy", "micro_precision", "micro_recall", "micro_f1",
      "macro_precision", "macro_recall", "macro_f1"].map fun m => (m, some (r.score m))) ++
      [("coverage", r.coverage), ("n_rules", some (r.rules.length : ℚ))] := rfl
  rw [hperf, List.map_append, List.map_map, reportSpec]
  refine congrArg₂ (· ++ ·) (List.map_congr_left fun m hm => ?_) ?_
  · simp only [Function.comp]
    rw [hsome m _ (hscore m hm)]
  · change [("coverage", meanOf (columnOf ((r :: rs).map Round.perf) "coverage")),
      ("n_rules", meanOf (columnOf ((r :: rs).map Round.perf) "n_rules"))] = _
    rw [hcov, hn]

/-- **C111.** All outcomes of a trial, the experiment having been created before. Either every round is completed, and the
trial reports averages over its rounds of the scores on records that were not trained on in that round; or some round
fails, nothing is reported and the exception leaves the trial. In the tracking store there is one run for every round
that was started: the completed ones have the hyperparameters and the scores, the one that failed has neither. -/
theorem C111_outcomes (w : World) (str : PyVal → String) (su : Setup) (datadir : Text) (k fuel : ℕ)
    (hc : Sensible su.config k) (hv : su.version = "v2" ∨ su.version = "v3") (hfuel : k < fuel) (es : List RoundEnv)
    (hpos : es ≠ []) (he : ∀ e ∈ es, GoodRound w datadir su.dataset e) (store : Store) (hst : Mlflow.Distinct store)
    (ex : Mlflow.Experiment) (hex : ex ∈ store) (hname : ex.name = su.experiment)
    (x : Py (Option (Py Perf × State))) (hx : (trial w str su datadir fuel es store).Outcome x) :
    ∃ (rs : List Round) (res : Py Perf) (s : State), x = .ok (some (res, s)) ∧ s.store = store ∧
      (∀ r ∈ rs, Fair w datadir su.dataset k r) ∧
      ((rs.length = es.length ∧ res = .ok (reportSpec rs) ∧ s.runs = rs.map (Round.run str su ex.id)) ∨
        (rs.length < es.length ∧ ∃ err, Cause w datadir su.dataset err ∧ res = .error err ∧
          s.runs = rs.map (Round.run str su ex.id) ++ [failedRun ex.id su.dataset su.version])) := by
  have hi : ∀ j, Mlflow.getExperimentIdByName j store su.experiment = (.ok ex.id, store) :=
    fun j => hname ▸ Mlflow.C108_known store hst ex hex j
  unfold trial at hx
  rw [RandR.bind_eq, RandR.outcome_bind] at hx
  rcases hx with ⟨r, hr, hx⟩ | ⟨err, hr, rfl⟩
  · obtain ⟨rs, hrs, ⟨hlen, ds', e1⟩ | ⟨hlen, err, ds', perfs, hcause, e1⟩⟩ :=
      rounds_outcome hc hv hfuel he (s := ⟨newSplit su.dataset datadir, store, [], []⟩) ⟨rfl, rfl, rfl, rfl⟩ hi hr
    · cases e1
      cases hx
      refine ⟨rs, _, _, rfl, rfl, hrs, Or.inl ⟨hlen, ?_, by simp⟩⟩
      cases rs with
      | nil => exact absurd (List.length_eq_zero_iff.1 hlen.symm) hpos
      | cons r rs => simp only [List.nil_append]; rw [meanPerf_eq]
    · cases e1
      cases hx
      exact ⟨rs, _, _, rfl, rfl, hrs, Or.inr ⟨hlen, err, hcause, rfl, by simp⟩⟩
  · obtain ⟨rs, hrs, ⟨hlen, ds', e1⟩ | ⟨hlen, err, ds', perfs, hcause, e1⟩⟩ :=
      rounds_outcome hc hv hfuel he (s := ⟨newSplit su.dataset datadir, store, [], []⟩) ⟨rfl, rfl, rfl, rfl⟩ hi hr <;>
      cases e1

/-- **C111.** The trial starts by asking for the experiment: if it was not created before, the trial fails without
having started a run, but the experiment is created. -/
theorem C111_unprepared (w : World) (str : PyVal → String) (su : Setup) (datadir : Text) (fuel : ℕ) (e : RoundEnv)
    (es : List RoundEnv) (store : Store) (hn : ¬ Mlflow.Has store su.experiment) (hid : ¬ Mlflow.Has store e.freshId)
    (hne : e.freshId ≠ su.experiment) (x : Py (Option (Py Perf × State)))
    (hx : (trial w str su datadir fuel (e :: es) store).Outcome x) :
    ∃ s, x = .ok (some (.error .attributeError, s)) ∧ s.runs = [] ∧ Mlflow.Has s.store su.experiment := by
  unfold trial rounds oneRound at hx
  rw [Mlflow.C108_first_call store su.experiment e.freshId hn hid hne] at hx
  cases hx
  exact ⟨_, rfl, rfl, _, List.mem_append_right _ (List.mem_singleton_self _), rfl⟩

theorem drawn_sensible {space : List (String × Dim)} {lo hi : ℕ} {a b : ℚ}
    (hmax : space.lookup "n_max_rules" = some (.randint lo hi)) (hl : space.lookup "lambd" = some (.logUniform a b))
    (ht : space.lookup "n_tails_per_iter" = none) (hh : space.lookup "n_heads_per_tail" = none)
    (hf : space.lookup "min_feature_proba" = none ∨ ∃ q, space.lookup "min_feature_proba" = some (.const (.float q)))
    (hb : space.lookup "min_label_proba" = none ∨ ∃ q, space.lookup "min_label_proba" = some (.const (.float q)))
    {config : Config} (hd : Drawn space config) : ∃ k, lo ≤ k ∧ k < hi ∧ Sensible config k := by
  have h1 := hd "n_max_rules"
  have h2 := hd "lambd"
  have h3 := hd "n_tails_per_iter"
  have h4 := hd "n_heads_per_tail"
  have h5 := hd "min_feature_proba"
  have h6 := hd "min_label_proba"
  rw [hmax] at h1
  rw [hl] at h2
  rw [ht] at h3
  rw [hh] at h4
  obtain ⟨v, hv, n, rfl, hn1, hn2⟩ := h1
  obtain ⟨v', hv', q, rfl, -, -⟩ := h2
  refine ⟨n, hn1, hn2, ?_, ⟨100, by norm_num, ?_⟩, ⟨10, by norm_num, ?_⟩, ⟨q, ?_⟩, ?_, ?_⟩
  · simp [Config.get, hv]
  · have h3 : config "n_tails_per_iter" = none := h3
    simp [Config.get, h3]
  · have h4 : config "n_heads_per_tail" = none := h4
    simp [Config.get, h4]
  · simp [Config.get, hv']
  · rcases hf with hf | ⟨q', hf⟩
    · rw [hf] at h5
      have h5 : config "min_feature_proba" = none := h5
      exact ⟨_, by rw [Config.get, h5]; rfl⟩
    · rw [hf] at h5
      obtain ⟨v, hv, rfl⟩ := h5
      exact ⟨q', by rw [Config.get, hv]; rfl⟩
  · rcases hb with hf | ⟨q', hf⟩
    · rw [hf] at h6
      have h6 : config "min_label_proba" = none := h6
      exact ⟨_, by rw [Config.get, h6]; rfl⟩
    · rw [hf] at h6
      obtain ⟨v, hv, rfl⟩ := h6
      exact ⟨q', by rw [Config.get, hv]; rfl⟩

/-- The numbers of rules that are tried for a data set: at least the first, less than the second. -/
def ruleRange : List (String × ℕ × ℕ) :=
  [("toy", 2, 5), ("emotions", 5, 50), ("mediamill", 20, 100), ("birds", 5, 50), ("enron", 10, 50), ("bibtex", 50, 150),
    ("medical", 10, 50)]

/-- **C111.** Every configuration that a trial of one of the seven data sets may be given is sensible, whatever the search
algorithm chooses, and asks for a number of rules in the stated range; for `cal500` and for every other name there are no
trials. -/
theorem C111_search_space (dataset : String) :
    (∀ lo hi, (dataset, lo, hi) ∈ ruleRange → ∃ space, searchSpace dataset = .ok space ∧
      ∀ config, Drawn space config → ∃ k, lo ≤ k ∧ k < hi ∧ Sensible config k) ∧
    ((∀ lo hi, (dataset, lo, hi) ∉ ruleRange) → searchSpace dataset =
      if dataset = "cal500" then .error .exception else .error .unboundLocalError) := by
  constructor
  · intro lo hi h
    simp only [ruleRange, List.mem_cons, Prod.mk.injEq, List.not_mem_nil, or_false] at h
    rcases h with ⟨rfl, rfl, rfl⟩ | ⟨rfl, rfl, rfl⟩ | ⟨rfl, rfl, rfl⟩ | ⟨rfl, rfl, rfl⟩ | ⟨rfl, rfl, rfl⟩ |
      ⟨rfl, rfl, rfl⟩ | ⟨rfl, rfl, rfl⟩
    · exact ⟨_, rfl, fun config hd => drawn_sensible rfl rfl rfl rfl (Or.inl rfl) (Or.inl rfl) hd⟩
    · exact ⟨_, rfl, fun config hd => drawn_sensible rfl rfl rfl rfl (Or.inl rfl) (Or.inl rfl) hd⟩
    · exact ⟨_, rfl, fun config hd => drawn_sensible rfl rfl rfl rfl (Or.inr ⟨_, rfl⟩) (Or.inr ⟨_, rfl⟩) hd⟩
    · exact ⟨_, rfl, fun config hd => drawn_sensible rfl rfl rfl rfl (Or.inr ⟨_, rfl⟩) (Or.inr ⟨_, rfl⟩) hd⟩
    · exact ⟨_, rfl, fun config hd => drawn_sensible rfl rfl rfl rfl (Or.inr ⟨_, rfl⟩) (Or.inl rfl) hd⟩
    · exact ⟨_, rfl, fun config hd => drawn_sensible rfl rfl rfl rfl (Or.inr ⟨_, rfl⟩) (Or.inr ⟨_, rfl⟩) hd⟩
    · exact ⟨_, rfl, fun config hd => drawn_sensible rfl rfl rfl rfl (Or.inl rfl) (Or.inl rfl) hd⟩
  · intro h
    have hne : ∀ d lo hi, (d, lo, hi) ∈ ruleRange → dataset ≠ d := fun d lo hi hm e => h lo hi (e ▸ hm)
    unfold searchSpace
    rw [if_neg (hne "toy" 2 5 (by decide)), if_neg (hne "emotions" 5 50 (by decide)),
      if_neg (hne "mediamill" 20 100 (by decide)), if_neg (hne "birds" 5 50 (by decide))]
    split
    · rfl
    · rw [if_neg (hne "enron" 10 50 (by decide)), if_neg (hne "bibtex" 50 150 (by decide)),
        if_neg (hne "medical" 10 50 (by decide))]

/-- **C111.** A trial can report: if the part trained on has a label, is not troublesome and has no label that is true of
every record, in every round, then some random choices lead to a report. -/
theorem C111_can_report (w : World) (str : PyVal → String) (su : Setup) (datadir : Text) (k fuel : ℕ)
    (hc : Sensible su.config (k + 1)) (hv : su.version = "v2" ∨ su.version = "v3") (hfuel : k + 1 < fuel)
    (es : List RoundEnv) (he : ∀ e ∈ es, GoodRound w datadir su.dataset e) (store : Store)
    (hst : Mlflow.Distinct store) (ex : Mlflow.Experiment) (hex : ex ∈ store) (hname : ex.name = su.experiment)
    (hgood : ∀ e ∈ es, ∀ ds, Ours su datadir ds → ∃ ds' X Y, (Load.load w e.perm ds).Outcome (.ok (.ok (), ds')) ∧
      ds'.data.trnX = some X ∧ ds'.data.trnY = some Y ∧ ¬ Troublesome X Y ∧ ¬ EverywhereTrue Y ∧
      ∃ i l, HasOne Y i l) :
    ∃ report s, (trial w str su datadir fuel es store).Outcome (.ok (some (.ok report, s))) := by
  have hi : ∀ j, Mlflow.getExperimentIdByName j store su.experiment = (.ok ex.id, store) :=
    fun j => hname ▸ Mlflow.C108_known store hst ex hex j
  have hround : ∀ e ∈ es, ∀ s : State, s.store = store → Ours su datadir s.ds →
      ∃ s' : State, (oneRound w str su fuel e s).Outcome (.ok (some (.ok (), s'))) ∧ s'.store = store ∧
        Ours su datadir s'.ds := by
    intro e hem s hs ho
    have hf : ∀ f, (Load.fetch w s.ds.datadir s.ds.name).Outcome (.ok f) → GoodData f e.env.depth := by
      rw [ho.name, ho.datadir]; exact (he e hem).data
    obtain ⟨ds', X, Y, hl, hX, hY, h1, h2, h3⟩ := hgood e hem s.ds ho
    obtain ⟨o, perf, -, hout⟩ := C107_can_return w e.perm (he e hem).perm e.env (he e hem).env s.ds hf su.config k hc
      su.version hv true (fun _ => ho.split) fuel hfuel ds' hl X Y hX hY h1 h2 h3
    rw [train_eq, RandR.outcome_bind] at hout
    rcases hout with ⟨ds1, hl1, ha⟩ | ⟨_, -, h⟩
    swap
    · cases h
    have hl2 := hl1
    rw [outcome_loadOrRaise] at hl2
    rcases hl2 with ⟨ds2, hl2, h⟩ | ⟨_, _, -, h⟩
    swap
    · cases h
    cases h
    refine ⟨⟨ds1, store, s.runs ++ [⟨ex.id, s.ds.name, su.version, paramsSpec str su.config, perf, true⟩],
      s.perfs ++ [perf]⟩, ?_, rfl, ho.load (he e hem).perm hl2⟩
    unfold oneRound
    rw [hs, hi]
    simp only
    rw [RandR.bind_eq, RandR.outcome_bind]
    refine Or.inl ⟨.ok (ds1, some (perf, paramsSpec str su.config)), ?_, rfl⟩
    rw [outcome_attempt]
    refine ⟨_, ?_, rfl⟩
    rw [RandR.bind_eq, RandR.outcome_bind]
    refine Or.inl ⟨ds1, hl1, ?_⟩
    rw [RandR.bind_eq, RandR.outcome_bind]
    refine Or.inl ⟨some (o, perf), ha, ?_⟩
    rw [loggedParams_eq str su.config su.version hv]
    rfl
  have hrounds : ∀ (es' : List RoundEnv), (∀ e ∈ es', e ∈ es) → ∀ s : State, s.store = store → Ours su datadir s.ds →
      ∃ s' : State, (rounds w str su fuel es' s).Outcome (.ok (some (.ok (), s'))) := by
    intro es'
    induction es' with
    | nil => intro _ s _ _; exact ⟨s, rfl⟩
    | cons e es' ih =>
      intro hsub s hs ho
      obtain ⟨s', h1, h2, h3⟩ := hround e (hsub e (by simp)) s hs ho
      obtain ⟨s'', h4⟩ := ih (fun e' h => hsub e' (by simp [h])) s' h2 h3
      refine ⟨s'', ?_⟩
      unfold rounds
      rw [RandR.bind_eq, RandR.outcome_bind]
      exact Or.inl ⟨_, h1, h4⟩
  obtain ⟨s, hs⟩ := hrounds es (fun _ h => h) ⟨newSplit su.dataset datadir, store, [], []⟩ rfl ⟨rfl, rfl, rfl, rfl⟩
  refine ⟨meanPerf s.perfs, s, ?_⟩
  unfold trial
  rw [RandR.bind_eq, RandR.outcome_bind]
  exact Or.inl ⟨_, hs, rfl⟩

/-! ### Non-triviality -/

/-- The environment of a round in which nothing is shuffled. -/
noncomputable def plainRound : RoundEnv := ⟨List.range, someLearnEnv 10, "1"⟩

/-- A trial on the four records of `eyeMat`. -/
def eyeSetup : Setup := ⟨"tune_greedy_v3", eyeObj.name, "v3", fun _ => none⟩

theorem eye_rounds (e : RoundEnv) (h : e ∈ List.replicate 10 plainRound) :
    GoodRound eyeWorld eyeObj.datadir eyeSetup.dataset e :=
  List.eq_of_mem_replicate h ▸ ⟨fun n => .refl _, someLearnEnv_good 10, eye_good⟩

/-- It can report. -/
theorem eye_reports : ∃ report s, (trial eyeWorld (fun _ => "") eyeSetup eyeObj.datadir 20 (List.replicate 10 plainRound)
    [⟨"1", "tune_greedy_v3"⟩]).Outcome (.ok (some (.ok report, s))) := by
  refine C111_can_report eyeWorld (fun _ => "") eyeSetup eyeObj.datadir 9 20 sensible_default (Or.inr rfl) (by decide) _
    eye_rounds _ (by simp [Mlflow.Distinct]) ⟨"1", "tune_greedy_v3"⟩ (by simp) rfl ?_
  intro e he ds ho
  rw [List.eq_of_mem_replicate he]
  obtain ⟨name, datadir, ⟨split, ratio, a1, a2, a3, a4, a5, a6⟩, b1, b2, b3, b4, b5⟩ := ds
  obtain ⟨h1, h2, h3, h4⟩ := ho
  simp only at h1 h2 h3 h4
  subst h1 h2 h3 h4
  let ds₀ : Obj := ⟨eyeSetup.dataset, eyeObj.datadir, ⟨true, 7 / 10, a1, a2, a3, a4, a5, a6⟩, b1, b2, b3, b4, b5⟩
  let f : Load.Fetched := ⟨eyeMat, eyeMat, eyeMat, eyeMat, ["c".toList, "d".toList].map .text,
    ["a".toList, "b".toList].map .text⟩
  have hset : ds₀.data.setData List.range f.trnX f.trnY f.tstX f.tstY = (.ok (), ⟨true, 7 / 10,
      some ⟨[[1, 0], [0, 1]], 2⟩, some ⟨[[1, 0], [0, 1]], 2⟩, some eyeMat, some eyeMat,
      some ⟨[[1, 0], [0, 1]], 2⟩, some ⟨[[1, 0], [0, 1]], 2⟩⟩) := by
    have hsplit : trainTestSplit List.range eyeMat eyeMat (7 / 10) = .ok (⟨[[1, 0], [0, 1]], 2⟩,
        ⟨[[1, 0], [0, 1]], 2⟩, ⟨[[1, 0], [0, 1]], 2⟩, ⟨[[1, 0], [0, 1]], 2⟩) := by decide +kernel
    have : ds₀.data.setData List.range f.trnX f.trnY f.tstX f.tstY =
        DatasetObj.splitTrainIfNeeded List.range ⟨true, 7 / 10, some eyeMat, some eyeMat, some eyeMat, some eyeMat, a5,
          a6⟩ := rfl
    rw [this]
    unfold DatasetObj.splitTrainIfNeeded
    simp only [if_true, attr, hsplit]
  refine ⟨(Load.finish List.range ds₀ f).2, ⟨[[1, 0], [0, 1]], 2⟩, ⟨[[1, 0], [0, 1]], 2⟩,
    (Load.outcome_load _ _ _ _).2 (Or.inr ⟨f, rfl, congrArg Except.ok (Prod.ext ?_ rfl)⟩), ?_, ?_,
    eye_not_troublesome, ?_, ⟨0, 0, _, rfl, rfl⟩⟩
  · change .ok () = (ds₀.data.setData List.range f.trnX f.trnY f.tstX f.tstY).1
    rw [hset]
  · change (ds₀.data.setData List.range f.trnX f.trnY f.tstX f.tstY).2.trnX = _
    rw [hset]
  · change (ds₀.data.setData List.range f.trnX f.trnY f.tstX f.tstY).2.trnY = _
    rw [hset]
  · rintro ⟨l, h⟩
    obtain ⟨r, h0, e0⟩ := h 0 (by decide)
    obtain ⟨r', h1, e1⟩ := h 1 (by decide)
    simp at h0 h1
    subst h0 h1
    rcases l with _ | _ | l <;> simp at e0 e1

/-- Ten rounds on the four records of `eyeMat`. -/
example (x : Py (Option (Py Perf × State)))
    (hx : (trial eyeWorld (fun _ => "") eyeSetup eyeObj.datadir 20
      (List.replicate 10 plainRound) [⟨"1", "tune_greedy_v3"⟩]).Outcome x) :
    ∃ res s, x = .ok (some (res, s)) ∧ s.runs.length ≤ 10 ∧ ∀ report, res = .ok report → s.runs.length = 10 := by
  obtain ⟨rs, res, s, rfl, -, -, ⟨hl, rfl, hr⟩ | ⟨hl, err, -, rfl, hr⟩⟩ :=
    C111_outcomes eyeWorld (fun _ => "") eyeSetup eyeObj.datadir 10 20
      sensible_default (Or.inr rfl) (by decide) (List.replicate 10 plainRound) (by simp) eye_rounds
      [⟨"1", "tune_greedy_v3"⟩] (by simp [Mlflow.Distinct]) ⟨"1", "tune_greedy_v3"⟩ (by simp) rfl x hx
  · exact ⟨_, s, rfl, by simp [hr, hl], fun _ _ => by simp [hr, hl]⟩
  · refine ⟨_, s, rfl, ?_, fun _ h => by cases h⟩
    simp only [List.length_replicate] at hl
    simp [hr]
    omega

end Tune

end Verif
