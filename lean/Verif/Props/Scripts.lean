/-
The scripts that run experiments: C114.
-/
import Verif.Spec.Scripts
import Verif.Props.Tune

namespace Verif

namespace Scripts

open Pipeline Tune
open Load (Mat Obj World)
open Arff (Text)
open Mlflow (Store)

/-- What loading a data set that is not to be split gives. -/
theorem load_plain {w : World} {perm : ℕ → List ℕ} (hperm : ∀ n, (perm n).Perm (List.range n)) {name datadir : Text}
    {ds' : Obj} (hl : (Load.load w perm (newDataset name datadir)).Outcome (.ok (.ok (), ds'))) :
    ∃ f, (Load.fetch w datadir name).Outcome (.ok f) ∧ ds'.data.trnX = some f.trnX ∧ ds'.data.trnY = some f.trnY ∧
      ds'.data.tstX = some f.tstX ∧ ds'.data.tstY = some f.tstY := by
  rw [Load.outcome_load] at hl
  rcases hl with ⟨e, -, hl⟩ | ⟨f, hf, hl⟩
  · cases hl
  injection hl with hl
  unfold Load.finish at hl
  injection hl with h1 h2
  have e := (C78_no_split perm (newDataset name datadir).data f.trnX f.trnY f.tstX f.tstY rfl h1.symm).1
  rw [e] at h2
  subst h2
  exact ⟨f, hf, rfl, rfl, rfl, rfl⟩

theorem load_plain_error {w : World} {perm : ℕ → List ℕ} (hperm : ∀ n, (perm n).Perm (List.range n))
    {name datadir : Text} {ds' : Obj} {e : PyErr}
    (hl : (Load.load w perm (newDataset name datadir)).Outcome (.ok (.error e, ds'))) : WhyNot w datadir name e := by
  rw [Load.outcome_load] at hl
  rcases hl with ⟨e', he, hl⟩ | ⟨f, hf, hl⟩
  · cases hl
    exact Or.inl he
  · injection hl with hl
    unfold Load.finish at hl
    injection hl with h1 h2
    rcases (C78_failure_state perm hperm (newDataset name datadir).data f.trnX f.trnY f.tstX f.tstY e h1.symm).2 with
      ⟨rfl, h⟩ | ⟨-, -, h, -⟩
    · refine Or.inr ⟨f, hf, Or.inl ⟨rfl, ?_⟩⟩
      by_contra hc
      push Not at hc
      exact h ⟨hc.1, hc.2.1, hc.2.2.1, hc.2.2.2⟩
    · cases h

/-- Every outcome of training on the training records and scoring on the test records. -/
theorem train_plain {w : World} {datadir dataset : Text} {config : Config} {k fuel : ℕ} (hc : Sensible config k)
    {version : String} (hv : version = "v2" ∨ version = "v3") (hfuel : k < fuel) {e : RoundEnv}
    (he : GoodRound w datadir dataset e) {x : Py (Option (LearnObj × Perf))}
    (hx : (trainGreedyAndEval w e.perm e.env (newDataset dataset datadir) config (some version) false fuel).Outcome x) :
    (∃ o perf, ScoresOn w datadir dataset k perf ∧ x = .ok (some (o, perf))) ∨
      ∃ err, WhyNot w datadir dataset err ∧ x = .error err := by
  rcases C107_outcomes w e.perm he.perm e.env he.env (newDataset dataset datadir) he.data config k hc version hv false fuel
    hfuel x hx with ⟨err, ds', hl, rfl⟩ | ⟨ds', X, Y, hl, hX, hY, h⟩
  · exact Or.inr ⟨err, load_plain_error he.perm hl, rfl⟩
  · obtain ⟨f, hf, e1, e2, e3, e4⟩ := load_plain he.perm hl
    obtain rfl := Option.some.inj (hX.symm.trans e1)
    obtain rfl := Option.some.inj (hY.symm.trans e2)
    rcases h with ⟨o, X', Y', hev, hlf, rfl⟩ | ⟨rfl, h⟩ | ⟨rfl, h⟩ | ⟨-, h, -⟩
    · simp only [Evaluated, Bool.false_eq_true, if_false, e3, e4, Option.some.injEq] at hev
      obtain ⟨rfl, rfl⟩ := hev
      exact Or.inl ⟨o, _, ⟨f, rulesOf o, hf, hlf, rfl⟩, rfl⟩
    · exact Or.inr ⟨_, Or.inr ⟨f, hf, Or.inr (Or.inl ⟨rfl, h⟩)⟩, rfl⟩
    · exact Or.inr ⟨_, Or.inr ⟨f, hf, Or.inr (Or.inr ⟨rfl, h⟩)⟩, rfl⟩
    · cases h

/-- **C114.** A call binds exactly when it has not more positional arguments than there are parameters, every keyword names a
parameter after those, and every parameter after those that has no default value is given by keyword. -/
theorem C114_binding (ps : List Parameter) (npos : ℕ) (kws : List String) :
    (bindCall ps npos kws = .ok () ↔ npos ≤ ps.length ∧
      (∀ k ∈ kws, ∃ i, npos ≤ i ∧ ∃ p, ps[i]? = some p ∧ p.1 = k) ∧
      ∀ i p, npos ≤ i → ps[i]? = some p → p.2 = false → p.1 ∈ kws) ∧
    (bindCall ps npos kws ≠ .ok () → bindCall ps npos kws = .error .typeError) := by
  have hmem : ∀ p, p ∈ ps.drop npos ↔ ∃ i, npos ≤ i ∧ ps[i]? = some p := by
    intro p
    rw [List.mem_iff_getElem?]
    constructor
    · rintro ⟨i, hi⟩
      rw [List.getElem?_drop] at hi
      exact ⟨npos + i, by omega, hi⟩
    · rintro ⟨i, hi, h⟩
      exact ⟨i - npos, by rw [List.getElem?_drop, show npos + (i - npos) = i by omega]; exact h⟩
  unfold bindCall
  by_cases h1 : ps.length < npos
  · rw [if_pos h1]
    refine ⟨⟨fun h => (by cases h), fun h => absurd h1 (by omega)⟩, fun _ => rfl⟩
  rw [if_neg h1]
  by_cases h2 : ∃ k ∈ kws, k ∉ (ps.drop npos).map Prod.fst
  · rw [if_pos h2]
    refine ⟨⟨fun h => (by cases h), fun h => ?_⟩, fun _ => rfl⟩
    obtain ⟨k, hk, hn⟩ := h2
    obtain ⟨i, hi, p, hp, rfl⟩ := h.2.1 k hk
    exact absurd (List.mem_map_of_mem ((hmem p).mpr ⟨i, hi, hp⟩)) hn
  rw [if_neg h2]
  by_cases h3 : ∃ p ∈ ps.drop npos, p.2 = false ∧ p.1 ∉ kws
  · rw [if_pos h3]
    refine ⟨⟨fun h => (by cases h), fun h => ?_⟩, fun _ => rfl⟩
    obtain ⟨p, hp, hd, hn⟩ := h3
    obtain ⟨i, hi, hp⟩ := (hmem p).mp hp
    exact absurd (h.2.2 i p hi hp hd) hn
  rw [if_neg h3]
  refine ⟨⟨fun _ => ⟨by omega, fun k hk => ?_, fun i p hi hp hd => ?_⟩, fun _ => rfl⟩, fun h => absurd rfl h⟩
  · push Not at h2
    obtain ⟨p, hp, rfl⟩ := List.mem_map.mp (h2 k hk)
    obtain ⟨i, hi, hp⟩ := (hmem p).mp hp
    exact ⟨i, hi, p, hp, rfl⟩
  · push Not at h3
    exact h3 p ((hmem p).mpr ⟨i, hi, hp⟩) hd

/-- **C114.** A job of `train_greedy_and_eval.py` or `effect_of_min_feature_proba.py`, when its experiment exists, adds exactly
one record to the store: of a completed run, with the scores on the test records of rules learned from the training records; or of a
failed run, and then the job raises for one of the stated causes. -/
theorem C114_job (w : World) (str : PyVal → String) (su : Setup) (datadir : Text) (k fuel : ℕ) (hc : Sensible su.config k)
    (hv : su.version = "v2" ∨ su.version = "v3") (hfuel : k < fuel) (e : RoundEnv)
    (he : GoodRound w datadir su.dataset e) (t : Tracking) (hst : Mlflow.Distinct t.store) (ex : Mlflow.Experiment)
    (hex : ex ∈ t.store) (hname : ex.name = su.experiment) (x : Py (Option (Py Unit × Tracking)))
    (hx : (job w str su datadir fuel e t).Outcome x) :
    (∃ r, Completed w str su datadir ex.id k r ∧ x = .ok (some (.ok (), ⟨t.store, t.runs ++ [r]⟩))) ∨
    ∃ err, WhyNot w datadir su.dataset err ∧
      x = .ok (some (.error err, ⟨t.store, t.runs ++ [failedRun ex.id su.dataset su.version]⟩)) := by
  have hi : Mlflow.getExperimentIdByName e.freshId t.store su.experiment = (.ok ex.id, t.store) :=
    hname ▸ Mlflow.C108_known t.store hst ex hex e.freshId
  have hb : bindCall trainParams 1 ["config", "greedy_version", "validation_mode"] = .ok () := by decide
  unfold job at hx
  rw [hi] at hx
  simp only at hx
  rw [RandR.bind_eq, RandR.outcome_bind] at hx
  simp only [outcome_attempt] at hx
  rcases hx with ⟨r, ⟨r', hr, e1⟩, hx⟩ | ⟨_, ⟨r', -, e1⟩, -⟩
  swap
  · cases e1
  cases e1
  rw [hb, outcome_lift_bind] at hr
  rcases hr with ⟨_, -, hr⟩ | ⟨_, h, -⟩
  swap
  · cases h
  rw [RandR.bind_eq, RandR.outcome_bind] at hr
  rcases hr with ⟨o, ho, hr⟩ | ⟨err, ho, rfl⟩
  · rcases train_plain hc hv hfuel he ho with ⟨o', perf, hs, h⟩ | ⟨_, -, h⟩
    swap
    · cases h
    cases h
    rw [loggedParams_eq str su.config su.version hv, outcome_lift_bind] at hr
    rcases hr with ⟨ps, hps, hr⟩ | ⟨_, h, -⟩
    swap
    · cases h
    cases hps
    cases hr
    left
    exact ⟨⟨ex.id, su.dataset, su.version, paramsSpec str su.config, perf, true⟩, ⟨rfl, rfl, rfl, rfl, hs, rfl⟩, hx⟩
  · rcases train_plain hc hv hfuel he ho with ⟨_, _, -, h⟩ | ⟨err', hw, h⟩
    · cases h
    cases h
    exact Or.inr ⟨err, hw, hx⟩

/-- **C114.** A job whose experiment does not exist fails with `AttributeError`, before anything is recorded; it leaves the
experiment behind. -/
theorem C114_unprepared (w : World) (str : PyVal → String) (su : Setup) (datadir : Text) (fuel : ℕ) (e : RoundEnv)
    (t : Tracking) (hn : ¬ Mlflow.Has t.store su.experiment) (hid : ¬ Mlflow.Has t.store e.freshId)
    (hne : e.freshId ≠ su.experiment) (x : Py (Option (Py Unit × Tracking)))
    (hx : (job w str su datadir fuel e t).Outcome x) :
    ∃ t', x = .ok (some (.error .attributeError, t')) ∧ t'.runs = t.runs ∧ Mlflow.Has t'.store su.experiment := by
  unfold job at hx
  rw [Mlflow.C108_first_call t.store su.experiment e.freshId hn hid hne] at hx
  cases hx
  exact ⟨_, rfl, rfl, _, List.mem_append_right _ (List.mem_singleton_self _), rfl⟩

/-- **C114.** All jobs of `train_greedy_and_eval.py` have the same sensible configuration and version 3: one job for the toy
data, eight otherwise. It asks for the stated number of rules, for data sets that are not in the table for ten. -/
theorem C114_train_jobs (ds : String) :
    (trainJobs ds).length = (if ds = "toy" then 1 else 8) ∧
    ∀ su ∈ trainJobs ds, su.dataset = ds.toList ∧ su.version = "v3" ∧
      su.experiment = (if ds = "toy" then "greedy_debug" else "greedy") ∧
      Sensible su.config ((trainLimits.lookup ds).getD 10) := by
  by_cases h1 : ds = "toy"
  · subst h1
    exact ⟨rfl, by
      intro su hsu
      obtain rfl := List.eq_of_mem_replicate hsu
      exact ⟨rfl, rfl, rfl, rfl, ⟨10, by decide, rfl⟩, ⟨1, by decide, rfl⟩, ⟨_, rfl⟩, ⟨_, rfl⟩, ⟨_, rfl⟩⟩⟩
  by_cases h2 : ds = "bibtex"
  · subst h2
    exact ⟨rfl, by
      intro su hsu
      obtain rfl := List.eq_of_mem_replicate hsu
      exact ⟨rfl, rfl, rfl, rfl, ⟨1000, by decide, rfl⟩, ⟨10, by decide, rfl⟩, ⟨_, rfl⟩, ⟨_, rfl⟩, ⟨_, rfl⟩⟩⟩
  by_cases h3 : ds = "medical"
  · subst h3
    exact ⟨rfl, by
      intro su hsu
      obtain rfl := List.eq_of_mem_replicate hsu
      exact ⟨rfl, rfl, rfl, rfl, ⟨1000, by decide, rfl⟩, ⟨10, by decide, rfl⟩, ⟨_, rfl⟩, ⟨_, rfl⟩, ⟨_, rfl⟩⟩⟩
  by_cases h4 : ds = "emotions"
  · subst h4
    exact ⟨rfl, by
      intro su hsu
      obtain rfl := List.eq_of_mem_replicate hsu
      exact ⟨rfl, rfl, rfl, rfl, ⟨1000, by decide, rfl⟩, ⟨10, by decide, rfl⟩, ⟨_, rfl⟩, ⟨_, rfl⟩, ⟨_, rfl⟩⟩⟩
  by_cases h5 : ds = "birds"
  · subst h5
    exact ⟨rfl, by
      intro su hsu
      obtain rfl := List.eq_of_mem_replicate hsu
      exact ⟨rfl, rfl, rfl, rfl, ⟨1000, by decide, rfl⟩, ⟨10, by decide, rfl⟩, ⟨_, rfl⟩, ⟨_, rfl⟩, ⟨_, rfl⟩⟩⟩
  by_cases h6 : ds = "enron"
  · subst h6
    exact ⟨rfl, by
      intro su hsu
      obtain rfl := List.eq_of_mem_replicate hsu
      exact ⟨rfl, rfl, rfl, rfl, ⟨1000, by decide, rfl⟩, ⟨10, by decide, rfl⟩, ⟨_, rfl⟩, ⟨_, rfl⟩, ⟨_, rfl⟩⟩⟩
  by_cases h7 : ds = "mediamill"
  · subst h7
    exact ⟨rfl, by
      intro su hsu
      obtain rfl := List.eq_of_mem_replicate hsu
      exact ⟨rfl, rfl, rfl, rfl, ⟨1000, by decide, rfl⟩, ⟨10, by decide, rfl⟩, ⟨_, rfl⟩, ⟨_, rfl⟩, ⟨_, rfl⟩⟩⟩
  have hs : trainScript ds =
      ("greedy", dict [("n_tails_per_iter", .int 1000), ("n_heads_per_tail", .int 10)], 8) := by
    simp only [trainScript, h1, h2, h3, h4, h5, h6, h7, if_false]
  have hl : trainLimits.lookup ds = none := by
    simp [trainLimits, List.lookup, beq_eq_false_iff_ne.2 h1, beq_eq_false_iff_ne.2 h2, beq_eq_false_iff_ne.2 h3,
      beq_eq_false_iff_ne.2 h4, beq_eq_false_iff_ne.2 h5, beq_eq_false_iff_ne.2 h6, beq_eq_false_iff_ne.2 h7]
  unfold trainJobs
  simp only [hs, hl, if_neg h1]
  refine ⟨by simp, fun su hsu => ?_⟩
  obtain rfl := List.eq_of_mem_replicate hsu
  exact ⟨rfl, rfl, rfl, rfl, ⟨1000, by decide, rfl⟩, ⟨10, by decide, rfl⟩, ⟨_, rfl⟩, ⟨_, rfl⟩, ⟨_, rfl⟩⟩

/-- **C114.** For the four data sets of the table `effect_of_min_feature_proba.py` runs each threshold as often as stated, with
sensible configurations of version 2 that differ in the threshold only; for other data sets it starts no job. -/
theorem C114_feature_jobs (ds : String) :
    (∀ k n qs, (ds, k, n, qs) ∈ featureTable → ∃ jobs config, featureJobs ds = some jobs ∧ Sensible config k ∧
      jobs.length = n * qs.length ∧
      (∀ q ∈ qs, (jobs.filter fun su => su.config "min_feature_proba" = some (.float q)).length = n) ∧
      ∀ su ∈ jobs, su.dataset = ds.toList ∧ su.version = "v2" ∧ Sensible su.config k ∧
        su.experiment = "effect_of_min_feature_proba" ++ (if ds = "toy" then "_debug" else "") ∧
        (∃ q ∈ qs, su.config "min_feature_proba" = some (.float q)) ∧
        ∀ key, key ≠ "min_feature_proba" → su.config key = config key) ∧
    ((∀ k n qs, (ds, k, n, qs) ∉ featureTable) → featureJobs ds = none) := by
  have key : ∀ (name : String) (config : Config) (qs : List ℚ) (n k : ℕ), qs.Nodup → Sensible config k →
      featureScript ds = some (name, config, qs, n) →
      name = "effect_of_min_feature_proba" ++ (if ds = "toy" then "_debug" else "") →
      ∃ jobs config, featureJobs ds = some jobs ∧ Sensible config k ∧ jobs.length = n * qs.length ∧
        (∀ q ∈ qs, (jobs.filter fun su => su.config "min_feature_proba" = some (.float q)).length = n) ∧
        ∀ su ∈ jobs, su.dataset = ds.toList ∧ su.version = "v2" ∧ Sensible su.config k ∧
          su.experiment = "effect_of_min_feature_proba" ++ (if ds = "toy" then "_debug" else "") ∧
          (∃ q ∈ qs, su.config "min_feature_proba" = some (.float q)) ∧
          ∀ key, key ≠ "min_feature_proba" → su.config key = config key := by
    intro name config qs n k hnd hc hs hname
    have hother : ∀ (q : ℚ) key, key ≠ "min_feature_proba" →
        Config.set config [("min_feature_proba", .float q)] key = config key := by
      intro q key hk
      simp [Config.set, updateDict, hk]
    have hown : ∀ q : ℚ, Config.set config [("min_feature_proba", .float q)] "min_feature_proba" = some (.float q) := by
      intro q
      simp [Config.set, updateDict]
    refine ⟨_, config, by rw [featureJobs, hs]; rfl, hc, ?_, ?_, ?_⟩
    · simp [List.length_flatMap]
    · intro q hq
      have hone : ((qs.map fun q' : ℚ => (⟨name, ds.toList, "v2",
          Config.set config [("min_feature_proba", .float q')]⟩ : Setup)).filter fun su =>
            su.config "min_feature_proba" = some (.float q)).length = 1 := by
        rw [List.filter_map, List.length_map]
        have : (fun q' : ℚ => q' == q) = ((fun su : Setup => decide (su.config "min_feature_proba" = some (.float q))) ∘
            fun q' : ℚ => (⟨name, ds.toList, "v2", Config.set config [("min_feature_proba", .float q')]⟩ : Setup)) := by
          funext q'
          simp only [Function.comp_apply, hown, Option.some.injEq, PyVal.float.injEq]
          by_cases h : q' = q <;> simp [h]
        rw [← this, ← List.countP_eq_length_filter]
        exact List.count_eq_one_of_mem hnd hq
      rw [List.filter_flatMap, List.length_flatMap]
      simp only [hone]
      simp
    · intro su hsu
      simp only [List.mem_flatMap, List.mem_map] at hsu
      obtain ⟨-, -, q, hq, rfl⟩ := hsu
      refine ⟨rfl, rfl, ?_, hname, ⟨q, hq, hown q⟩, hother q⟩
      obtain ⟨c1, c2, c3, c4, c5, c6⟩ := hc
      simp only [Config.get] at c1 c2 c3 c4 c5 c6
      refine ⟨?_, ?_, ?_, ?_, ⟨q, ?_⟩, ?_⟩ <;> simp only [Config.get]
      · rw [hother q _ (by decide)]; exact c1
      · rw [hother q _ (by decide)]; exact c2
      · rw [hother q _ (by decide)]; exact c3
      · rw [hother q _ (by decide)]; exact c4
      · rw [hown]; rfl
      · rw [hother q _ (by decide)]; exact c6
  constructor
  · intro k n qs h
    simp only [featureTable, List.mem_cons, Prod.mk.injEq, List.not_mem_nil, or_false] at h
    rcases h with ⟨rfl, rfl, rfl, rfl⟩ | ⟨rfl, rfl, rfl, rfl⟩ | ⟨rfl, rfl, rfl, rfl⟩ | ⟨rfl, rfl, rfl, rfl⟩
    · refine key "effect_of_min_feature_proba_debug" (Config.set
        (dict [("n_tails_per_iter", .int 1000), ("n_heads_per_tail", .int 10)]) [("n_tails_per_iter", .int 10), ("n_heads_per_tail", .int 1)]) _ _ _ (by norm_num)
        ⟨rfl, ⟨10, by decide, rfl⟩, ⟨1, by decide, rfl⟩, ⟨_, rfl⟩, ⟨_, rfl⟩, ⟨_, rfl⟩⟩ ?_ (by decide)
      norm_num [featureScript]
    · refine key "effect_of_min_feature_proba" (Config.set (dict [("n_tails_per_iter", .int 1000), ("n_heads_per_tail", .int 10)])
        [("lambd", .float (214 / 100)), ("n_max_rules", .int 85), ("min_label_proba", .float (5 / 10))]) _ _ _
        (by norm_num) ⟨rfl, ⟨1000, by decide, rfl⟩, ⟨10, by decide, rfl⟩, ⟨_, rfl⟩, ⟨_, rfl⟩, ⟨_, rfl⟩⟩ ?_ (by decide)
      norm_num [featureScript, (by decide : ¬ "bibtex" = "toy")]
    · refine key "effect_of_min_feature_proba" (Config.set (dict [("n_tails_per_iter", .int 1000), ("n_heads_per_tail", .int 10)])
        [("lambd", .float (4205799926225756 / 10 ^ 14)), ("n_max_rules", .int 40)]) _ _ _
        (by norm_num) ⟨rfl, ⟨1000, by decide, rfl⟩, ⟨10, by decide, rfl⟩, ⟨_, rfl⟩, ⟨_, rfl⟩, ⟨_, rfl⟩⟩ ?_ (by decide)
      norm_num [featureScript, (by decide : ¬ "medical" = "toy"), (by decide : ¬ "medical" = "bibtex")]
    · refine key "effect_of_min_feature_proba" (Config.set (dict [("n_tails_per_iter", .int 1000), ("n_heads_per_tail", .int 10)])
        [("lambd", .float (10092288035165227 / 10 ^ 16)), ("n_max_rules", .int 25)]) _ _ _
        (by norm_num) ⟨rfl, ⟨1000, by decide, rfl⟩, ⟨10, by decide, rfl⟩, ⟨_, rfl⟩, ⟨_, rfl⟩, ⟨_, rfl⟩⟩ ?_ (by decide)
      norm_num [featureScript, (by decide : ¬ "emotions" = "toy"), (by decide : ¬ "emotions" = "bibtex"),
        (by decide : ¬ "emotions" = "medical")]
  · intro h
    have h1 : ds ≠ "toy" := by rintro rfl; exact h _ _ _ (List.mem_cons_self ..)
    have h2 : ds ≠ "bibtex" := by rintro rfl; exact h _ _ _ (.tail _ (.head _))
    have h3 : ds ≠ "medical" := by rintro rfl; exact h _ _ _ (.tail _ (.tail _ (.head _)))
    have h4 : ds ≠ "emotions" := by rintro rfl; exact h _ _ _ (.tail _ (.tail _ (.tail _ (.head _))))
    simp only [featureJobs, featureScript, h1, h2, h3, h4, if_false, Option.map_none]

/-- **C114.** A job of `effect_of_n_heads_per_tail.py` returns its configuration, with the two numbers it was given, and the
scores on the test records of rules learned from the training records; or it raises for one of the stated causes. -/
theorem C114_heads_job (w : World) (datadir dataset : Text) (t h k fuel : ℕ) (ht : 0 < t) (hh : 0 < h) (config : Config)
    (hc : Sensible config k) (hfuel : k < fuel) (e : RoundEnv) (he : GoodRound w datadir dataset e)
    (x : Py (Option (Config × Perf))) (hx : (headsJob w datadir dataset config t h fuel e).Outcome x) :
    (∃ config' perf, x = .ok (some (config', perf)) ∧ config' "n_tails_per_iter" = some (.int t) ∧
      config' "n_heads_per_tail" = some (.int h) ∧
      (∀ key, key ≠ "n_tails_per_iter" → key ≠ "n_heads_per_tail" → config' key = config key) ∧
      ScoresOn w datadir dataset k perf) ∨
    ∃ err, WhyNot w datadir dataset err ∧ x = .error err := by
  have h1 : Config.set config [("n_tails_per_iter", .int t), ("n_heads_per_tail", .int h)] "n_tails_per_iter" =
    some (.int t) := by simp [Config.set, updateDict]
  have h2 : Config.set config [("n_tails_per_iter", .int t), ("n_heads_per_tail", .int h)] "n_heads_per_tail" =
    some (.int h) := by simp [Config.set, updateDict]
  have h3 : ∀ key, key ≠ "n_tails_per_iter" → key ≠ "n_heads_per_tail" →
      Config.set config [("n_tails_per_iter", .int t), ("n_heads_per_tail", .int h)] key = config key := by
    intro key k1 k2
    simp [Config.set, updateDict, k1, k2]
  have hc' : Sensible (Config.set config [("n_tails_per_iter", .int t), ("n_heads_per_tail", .int h)]) k := by
    obtain ⟨c1, c2, c3, c4, c5, c6⟩ := hc
    simp only [Config.get] at c1 c2 c3 c4 c5 c6
    refine ⟨?_, ⟨t, ht, ?_⟩, ⟨h, hh, ?_⟩, ?_, ?_, ?_⟩ <;> simp only [Config.get]
    · rw [h3 _ (by decide) (by decide)]; exact c1
    · rw [h1]; rfl
    · rw [h2]; rfl
    · rw [h3 _ (by decide) (by decide)]; exact c4
    · rw [h3 _ (by decide) (by decide)]; exact c5
    · rw [h3 _ (by decide) (by decide)]; exact c6
  unfold headsJob at hx
  simp only at hx
  rw [RandR.bind_eq, RandR.outcome_bind] at hx
  rcases hx with ⟨o, ho, hx⟩ | ⟨err, ho, rfl⟩
  · rw [(C107_train_and_eval w e.perm e.env _ _ fuel _).1] at ho
    rcases train_plain hc' (Or.inl rfl) hfuel he ho with ⟨o', perf, hs, h⟩ | ⟨_, -, h⟩
    swap
    · cases h
    cases h
    exact Or.inl ⟨_, perf, hx, h1, h2, h3, hs⟩
  · rw [(C107_train_and_eval w e.perm e.env _ _ fuel _).1] at ho
    rcases train_plain hc' (Or.inl rfl) hfuel he ho with ⟨_, _, -, h⟩ | ⟨err', hw, h⟩
    · cases h
    cases h
    exact Or.inr ⟨err, hw, rfl⟩

/-- **C114.** The configuration of `effect_of_n_heads_per_tail.py` is sensible, and it runs ten jobs with a thousand tails and
ten heads and ten jobs with ten tails and a thousand heads. -/
theorem C114_heads_jobs : Sensible headsConfig 44 ∧ headsJobs.length = 20 ∧
    (headsJobs.filter (· = (1000, 10))).length = 10 ∧ (headsJobs.filter (· = (10, 1000))).length = 10 :=
  ⟨⟨rfl, ⟨100, by decide, rfl⟩, ⟨10, by decide, rfl⟩, ⟨_, rfl⟩, ⟨_, rfl⟩, ⟨_, rfl⟩⟩, by decide, by decide, by decide⟩

/-- **C114.** The table of `effect_of_n_heads_per_tail.py`: when every job has returned, the values of a group are the scores of
the jobs that were given these two numbers. -/
theorem C114_heads_groups (jobs : List (ℤ × ℤ)) (results : List (Config × Perf)) (metric : String)
    (score : Config × Perf → ℚ) (hl : List.Forall₂ (fun j r => r.1 "n_tails_per_iter" = some (.int j.1) ∧
      r.1 "n_heads_per_tail" = some (.int j.2) ∧ r.2.lookup metric = some (some (score r))) jobs results) (t h : ℤ) :
    groupOf results metric t h = ((jobs.zip results).filter fun p => p.1 = (t, h)).map fun p => score p.2 := by
  unfold groupOf columnOf
  induction hl with
  | nil => rfl
  | @cons j r jobs results hj hl ih =>
    obtain ⟨j1, j2⟩ := j
    obtain ⟨h1, h2, h3⟩ := hj
    simp only at h1 h2
    simp only [List.zip_cons_cons, List.filter_cons, h1, h2, Option.some.injEq, PyVal.int.injEq, Prod.mk.injEq]
    by_cases hjt : j1 = t ∧ j2 = h
    · simp only [hjt, and_self, decide_true, if_true, List.map_cons, List.filterMap_cons, h3, Option.join_some]
      rw [ih]
    · simp only [hjt, decide_false, Bool.false_eq_true, if_false]
      exact ih

/-- **C114.** `effect_of_num_rules.py` never writes a file: for `toy`, `enron` and `medical` it ends with `TypeError`, for other
data sets it does not get as far as starting a job. -/
theorem C114_num_rules (w : World) (datadir : Text) (ds : String) (envs : ℕ → RoundEnv) (fuel : ℕ) (files : Files)
    (x : Py (Option Files)) (hx : (rulesMain w datadir ds envs fuel files).Outcome x) :
    x = if ds ∈ ["toy", "enron", "medical"] then .error .typeError else .error .exception := by
  have hb : bindCall trainParams 1 ["config", "n_repeats"] = .error .typeError := by decide
  have hall : ∀ (d : Text) (c : Config) (n : ℤ) (e : RoundEnv) (rest : List (ℤ × RoundEnv)) (y : Py (List (Option Perf))),
      (rulesAll w datadir d c fuel ((n, e) :: rest)).Outcome y → y = .error .typeError := by
    intro d c n e rest y hy
    unfold rulesAll at hy
    rw [RandR.bind_eq, RandR.outcome_bind] at hy
    have hj : ∀ z, (rulesJob w datadir d n c fuel e).Outcome z → z = .error .typeError := by
      intro z hz
      unfold rulesJob at hz
      rw [hb, outcome_lift_bind] at hz
      rcases hz with ⟨_, h, -⟩ | ⟨_, h, rfl⟩
      · cases h
      · cases h
        rfl
    rcases hy with ⟨z, hz, -⟩ | ⟨err, hz, rfl⟩
    · cases hj _ hz
    · cases hj _ hz
      rfl
  have hmain : ∀ s, rulesScript ds = some s → (∃ n e rest, rulesJobs s envs = (n, e) :: rest) → x = .error .typeError := by
    rintro s hs ⟨n, e, rest, hjobs⟩
    unfold rulesMain at hx
    rw [hs] at hx
    simp only [hjobs] at hx
    rw [RandR.bind_eq, RandR.outcome_bind] at hx
    rcases hx with ⟨z, hz, -⟩ | ⟨err, hz, rfl⟩
    · cases hall _ _ _ _ _ _ hz
    · cases hall _ _ _ _ _ _ hz
      rfl
  by_cases h1 : ds = "toy"
  · subst h1
    rw [if_pos (by decide)]
    exact hmain _ rfl ⟨_, _, _, rfl⟩
  by_cases h2 : ds = "enron"
  · subst h2
    rw [if_pos (by decide)]
    exact hmain _ rfl ⟨_, _, _, rfl⟩
  by_cases h3 : ds = "medical"
  · subst h3
    rw [if_pos (by decide)]
    exact hmain _ rfl ⟨_, _, _, rfl⟩
  rw [if_neg (by simp [h1, h2, h3])]
  have hs : rulesScript ds = none := by simp only [rulesScript, h1, h2, h3, if_false]
  unfold rulesMain at hx
  rw [hs] at hx
  exact hx

/-- **C114.** `tune_and_eval.py` never writes test scores, whatever tuning has chosen: for data sets without search space it stops
before tuning; otherwise reading the data fails, or the call fails with `AssertionError`. -/
theorem C114_tune_and_eval (w : World) (datadir root : Text) (ds : String) (best : Config) (fuel : ℕ) (e : RoundEnv)
    (hperm : ∀ n, (e.perm n).Perm (List.range n)) (files : Files) (x : Py (Option Files))
    (hx : (tuneAndEval w datadir root ds best fuel e files).Outcome x) :
    ((∀ lo hi, (ds, lo, hi) ∉ ruleRange) ∧
      x = if ds = "cal500" then .error .exception else .error .unboundLocalError) ∨
    (∃ lo hi, (ds, lo, hi) ∈ ruleRange) ∧
      ((∃ err, (Load.fetch w datadir ds.toList).Outcome (.error err) ∧ x = .error err) ∨ x = .error .assertionError) := by
  have hb : bindCall trainParams 3 [] = .ok () := by decide
  unfold tuneAndEval at hx
  rw [outcome_lift_bind] at hx
  by_cases hr : ∃ lo hi, (ds, lo, hi) ∈ ruleRange
  · obtain ⟨lo, hi, hr⟩ := hr
    right
    refine ⟨⟨lo, hi, hr⟩, ?_⟩
    obtain ⟨space, hs, -⟩ := (C111_search_space ds).1 lo hi hr
    rw [hs] at hx
    rcases hx with ⟨_, -, hx⟩ | ⟨_, h, -⟩
    swap
    · cases h
    rw [hb, outcome_lift_bind] at hx
    rcases hx with ⟨_, -, hx⟩ | ⟨_, h, -⟩
    swap
    · cases h
    rw [RandR.bind_eq, RandR.outcome_bind] at hx
    have key : ∀ y, (trainGreedyAndEval w e.perm e.env (newDataset ds.toList datadir) best none false fuel).Outcome y →
        (∃ err, (Load.fetch w datadir ds.toList).Outcome (.error err) ∧ y = .error err) ∨ y = .error .assertionError := by
      intro y hy
      rcases (C107_bad_version w e.perm e.env _ best none ⟨by simp, by simp⟩ false fuel y).1 hy with
        ⟨err, ds', hl, rfl⟩ | ⟨-, rfl⟩
      · rw [Load.outcome_load] at hl
        rcases hl with ⟨err', he, hl⟩ | ⟨f, hf, hl⟩
        · cases hl
          exact Or.inl ⟨err, he, rfl⟩
        · injection hl with hl
          unfold Load.finish at hl
          injection hl with h1 h2
          rcases (C78_failure_state e.perm hperm (newDataset ds.toList datadir).data f.trnX f.trnY f.tstX f.tstY err
            h1.symm).2 with ⟨rfl, -⟩ | ⟨-, -, h, -⟩
          · exact Or.inr rfl
          · cases h
      · exact Or.inr rfl
    rcases hx with ⟨y, hy, -⟩ | ⟨err, hy, rfl⟩
    · rcases key _ hy with ⟨_, -, h⟩ | h <;> cases h
    · rcases key _ hy with ⟨err', he, h⟩ | h
      · cases h
        exact Or.inl ⟨err, he, rfl⟩
      · cases h
        exact Or.inr rfl
  · left
    push Not at hr
    refine ⟨hr, ?_⟩
    have hs := (C111_search_space ds).2 hr
    rw [hs] at hx
    rcases hx with ⟨_, h, -⟩ | ⟨err, h, rfl⟩
    · split at h <;> cases h
    · split at h <;> cases h
      · exact (if_pos ‹_›).symm
      · exact (if_neg ‹_›).symm

/-! ### Non-triviality -/

/-- A job of `train_greedy_and_eval.py` on the four records of `eyeMat`. -/
example (x : Py (Option (Py Unit × Tracking)))
    (hx : (job eyeWorld (fun _ => "v") ⟨"greedy", "eye".toList, "v3", (trainScript "eye").2.1⟩ "./data".toList 20 plainRound
      ⟨[⟨"7", "greedy"⟩], []⟩).Outcome x) :
    ∃ res t, x = .ok (some (res, t)) ∧ t.runs.length = 1 ∧ ∀ r ∈ t.runs, r.experiment = "7" := by
  have hsu := (C114_train_jobs "eye").2 ⟨"greedy", "eye".toList, "v3", (trainScript "eye").2.1⟩ (by
    show _ ∈ List.replicate 8 _
    exact List.mem_replicate.2 ⟨by decide, rfl⟩)
  rcases C114_job eyeWorld (fun _ => "v") ⟨"greedy", "eye".toList, "v3", (trainScript "eye").2.1⟩ "./data".toList 10 20
    hsu.2.2.2 (Or.inr rfl) (by decide) plainRound ⟨fun n => .refl _, someLearnEnv_good 10, eye_good⟩ _
    (by simp [Mlflow.Distinct]) ⟨"7", "greedy"⟩ (by simp) rfl x hx with ⟨r, hr, rfl⟩ | ⟨err, -, rfl⟩
  · exact ⟨_, _, rfl, rfl, by simpa using hr.experiment⟩
  · exact ⟨_, _, rfl, rfl, by simp [failedRun]⟩

/-- The same script in an empty store without preparation. -/
example (x : Py (Option (Py Unit × Tracking)))
    (hx : (job eyeWorld (fun _ => "v") ⟨"greedy", "eye".toList, "v3", fun _ => none⟩ "./data".toList 20 plainRound
      ⟨[], []⟩).Outcome x) : ∃ t, x = .ok (some (.error .attributeError, t)) ∧ t.runs = [] := by
  obtain ⟨t, h1, h2, -⟩ := C114_unprepared eyeWorld (fun _ => "v") _ "./data".toList 20 plainRound ⟨[], []⟩
    (by simp [Mlflow.Has]) (by simp [Mlflow.Has]) (by decide) x hx
  exact ⟨t, h1, h2⟩

/-- The tuning script on the toy data, whatever has been chosen. -/
example (best : Config) (x : Py (Option Files))
    (hx : (tuneAndEval Load.emptyWorld "data".toList "out".toList "toy" best 20 plainRound []).Outcome x) :
    x = .error .assertionError := by
  rcases C114_tune_and_eval Load.emptyWorld "data".toList "out".toList "toy" best 20 plainRound (fun n => .refl _) [] x hx
    with ⟨h, -⟩ | ⟨-, ⟨err, h, -⟩ | h⟩
  · exact absurd (by decide) (h 2 5)
  · cases h
  · exact h

/-- Two results of a job with ten tails: their scores form a group. -/
example : groupOf [(fun k => if k = "n_tails_per_iter" then some (.int 10) else some (.int 1000), [("micro_f1", some 1)]),
    (fun k => if k = "n_tails_per_iter" then some (.int 1000) else some (.int 10), [("micro_f1", some 0)])] "micro_f1" 10
      1000 = [1] := by
  rw [C114_heads_groups [(10, 1000), (1000, 10)] _ "micro_f1" (fun r => ((r.2.lookup "micro_f1").join).getD 0)
    (.cons ⟨rfl, rfl, rfl⟩ (.cons ⟨rfl, rfl, rfl⟩ .nil))]
  decide +kernel

end Scripts

end Verif
