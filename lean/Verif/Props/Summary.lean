/-
The summary of `scripts/summarize_tune_results.py`, and how it relates to what the trials reported.
-/
import Verif.Props.Tune

namespace Verif

namespace Tune

open Pipeline
open Load (Mat Obj World)
open Arff (Text)
open Mlflow (Store)

/-- The first line is at least as good as the second; lines without a number come last. -/
def AtLeast (a b : Line) : Prop := b.mean = none ∨ ∃ x y, a.mean = some x ∧ b.mean = some y ∧ y ≤ x

/-- `sort_values(by='mean', ascending=False)`: some order of the lines by mean. -/
def SortsByMean (sort : List Line → List Line) : Prop := ∀ l, (sort l).Perm l ∧ (sort l).Pairwise AtLeast

/-- The numbers that the rows with the given values of the hyperparameters have for the metric. -/
def valuesOf (keys : List String) (metric : String) (rows : List Run) (key : List String) : List ℚ :=
  (rows.filter fun r => keys.map (fun k => r.params.lookup k) = key.map some).filterMap fun r =>
    (r.metrics.lookup metric).join

theorem keyOf_eq_some {keys : List String} {r : Run} {key : List String} :
    keyOf keys r = some key ↔ keys.map (fun k => r.params.lookup k) = key.map some := by
  unfold keyOf
  induction keys generalizing key with
  | nil =>
    cases key <;> simp
  | cons k ks ih =>
    rw [List.mapM_cons, List.map_cons]
    cases h : r.params.lookup k with
    | none =>
      simp only [bind, Option.bind, reduceCtorEq, false_iff]
      cases key <;> simp
    | some v =>
      cases key with
      | nil => simp [bind, Option.bind]; split <;> simp
      | cons a as =>
        simp only [bind, Option.bind, List.map_cons, List.cons.injEq, Option.some.injEq]
        rw [← ih]
        cases h' : ks.mapM fun k => r.params.lookup k with
        | none => simp [h']
        | some l => simp [h', pure]

theorem columnOf_group (keys : List String) (metric : String) (rows : List Run) (key : List String) :
    columnOf ((rows.filter fun r => keyOf keys r = some key).map Run.metrics) metric = valuesOf keys metric rows key := by
  unfold columnOf valuesOf
  rw [List.filterMap_map]
  congr 1
  refine List.filter_congr fun r _ => ?_
  rw [decide_eq_decide]
  exact keyOf_eq_some

theorem summarizeRows_cons (sort : List Line → List Line) (metric : String) (r : Run) (rows : List Run) :
    summarizeRows sort metric (r :: rows) = if r.params = [] then .error .valueError
      else if ∀ x ∈ r :: rows, x.metrics.lookup metric = none then .error .keyError
      else .ok (sort (((r :: rows).filterMap (keyOf (r.params.map Prod.fst))).dedup.map
        (lineOfGroup (r.params.map Prod.fst) metric (r :: rows)))) := rfl

/-- **C112.** The table, when there is one: for every combination of values of the hyperparameters that some row has there
is exactly one line; it has the average of the metric over the rows with these values, and the sample variance; and the
lines are ordered by the average, best first. The hyperparameters are those of the newest row. -/
theorem C112_table (sort : List Line → List Line) (hsort : SortsByMean sort) (metric : String) (row : Run)
    (rows : List Run) (lines : List Line) (h : summarizeRows sort metric (row :: rows) = .ok lines) :
    lines.Pairwise (fun a b => a.key ≠ b.key) ∧ lines.Pairwise AtLeast ∧
      (∀ key, (∃ ln ∈ lines, ln.key = key) ↔
        ∃ r ∈ row :: rows, (row.params.map Prod.fst).map (fun k => r.params.lookup k) = key.map some) ∧
      ∀ ln ∈ lines, let vs := valuesOf (row.params.map Prod.fst) metric (row :: rows) ln.key
        ln.mean = (if vs = [] then none else some (average vs)) ∧
        ln.var = if vs.length < 2 then none
          else some ((vs.map fun v : ℚ => (v - average vs) ^ 2).sum / ((vs.length : ℚ) - 1)) := by
  rw [summarizeRows_cons] at h
  split at h
  · cases h
  split at h
  · cases h
  injection h with h
  subst h
  obtain ⟨hp, ho⟩ := hsort ((((row :: rows).filterMap (keyOf (row.params.map Prod.fst))).dedup.map
    (lineOfGroup (row.params.map Prod.fst) metric (row :: rows))))
  refine ⟨?_, ho, ?_, ?_⟩
  · refine (hp.pairwise_iff (fun h => h.symm)).2 ?_
    rw [List.pairwise_map]
    exact (List.nodup_dedup _).imp fun h => h
  · intro key
    simp only [hp.mem_iff, List.mem_map, List.mem_dedup, List.mem_filterMap]
    constructor
    · rintro ⟨ln, ⟨key', ⟨r, hr, hk⟩, rfl⟩, rfl⟩
      exact ⟨r, hr, keyOf_eq_some.1 hk⟩
    · rintro ⟨r, hr, hk⟩
      exact ⟨_, ⟨key, ⟨r, hr, keyOf_eq_some.2 hk⟩, rfl⟩, rfl⟩
  · intro ln hl
    obtain ⟨key, -, rfl⟩ := List.mem_map.1 (hp.mem_iff.1 hl)
    simp only [lineOfGroup, columnOf_group]
    exact ⟨rfl, rfl⟩

/-- **C112.** When there is no table: `IndexError` without runs; `ValueError` if the newest run has no hyperparameters,
which is so if it failed, although older runs have; `KeyError` if no run has the metric. -/
theorem C112_no_table (sort : List Line → List Line) (metric : String) (rows : List Run) :
    (rows = [] → summarizeRows sort metric rows = .error .indexError) ∧
    (∀ r rest, rows = r :: rest → r.params = [] → summarizeRows sort metric rows = .error .valueError) ∧
    (∀ r rest, rows = r :: rest → r.params ≠ [] → (∀ x ∈ rows, x.metrics.lookup metric = none) →
      summarizeRows sort metric rows = .error .keyError) ∧
    (∀ r rest, rows = r :: rest → r.params ≠ [] → (∃ x ∈ rows, x.metrics.lookup metric ≠ none) →
      ∃ lines, summarizeRows sort metric rows = .ok lines) := by
  refine ⟨?_, ?_, ?_, ?_⟩
  · rintro rfl
    rfl
  · rintro r rest rfl h
    rw [summarizeRows_cons, if_pos h]
  · rintro r rest rfl h h'
    rw [summarizeRows_cons, if_neg h, if_pos h']
  · rintro r rest rfl h ⟨x, hx, hm⟩
    rw [summarizeRows_cons, if_neg h, if_neg fun hc => hm (hc x hx)]
    exact ⟨_, rfl⟩

/-- **C112.** Which runs are summarized: those with the id that the experiment of that name has in the default store,
whatever the experiment with that id in the store searched is. If the default store does not have the experiment, there
is an `AttributeError`, and the default store has the experiment afterwards. -/
theorem C112_store (sort : List Line → List Line) (metric freshId : String) (store : Store)
    (hst : Mlflow.Distinct store) (runs : List Run) (experiment : String) (dataset : Text) :
    (∀ e ∈ store, e.name = experiment → summarize sort metric freshId store runs experiment dataset =
      (summarizeRows sort metric (runs.filter fun r => r.experiment = e.id ∧ r.dataset = dataset).reverse, store)) ∧
    (¬ Mlflow.Has store experiment → ¬ Mlflow.Has store freshId → freshId ≠ experiment →
      (summarize sort metric freshId store runs experiment dataset).1 = .error .attributeError ∧
      Mlflow.Has (summarize sort metric freshId store runs experiment dataset).2 experiment) := by
  constructor
  · rintro e he rfl
    unfold summarize
    rw [Mlflow.C108_known store hst e he]
    rfl
  · intro h1 h2 h3
    unfold summarize
    rw [Mlflow.C108_first_call store experiment freshId h1 h2 h3]
    exact ⟨rfl, _, List.mem_append_right _ (List.mem_singleton_self _), rfl⟩

/-! ### Trials and their summary -/

/-- A trial that happened: its arguments, what it ended with, and the state afterwards. -/
structure Trial where
  su : Setup
  k : ℕ
  fuel : ℕ
  es : List RoundEnv
  res : Py Perf
  state : State

/-- The trial happened on the data set, in the experiment, with a sensible configuration. -/
structure Trial.Happened (w : World) (str : PyVal → String) (datadir : Text) (store : Store) (experiment : String)
    (dataset : Text) (t : Trial) : Prop where
  inExperiment : t.su.experiment = experiment
  onDataset : t.su.dataset = dataset
  sensible : Sensible t.su.config t.k
  version : t.su.version = "v2" ∨ t.su.version = "v3"
  fuel : t.k < t.fuel
  rounds : t.es ≠ []
  good : ∀ e ∈ t.es, GoodRound w datadir dataset e
  outcome : (trial w str t.su datadir t.fuel t.es store).Outcome (.ok (some (t.res, t.state)))

theorem flatMap_single {α β : Type} {κ : Type} [DecidableEq κ] (key : α → κ) (g : α → List β) {l : List α}
    (hl : l.Pairwise fun a b => key a ≠ key b) {t : α} (ht : t ∈ l) :
    (l.flatMap fun u => if key u = key t then g u else []) = g t := by
  induction l with
  | nil => simp at ht
  | cons a l ih =>
    obtain ⟨h1, h2⟩ := List.pairwise_cons.1 hl
    rw [List.flatMap_cons]
    rcases List.mem_cons.1 ht with rfl | ht
    · rw [if_pos rfl]
      have : (l.flatMap fun u => if key u = key t then g u else []) = [] := by
        rw [List.flatMap_eq_nil_iff]
        intro u hu
        rw [if_neg (h1 u hu).symm]
      rw [this, List.append_nil]
    · rw [if_neg (h1 t ht), List.nil_append]
      exact ih h2 ht

theorem average_perm {l l' : List ℚ} (h : l.Perm l') : average l = average l' := by
  unfold average
  rw [h.sum_eq, h.length_eq]

/-- The rounds of the trials that happened. -/
theorem Trial.Happened.shape {w : World} {str : PyVal → String} {datadir : Text} {store : Store} {dataset : Text}
    {ex : Mlflow.Experiment} (hst : Mlflow.Distinct store) (hex : ex ∈ store) {t : Trial}
    (h : t.Happened w str datadir store ex.name dataset) :
    ∃ rs : List Round, (∀ report, t.res = .ok report → rs ≠ [] ∧ report = reportSpec rs) ∧
      ∃ fs : List Run, (∀ r ∈ fs, r = failedRun ex.id dataset t.su.version) ∧
        t.state.runs = rs.map (Round.run str t.su ex.id) ++ fs := by
  obtain ⟨rs, res, s, e, -, -, ⟨hl, hr, hruns⟩ | ⟨hl, err, -, hr, hruns⟩⟩ :=
    C111_outcomes w str t.su datadir t.k t.fuel h.sensible h.version h.fuel t.es h.rounds
      (fun e he => h.onDataset ▸ h.good e he) store hst ex hex h.inExperiment.symm _ h.outcome
  · simp only [Except.ok.injEq, Option.some.injEq, Prod.mk.injEq] at e
    refine ⟨rs, fun report hrep => ?_, [], by simp, by rw [e.2, hruns]; simp⟩
    rw [e.1, hr] at hrep
    refine ⟨?_, (Except.ok.inj hrep).symm⟩
    rintro rfl
    exact h.rounds (List.length_eq_zero_iff.1 hl.symm)
  · simp only [Except.ok.injEq, Option.some.injEq, Prod.mk.injEq] at e
    refine ⟨rs, fun report hrep => ?_, [failedRun ex.id dataset t.su.version], by simp, by rw [e.2, hruns, h.onDataset]⟩
    rw [e.1, hr] at hrep
    cases hrep

/-- The six hyperparameters. -/
def sixKeys : List String :=
  ["lambd", "min_feature_proba", "min_label_proba", "n_heads_per_tail", "n_max_rules", "n_tails_per_iter"]

theorem sixKeys_run (str : PyVal → String) (su : Setup) (i : String) (r : Round) :
    sixKeys.map (fun k => (r.run str su i).params.lookup k) = ((paramsSpec str su.config).map Prod.snd).map some := rfl

theorem sixKeys_failed (i : String) (d : Text) (v : String) :
    sixKeys.map (fun k => (failedRun i d v).params.lookup k) = [none, none, none, none, none, none] := rfl

theorem paramsSpec_inj {str : PyVal → String} {c c' : Config}
    (h : (paramsSpec str c).map Prod.snd = (paramsSpec str c').map Prod.snd) : paramsSpec str c = paramsSpec str c' := by
  simp only [paramsSpec, List.map_cons, List.map_nil, List.cons.injEq] at h
  obtain ⟨h1, h2, h3, h4, h5, h6, -⟩ := h
  simp only [paramsSpec, h1, h2, h3, h4, h5, h6]

/-- **C112.** The summary agrees with the trials. Let trials happen, one after the other or at the same time, with pairwise
different hyperparameters, so that their runs are in the store in some order, and let the newest run be one that was
completed. Then the summary is a table, best line first, with exactly one line for every trial that completed a round,
and the line of a trial that reported has the number it reported. (A trial that failed after some rounds reports nothing,
but has a line with the average of the rounds before.) -/
theorem C112_agrees (w : World) (str : PyVal → String) (datadir : Text) (store : Store) (hst : Mlflow.Distinct store)
    (ex : Mlflow.Experiment) (hex : ex ∈ store) (dataset : Text) (trials : List Trial)
    (hh : ∀ t ∈ trials, t.Happened w str datadir store ex.name dataset)
    (hdist : trials.Pairwise fun a b => paramsSpec str a.su.config ≠ paramsSpec str b.su.config)
    (runs : List Run) (hruns : runs.Perm (trials.flatMap fun t => t.state.runs)) (newest : Run)
    (hnew : runs.getLast? = some newest) (hfin : newest.finished = true) (sort : List Line → List Line)
    (hsort : SortsByMean sort) (freshId : String) :
    ∃ lines, summarize sort "micro_f1" freshId store runs ex.name dataset = (.ok lines, store) ∧
      lines.Pairwise AtLeast ∧ lines.Pairwise (fun a b => a.key ≠ b.key) ∧
      (∀ t ∈ trials, ∀ report, t.res = .ok report → ∃ ln ∈ lines,
        ln.key = (paramsSpec str t.su.config).map Prod.snd ∧ report.lookup "micro_f1" = some ln.mean ∧
        ln.mean ≠ none) ∧
      (∀ key, (∃ ln ∈ lines, ln.key = key) ↔ ∃ t ∈ trials, (∃ r ∈ t.state.runs, r.finished = true) ∧
        key = (paramsSpec str t.su.config).map Prod.snd) := by
  -- the rows of the summary are the runs of the trials
  have hmem : ∀ r ∈ runs, r.experiment = ex.id ∧ r.dataset = dataset := by
    intro r hr
    obtain ⟨t, ht, hrt⟩ := List.mem_flatMap.1 (hruns.mem_iff.1 hr)
    obtain ⟨rs, -, fs, hfs, e⟩ := (hh t ht).shape hst hex
    rw [e] at hrt
    rcases List.mem_append.1 hrt with h | h
    · obtain ⟨rd, -, rfl⟩ := List.mem_map.1 h
      exact ⟨rfl, (hh t ht).onDataset⟩
    · rw [hfs r h]
      exact ⟨rfl, rfl⟩
  have hrows : (runs.filter fun r => r.experiment = ex.id ∧ r.dataset = dataset).reverse = runs.reverse := by
    rw [List.filter_eq_self.2]
    intro r hr
    simpa using hmem r hr
  rw [(C112_store sort "micro_f1" freshId store hst runs ex.name dataset).1 ex hex rfl, hrows]
  obtain ⟨rest, hrest⟩ : ∃ rest, runs.reverse = newest :: rest := by
    obtain ⟨ini, hini⟩ := List.getLast?_eq_some_iff.1 hnew
    exact ⟨ini.reverse, by rw [hini]; simp⟩
  -- the newest run is a completed round
  obtain ⟨t0, ht0, rd0, hrd0⟩ : ∃ t ∈ trials, ∃ rd : Round, newest = rd.run str t.su ex.id := by
    have hm : newest ∈ runs := List.mem_of_getLast? hnew
    obtain ⟨t, ht, hrt⟩ := List.mem_flatMap.1 (hruns.mem_iff.1 hm)
    obtain ⟨rs, -, fs, hfs, e⟩ := (hh t ht).shape hst hex
    rw [e] at hrt
    rcases List.mem_append.1 hrt with h | h
    · obtain ⟨rd, -, h⟩ := List.mem_map.1 h
      exact ⟨t, ht, rd, h.symm⟩
    · rw [hfs _ h] at hfin
      cases hfin
  have hkeys : newest.params.map Prod.fst = sixKeys := by rw [hrd0]; rfl
  obtain ⟨lines, hlines⟩ := (C112_no_table sort "micro_f1" runs.reverse).2.2.2 newest rest hrest
    (by rw [hrd0]; simp [Round.run, paramsSpec])
    ⟨newest, by rw [hrest]; simp, by rw [hrd0]; simp only [Round.run]; exact Option.some_ne_none _⟩
  refine ⟨lines, by rw [hlines], ?_⟩
  rw [hrest] at hlines
  obtain ⟨hk1, hk2, hk3, hk4⟩ := C112_table sort hsort "micro_f1" newest rest lines hlines
  rw [hkeys, ← hrest] at hk3 hk4
  have hmemr : ∀ r, r ∈ runs.reverse ↔ ∃ t ∈ trials, r ∈ t.state.runs := by
    intro r
    rw [List.mem_reverse, hruns.mem_iff, List.mem_flatMap]
  have hlist : ∀ key, (∃ ln ∈ lines, ln.key = key) ↔ ∃ t ∈ trials, (∃ r ∈ t.state.runs, r.finished = true) ∧
      key = (paramsSpec str t.su.config).map Prod.snd := by
    intro key
    rw [hk3]
    constructor
    · rintro ⟨r, hr, hk⟩
      obtain ⟨t, ht, hrt⟩ := (hmemr r).1 hr
      refine ⟨t, ht, ?_⟩
      obtain ⟨rs, -, fs, hfs, e⟩ := (hh t ht).shape hst hex
      have hrt' := hrt
      rw [e] at hrt'
      rcases List.mem_append.1 hrt' with h | h
      · obtain ⟨rd, -, rfl⟩ := List.mem_map.1 h
        refine ⟨⟨_, hrt, rfl⟩, ?_⟩
        rw [sixKeys_run] at hk
        exact (List.map_injective_iff.2 (Option.some_injective _) hk).symm
      · rw [hfs r h, sixKeys_failed] at hk
        cases key with
        | nil => cases hk
        | cons a as => cases hk
    · rintro ⟨t, ht, ⟨r, hrt, hf⟩, rfl⟩
      refine ⟨r, (hmemr r).2 ⟨t, ht, hrt⟩, ?_⟩
      obtain ⟨rs, -, fs, hfs, e⟩ := (hh t ht).shape hst hex
      rw [e] at hrt
      rcases List.mem_append.1 hrt with h | h
      · obtain ⟨rd, -, rfl⟩ := List.mem_map.1 h
        rfl
      · rw [hfs r h] at hf
        cases hf
  refine ⟨hk2, hk1, ?_, hlist⟩
  intro t ht report hrep
  obtain ⟨rs, hrs, fs, hfs, e⟩ := (hh t ht).shape hst hex
  obtain ⟨hne, rfl⟩ := hrs report hrep
  obtain ⟨rd, rs', rfl⟩ := List.exists_cons_of_ne_nil hne
  obtain ⟨ln, hln, hkey⟩ := (hlist _).2 ⟨t, ht, ⟨rd.run str t.su ex.id, by rw [e]; simp, rfl⟩, rfl⟩
  refine ⟨ln, hln, hkey, ?_⟩
  obtain ⟨hmean, -⟩ := hk4 ln hln
  have hvals : (valuesOf sixKeys "micro_f1" runs.reverse ln.key).Perm ((rd :: rs').map fun r => r.score "micro_f1") := by
    have h1 : (valuesOf sixKeys "micro_f1" runs.reverse ln.key).Perm
        (valuesOf sixKeys "micro_f1" (trials.flatMap fun t => t.state.runs) ln.key) := by
      unfold valuesOf
      exact (((List.reverse_perm runs).trans hruns).filter _).filterMap _
    refine h1.trans (List.Perm.of_eq ?_)
    unfold valuesOf
    rw [List.filter_flatMap]
    have h2 : ∀ u ∈ trials, (u.state.runs.filter fun r =>
        decide (sixKeys.map (fun k => r.params.lookup k) = ln.key.map some)) =
        if paramsSpec str u.su.config = paramsSpec str t.su.config then
          u.state.runs.filter fun r => r.finished else [] := by
      intro u hu
      obtain ⟨rs2, -, fs2, hfs2, e2⟩ := (hh u hu).shape hst hex
      rw [e2, List.filter_append, List.filter_append]
      have hb : ∀ p : Run → Bool, p (failedRun ex.id dataset u.su.version) = false → fs2.filter p = [] := by
        intro p hp
        rw [List.filter_eq_nil_iff]
        intro r hr
        rw [hfs2 r hr, hp]
        simp
      rw [hb _ (by
        rw [sixKeys_failed, hkey, decide_eq_false_iff_not]
        simp [paramsSpec]), hb _ rfl, List.append_nil, List.append_nil]
      split
      · rename_i hpq
        rw [List.filter_eq_self.2, List.filter_eq_self.2]
        · intro r hr
          obtain ⟨rd', -, rfl⟩ := List.mem_map.1 hr
          rfl
        · intro r hr
          obtain ⟨rd', -, rfl⟩ := List.mem_map.1 hr
          rw [sixKeys_run, hkey, hpq, decide_eq_true_eq]
      · rename_i hpq
        rw [List.filter_eq_nil_iff]
        intro r hr
        obtain ⟨rd', -, rfl⟩ := List.mem_map.1 hr
        rw [sixKeys_run, hkey, decide_eq_true_eq]
        intro hc
        exact hpq (paramsSpec_inj (List.map_injective_iff.2 (Option.some_injective _) hc))
    rw [List.flatMap_congr h2, flatMap_single (fun u : Trial => paramsSpec str u.su.config) _ hdist ht, e,
      List.filter_append, List.filter_eq_self.2, List.filter_eq_nil_iff.2, List.append_nil, List.filterMap_map]
    · rw [← List.filterMap_eq_map]
      exact List.filterMap_congr fun r _ => rfl
    · intro r hr
      rw [hfs r hr]
      simp [failedRun]
    · intro r hr
      obtain ⟨rd', -, rfl⟩ := List.mem_map.1 hr
      rfl
  rw [hmean, if_neg, average_perm hvals]
  · exact ⟨rfl, Option.some_ne_none _⟩
  · intro hc
    rw [hc] at hvals
    exact absurd hvals.symm.eq_nil (by simp)

/-! ### Non-triviality -/

/-- There is such an order. -/
theorem exists_sort : ∃ sort, SortsByMean sort := by
  classical
  have htot : Std.Total AtLeast := ⟨fun a b => by
    unfold AtLeast
    cases ha : a.mean with
    | none => exact Or.inr (Or.inl rfl)
    | some x =>
      cases hb : b.mean with
      | none => exact Or.inl (Or.inl rfl)
      | some y =>
        rcases le_total x y with h | h
        · exact Or.inr (Or.inr ⟨y, x, rfl, rfl, h⟩)
        · exact Or.inl (Or.inr ⟨x, y, rfl, rfl, h⟩)⟩
  have htr : IsTrans Line AtLeast := ⟨fun a b c h1 h2 => by
    rcases h2 with h2 | ⟨x, y, h3, h4, h5⟩
    · exact Or.inl h2
    · rcases h1 with h1 | ⟨x', y', h6, h7, h8⟩
      · rw [h1] at h3; cases h3
      · rw [h3, Option.some.injEq] at h7
        subst h7
        exact Or.inr ⟨x', y, h6, h4, h5.trans h8⟩⟩
  exact ⟨List.insertionSort AtLeast, fun l => ⟨List.perm_insertionSort _ l, List.pairwise_insertionSort _ l⟩⟩

/-- The summary of a trial on four records has the number that the trial reported. -/
example : ∃ t : Trial, ∃ report, t.res = .ok report ∧ ∃ sort lines,
    summarize sort "micro_f1" "2" [⟨"1", "tune_greedy_v3"⟩] t.state.runs "tune_greedy_v3" eyeObj.name =
      (.ok lines, [⟨"1", "tune_greedy_v3"⟩]) ∧ ∃ ln ∈ lines, report.lookup "micro_f1" = some ln.mean := by
  obtain ⟨report, s, h⟩ := eye_reports
  obtain ⟨sort, hsort⟩ := exists_sort
  have hd : Mlflow.Distinct [⟨"1", "tune_greedy_v3"⟩] := by simp [Mlflow.Distinct]
  have hhap : Trial.Happened eyeWorld (fun _ => "") eyeObj.datadir [⟨"1", "tune_greedy_v3"⟩] "tune_greedy_v3" eyeObj.name
      ⟨eyeSetup, 10, 20, List.replicate 10 plainRound, .ok report, s⟩ :=
    ⟨rfl, rfl, sensible_default, Or.inr rfl, show 10 < 20 by decide, by simp, eye_rounds, h⟩
  obtain ⟨rs, hrs, e⟩ : ∃ rs : List Round, rs.length = 10 ∧
      s.runs = rs.map (Round.run (fun _ => "") eyeSetup "1") := by
    obtain ⟨rs, res, s', e, -, -, ⟨hl, -, hr⟩ | ⟨-, err, -, hr, -⟩⟩ :=
      C111_outcomes eyeWorld (fun _ => "") eyeSetup eyeObj.datadir 10 20 sensible_default (Or.inr rfl) (by decide)
        (List.replicate 10 plainRound) (by simp) eye_rounds [⟨"1", "tune_greedy_v3"⟩] hd ⟨"1", "tune_greedy_v3"⟩ (by simp)
        rfl _ h
    · simp only [Except.ok.injEq, Option.some.injEq, Prod.mk.injEq] at e
      exact ⟨rs, by simpa using hl, e.2 ▸ hr⟩
    · subst hr
      simp at e
  have hne : s.runs ≠ [] := by
    rw [e]
    intro hc
    rw [List.map_eq_nil_iff.1 hc] at hrs
    cases hrs
  have hlast := List.getLast?_eq_some_getLast hne
  have hfin : (s.runs.getLast hne).finished = true := by
    have hall : ∀ x ∈ s.runs, x.finished = true := by
      rw [e]
      intro x hx
      obtain ⟨r, -, rfl⟩ := List.mem_map.1 hx
      rfl
    exact hall _ (List.getLast_mem hne)
  obtain ⟨lines, h1, -, -, h2, -⟩ := C112_agrees eyeWorld (fun _ => "") eyeObj.datadir [⟨"1", "tune_greedy_v3"⟩] hd
    ⟨"1", "tune_greedy_v3"⟩ (by simp) eyeObj.name [⟨eyeSetup, 10, 20, List.replicate 10 plainRound, .ok report, s⟩]
    (by simpa using hhap) (by simp) s.runs (by simp) _ hlast hfin sort hsort "2"
  obtain ⟨ln, hln, -, h3, -⟩ := h2 _ (List.mem_singleton_self _) report rfl
  exact ⟨⟨eyeSetup, 10, 20, List.replicate 10 plainRound, .ok report, s⟩, report, rfl, sort, lines, h1, ln, hln, h3⟩

/-! ### Which experiment is summarized -/

/-- **C112.** The script summarizes the experiment `tune_greedy_v3`. That is the experiment of the trials of version
`v3` on any data set other than `toy`, and of no others. -/
theorem C112_summarized_experiment (dataset version : String) :
    experimentName dataset version = "tune_greedy_v3" ↔ version = "v3" ∧ dataset ≠ "toy" := by
  have e : "tune_greedy_v3" = "tune_greedy_" ++ "v3" := rfl
  unfold experimentName
  split_ifs with h
  · simp only [h, ne_eq, not_true, and_false, iff_false]
    rw [e, String.append_assoc]
    intro hc
    have := congrArg String.toList hc
    simp only [String.toList_append, List.append_cancel_left_eq] at this
    have hl := congrArg List.length this
    have h1 : "_debug".toList.length = 6 := rfl
    have h2 : "v3".toList.length = 2 := rfl
    rw [List.length_append, h1, h2] at hl
    omega
  · rw [e]
    constructor
    · intro hc
      have := congrArg String.toList hc
      rw [String.toList_append, String.toList_append, List.append_cancel_left_eq] at this
      exact ⟨String.toList_inj.mp this, h⟩
    · rintro ⟨rfl, -⟩
      rfl

/-- **C112.** So trials of version `v2`, and trials on the data set `toy`, have no influence on the summary of any data
set, wherever their runs are in the store: ids being different, the summary is the same as without them. -/
theorem C112_other_experiments (w : World) (str : PyVal → String) (datadir : Text) (store : Store)
    (hst : Mlflow.Distinct store) (hids : ∀ e ∈ store, ∀ e' ∈ store, e.id = e'.id → e = e')
    (ex : Mlflow.Experiment) (hex : ex ∈ store) (hname : ex.name = "tune_greedy_v3")
    (ex' : Mlflow.Experiment) (hex' : ex' ∈ store) (dataset version : String)
    (hname' : ex'.name = experimentName dataset version) (hother : version ≠ "v3" ∨ dataset = "toy") (d d' : Text)
    (t : Trial) (ht : t.Happened w str datadir store ex'.name d') (before after : List Run)
    (sort : List Line → List Line) (metric freshId : String) :
    summarize sort metric freshId store (before ++ t.state.runs ++ after) "tune_greedy_v3" d =
      summarize sort metric freshId store (before ++ after) "tune_greedy_v3" d := by
  have hne : ex'.id ≠ ex.id := by
    intro h
    rw [hids ex' hex' ex hex h, hname] at hname'
    obtain ⟨h1, h2⟩ := (C112_summarized_experiment dataset version).mp hname'.symm
    rcases hother with h | h
    · exact h h1
    · exact h2 h
  obtain ⟨rs, -, fs, hfs, hruns⟩ := ht.shape hst hex'
  have hall : ∀ r ∈ t.state.runs, r.experiment ≠ ex.id := by
    rw [hruns]
    intro r hr
    rcases List.mem_append.mp hr with hr | hr
    · obtain ⟨x, -, rfl⟩ := List.mem_map.mp hr
      exact hne
    · rw [hfs r hr]
      exact hne
  rw [(C112_store sort metric freshId store hst _ _ d).1 ex hex hname,
    (C112_store sort metric freshId store hst _ _ d).1 ex hex hname]
  have hnil : (t.state.runs.filter fun r => decide (r.experiment = ex.id ∧ r.dataset = d)) = [] :=
    List.filter_eq_nil_iff.mpr fun r hr => by simp [hall r hr]
  rw [List.filter_append, List.filter_append, List.filter_append, hnil, List.append_nil]

example : experimentName "emotions" "v2" ≠ "tune_greedy_v3" ∧ experimentName "toy" "v3" ≠ "tune_greedy_v3" ∧
    experimentName "emotions" "v3" = "tune_greedy_v3" := by
  simp [C112_summarized_experiment]

end Tune

end Verif
