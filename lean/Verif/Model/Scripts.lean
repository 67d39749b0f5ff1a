/-
The scripts that run experiments: `scripts/train_greedy_and_eval.py`, `effect_of_min_feature_proba.py`,
`effect_of_n_heads_per_tail.py`, `effect_of_num_rules.py` and the part of `tune_and_eval.py` that follows tuning.

Simplifications: a job of `ray` runs in a process of its own with a copy of its arguments; the store and the files are
modelled, the order of jobs is not. `mlflow.sklearn.log_model` and `mlflow.pyfunc.log_model` are taken to succeed and
not to change what is modelled. Times and printed tables are not modelled. What `tune.run` and `get_best_config` choose
is a parameter.
-/
import Verif.Model.Tune

namespace Verif

namespace Scripts

open Pipeline Tune
open Load (Mat Obj World)
open Arff (Text)
open Mlflow (Store)

/-- `Dataset(name=..., datadir=...)` with the default values of the other traits (`corset/data.py:41-45`). -/
def newDataset (name datadir : Text) : Obj :=
  { name := name, datadir := datadir, data := DatasetObj.new false (7 / 10), labelNames := none, label2id := none,
    featureNames := none, feature2id := none, labelFreq := none }

/-! ### Calls -/

/-- A parameter of a Python function: its name and whether it has a default value. -/
abbrev Parameter := String × Bool

/-- The binding of a call `f(a₁, …, aₙ, k₁=…, …)` to the parameters of `f`: `TypeError` for too many positional
arguments, an unexpected keyword, a parameter given twice, or a parameter without value. -/
def bindCall (ps : List Parameter) (npos : ℕ) (kws : List String) : Py Unit :=
  if ps.length < npos then .error .typeError
  else if ∃ k ∈ kws, k ∉ (ps.drop npos).map Prod.fst then .error .typeError
  else if ∃ p ∈ ps.drop npos, p.2 = false ∧ p.1 ∉ kws then .error .typeError
  else .ok ()

/-- The parameters of `train_greedy_and_eval` (`corset/exp.py:33`). -/
def trainParams : List Parameter :=
  [("ds", false), ("config", false), ("greedy_version", false), ("validation_mode", true)]

/-! ### Jobs that write to the tracking store -/

/-- The experiments and the runs of the store. -/
structure Tracking where
  store : Store
  runs : List Run

/-- `one_run` of `scripts/train_greedy_and_eval.py:17-35` and of `scripts/effect_of_min_feature_proba.py:17-35`, `version`
being `GREEDY_VERSION`: what the job ended with, and the store afterwards. `none`: the bound on the iterations of `fit`
was not enough. -/
noncomputable def job (w : World) (str : PyVal → String) (su : Setup) (datadir : Text) (fuel : ℕ) (e : RoundEnv)
    (t : Tracking) : RandR (Option (Py Unit × Tracking)) :=
  match Mlflow.getExperimentIdByName e.freshId t.store su.experiment with
  | (.error x, st) => pure <| some (.error x, { t with store := st })
  | (.ok i, st) => do
    let r ← RandR.attempt (do
      RandR.lift (bindCall trainParams 1 ["config", "greedy_version", "validation_mode"])
      let o ← trainGreedyAndEval w e.perm e.env (newDataset su.dataset datadir) su.config (some su.version) false fuel
      let ps ← .lift (loggedParams str su.config su.version)
      return o.map fun x => (x.2, ps))
    match r with
    | .error x => return some (.error x, ⟨st, t.runs ++ [failedRun i su.dataset su.version]⟩)
    | .ok none => return none
    | .ok (some (perf, ps)) => return some (.ok (), ⟨st, t.runs ++ [⟨i, su.dataset, su.version, ps, perf, true⟩]⟩)

/-- A dictionary display. -/
def dict (entries : List (String × PyVal)) : Config := fun key => entries.lookup key

/-- `config[key] = value` for several entries, in order. -/
def Config.set (c : Config) (entries : List (String × PyVal)) : Config := updateDict entries c

/-- The configuration and the number of jobs of `scripts/train_greedy_and_eval.py:45-79`. -/
def trainScript (ds : String) : String × Config × ℕ :=
  let config := dict [("n_tails_per_iter", .int 1000), ("n_heads_per_tail", .int 10)]
  if ds = "toy" then
    ("greedy_debug", Config.set config [("n_tails_per_iter", .int 10), ("n_heads_per_tail", .int 1)], 1)
  else if ds = "bibtex" then
    ("greedy", Config.set config [("lambd", .float (120381 / 100000)), ("n_max_rules", .int 84),
      ("min_label_proba", .float (1 / 2)), ("min_feature_proba", .float 1)], 8)
  else if ds = "medical" then
    ("greedy", Config.set config [("lambd", .float (595374 / 100000)), ("n_max_rules", .int 49),
      ("min_feature_proba", .float (1 / 2))], 8)
  else if ds = "emotions" then
    ("greedy", Config.set config [("lambd", .float (121086 / 100000)), ("n_max_rules", .int 19),
      ("min_feature_proba", .float (8 / 10))], 8)
  else if ds = "birds" then
    ("greedy", Config.set config [("lambd", .float (11066 / 10000)), ("n_max_rules", .int 48),
      ("min_feature_proba", .float (95 / 100))], 8)
  else if ds = "enron" then
    ("greedy", Config.set config [("lambd", .float (105774 / 100000)), ("n_max_rules", .int 49),
      ("min_feature_proba", .float 1)], 8)
  else if ds = "mediamill" then
    ("greedy", Config.set config [("lambd", .float (133413 / 100000)), ("n_max_rules", .int 44),
      ("min_feature_proba", .float (8 / 10))], 8)
  else ("greedy", config, 8)

/-- The setups of the jobs of `scripts/train_greedy_and_eval.py <ds>`, after the experiment was created (lines 85-91). -/
def trainJobs (ds : String) : List Setup :=
  let s := trainScript ds
  List.replicate s.2.2 ⟨s.1, ds.toList, "v3", s.2.1⟩

/-- The configuration, the thresholds and the number of repetitions of
`scripts/effect_of_min_feature_proba.py:42-68`; `none`: `min_probas` is not assigned (`NameError` at line 77). -/
def featureScript (ds : String) : Option (String × Config × List ℚ × ℕ) :=
  let config := dict [("n_tails_per_iter", .int 1000), ("n_heads_per_tail", .int 10)]
  if ds = "toy" then
    some ("effect_of_min_feature_proba_debug",
      Config.set config [("n_tails_per_iter", .int 10), ("n_heads_per_tail", .int 1)], [0, 5 / 10, 1], 4)
  else if ds = "bibtex" then
    some ("effect_of_min_feature_proba", Config.set config [("lambd", .float (214 / 100)), ("n_max_rules", .int 85),
      ("min_label_proba", .float (5 / 10))], [7 / 10, 8 / 10, 9 / 10, 1], 8)
  else if ds = "medical" then
    some ("effect_of_min_feature_proba", Config.set config [("lambd", .float (4205799926225756 / 10 ^ 14)),
      ("n_max_rules", .int 40)], [4 / 10, 5 / 10, 6 / 10, 7 / 10, 8 / 10, 9 / 10, 1], 8)
  else if ds = "emotions" then
    some ("effect_of_min_feature_proba", Config.set config [("lambd", .float (10092288035165227 / 10 ^ 16)),
      ("n_max_rules", .int 25)], [5 / 10, 6 / 10, 7 / 10, 8 / 10, 9 / 10, 1], 8)
  else none

/-- The setups of the jobs of `scripts/effect_of_min_feature_proba.py <ds>` (lines 17-18, 74-78): every job gets its own
copy of the dictionary, in which it sets the threshold. -/
def featureJobs (ds : String) : Option (List Setup) :=
  (featureScript ds).map fun s => (List.replicate s.2.2.2 ()).flatMap fun _ => s.2.2.1.map fun q =>
    ⟨s.1, ds.toList, "v2", Config.set s.2.1 [("min_feature_proba", .float q)]⟩

/-! ### Jobs that return a dictionary -/

/-- `one_run` of `scripts/effect_of_n_heads_per_tail.py:10-23`: the dictionary that is returned, its entries being those
of the configuration and then, with precedence, the scores. -/
noncomputable def headsJob (w : World) (datadir : Text) (ds : Text) (config : Config) (nTails nHeads : ℤ) (fuel : ℕ)
    (e : RoundEnv) : RandR (Option (Config × Perf)) := do
  let config' := Config.set config [("n_tails_per_iter", .int nTails), ("n_heads_per_tail", .int nHeads)]
  let o ← trainAndEval w e.perm e.env (newDataset ds datadir) (createFromConfig "GreedyCFTPDivMaxV2" config') fuel
  return o.map fun x => (config', x.2)

/-- The jobs of `scripts/effect_of_n_heads_per_tail.py:27-31`. -/
def headsJobs : List (ℤ × ℤ) := (List.replicate 10 ()).flatMap fun _ => [(1000, 10), (10, 1000)]

/-- The configuration of `scripts/effect_of_n_heads_per_tail.py:27`. -/
def headsConfig : Config := dict [("lambd", .float (4205799926225756 / 10 ^ 14)), ("n_max_rules", .int 44)]

/-- `df.groupby([...])['micro_f1']` of `scripts/effect_of_n_heads_per_tail.py:33-34`: the values of a group. -/
def groupOf (results : List (Config × Perf)) (metric : String) (nTails nHeads : ℤ) : List ℚ :=
  columnOf ((results.filter fun r => r.1 "n_tails_per_iter" = some (.int nTails) ∧
    r.1 "n_heads_per_tail" = some (.int nHeads)).map Prod.snd) metric

/-- `one_run` of `scripts/effect_of_num_rules.py:13-17`. -/
noncomputable def rulesJob (w : World) (datadir : Text) (ds : Text) (nRules : ℤ) (config : Config) (fuel : ℕ)
    (e : RoundEnv) : RandR (Option (LearnObj × Perf)) := do
  RandR.lift (bindCall trainParams 1 ["config", "n_repeats"])
  trainGreedyAndEval w e.perm e.env (newDataset ds datadir) (Config.set config [("n_max_rules", .int nRules)]) none false
    fuel

/-- The numbers of rules and of repetitions of `scripts/effect_of_num_rules.py:25-40`; `none`: `n_rules_list` is not
assigned (`NameError` at line 46). -/
def rulesScript (ds : String) : Option (Config × List ℤ × ℕ) :=
  if ds = "toy" then some (dict [], [1, 2], 4)
  else if ds = "enron" then
    some (dict [("lambd", .int 10), ("min_feature_proba", .float 1)], [10, 20, 30, 40, 50, 60], 8)
  else if ds = "medical" then some (dict [("lambd", .int 140)], [30, 40, 50, 60, 70], 8)
  else none

/-- Files with scores. -/
abbrev Files := List (Text × List Perf)

/-- `ray.get` of all jobs. -/
noncomputable def rulesAll (w : World) (datadir : Text) (ds : Text) (config : Config) (fuel : ℕ) :
    List (ℤ × RoundEnv) → RandR (List (Option Perf))
  | [] => return []
  | (n, e) :: rest => do
    let x ← rulesJob w datadir ds n config fuel e
    let xs ← rulesAll w datadir ds config fuel rest
    return x.map Prod.snd :: xs

/-- The jobs of a run of `scripts/effect_of_num_rules.py` (line 46), given what each of them depends on. -/
def rulesJobs (s : Config × List ℤ × ℕ) (envs : ℕ → RoundEnv) : List (ℤ × RoundEnv) :=
  ((List.replicate s.2.2 ()).flatMap fun _ => s.2.1).zipIdx.map fun x => (x.1, envs x.2)

/-- `scripts/effect_of_num_rules.py <ds>`: the files afterwards. An outcome that is an exception leaves them as they
were. -/
noncomputable def rulesMain (w : World) (datadir : Text) (ds : String) (envs : ℕ → RoundEnv) (fuel : ℕ) (files : Files) :
    RandR (Option Files) := do
  match rulesScript ds with
  | none => .raise .exception
  | some s =>
    let xs ← rulesAll w datadir ds.toList s.1 fuel (rulesJobs s envs)
    return (xs.mapM id).map fun ps => files ++ [("outputs/effect_of_rules/".toList ++ ds.toList ++ ".csv".toList, ps)]

/-! ### The end of `tune_and_eval.py` -/

/-- `main` of `scripts/tune_and_eval.py:62-163`: the search space is that of `tune_greedy.py`; `best` is what
`get_best_config` returned. `train_greedy_and_eval` is called with the integer `N_REPEATS` as version. An outcome that is an
exception leaves the files as they were. -/
noncomputable def tuneAndEval (w : World) (datadir root : Text) (ds : String) (best : Config) (fuel : ℕ) (e : RoundEnv)
    (files : Files) : RandR (Option Files) := do
  let _ ← RandR.lift (searchSpace ds)
  RandR.lift (bindCall trainParams 3 [])
  let o ← trainGreedyAndEval w e.perm e.env (newDataset ds.toList datadir) best none false fuel
  return o.map fun x => files ++ [(root ++ "/outputs/".toList ++ ds.toList ++ "/test_scores.json".toList, [x.2])]

end Scripts

end Verif
