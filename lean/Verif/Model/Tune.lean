/-
Tuning by hand-written scripts: the trial of `scripts/tune_greedy.py` and the summary of `scripts/summarize_tune_results.py`.

Simplifications: the search algorithm, the scheduler and the timeout of `ray.tune` are not modelled; a trial is given its
configuration. Times and log messages are not modelled. `str` of a hyperparameter, as which the tracking store keeps it,
is a parameter of the model. The standard deviations of the summary are represented by their squares.
-/
import Verif.Model.Pipeline
import Verif.Model.Mlflow

namespace Verif

namespace Tune

open Pipeline
open Load (Mat Obj World)
open Arff (Text)
open Mlflow (Store)

/-- A run of the tracking store: its experiment, the two tags that the scripts set, its parameters and its metrics
(`none`: not a number). `finished` is false if the `with` block was left by an exception. -/
structure Run where
  experiment : String
  dataset : Text
  version : String
  params : List (String × String)
  metrics : Perf
  finished : Bool

/-- The run of a `with` block that was left by an exception before anything was logged. -/
def failedRun (i : String) (dataset : Text) (version : String) : Run := ⟨i, dataset, version, [], [], false⟩

/-- What follows `ds.load()` in `train_greedy_and_eval` (`corset/exp.py:42-57`). -/
noncomputable def afterLoad (env : LearnEnv) (config : Config) (version : Option String) (validation : Bool) (fuel : ℕ)
    (ds' : Obj) : RandR (Option (LearnObj × Perf)) := do
  let b ← .lift (createVersion config version)
  let r ← .lift (readyOf b)
  let X ← .lift (attr ds'.data.trnX)
  let Y ← .lift (attr ds'.data.trnY)
  let fitted ← fitReady env r (toCsr X) (toCsr Y) fuel
  match fitted with
  | none => return none
  | some o => do
    let t ← .lift (targetOf ds' validation)
    let perf ← .lift (evaluateFitted o Y t.1 t.2)
    return some (o, perf)

/-- `mlflow.log_params(clf.get_params())` (`scripts/tune_greedy.py:48`): what is kept. -/
def loggedParams (str : PyVal → String) (config : Config) (version : String) : Py (List (String × String)) := do
  let b ← createVersion config (some version)
  let ps ← getParams cftpParamNames b.clf.attrs
  return ps.map fun p => (p.1, str p.2)

/-- `Dataset(name=..., datadir=..., split_train=True, train_ratio=0.7)` (`scripts/tune_greedy.py:36`). -/
def newSplit (name datadir : Text) : Obj :=
  { name := name, datadir := datadir, data := DatasetObj.new true (7 / 10), labelNames := none, label2id := none,
    featureNames := none, feature2id := none, labelFreq := none }

/-- What a round depends on besides its arguments: the random permutation of the split, the orders in which sets are
traversed, and the id the store would give to a new experiment. -/
structure RoundEnv where
  perm : ℕ → List ℕ
  env : LearnEnv
  freshId : String

/-- The state of a trial: the data set object, the experiments of the store, the runs written so far, the list
`perf_list`. -/
structure State where
  ds : Obj
  store : Store
  runs : List Run
  perfs : List Perf

/-- The arguments of a trial: the entries of the dictionary `config` that are no hyperparameters, and the rest. -/
structure Setup where
  experiment : String
  dataset : Text
  version : String
  config : Config

/-- One round of the loop of `one_run` (`scripts/tune_greedy.py:39-52`): what it ended with, and the state
afterwards. `none`: the bound on the iterations of `fit` was not enough. -/
noncomputable def oneRound (w : World) (str : PyVal → String) (su : Setup) (fuel : ℕ) (e : RoundEnv) (s : State) :
    RandR (Option (Py Unit × State)) :=
  match Mlflow.getExperimentIdByName e.freshId s.store su.experiment with
  | (.error x, st) => pure <| some (.error x, { s with store := st })
  | (.ok i, st) => do
    let r ← RandR.attempt (do
      let ds' ← loadOrRaise w e.perm s.ds
      let o ← afterLoad e.env su.config (some su.version) true fuel ds'
      let ps ← .lift (loggedParams str su.config su.version)
      return (ds', o.map fun x => (x.2, ps)))
    match r with
    | .error x =>
      return some (.error x, { s with store := st, runs := s.runs ++ [failedRun i s.ds.name su.version] })
    | .ok (_, none) => return none
    | .ok (ds', some (perf, ps)) =>
      return some (.ok (), ⟨ds', st, s.runs ++ [⟨i, s.ds.name, su.version, ps, perf, true⟩], s.perfs ++ [perf]⟩)

/-- The loop (`scripts/tune_greedy.py:39`). -/
noncomputable def rounds (w : World) (str : PyVal → String) (su : Setup) (fuel : ℕ) :
    List RoundEnv → State → RandR (Option (Py Unit × State))
  | [], s => return some (.ok (), s)
  | e :: es, s => do
    let r ← oneRound w str su fuel e s
    match r with
    | none => return none
    | some (.error x, s') => return some (.error x, s')
    | some (.ok (), s') => rounds w str su fuel es s'

/-- The values of a column of `pd.DataFrame.from_records(perf_list)` that are numbers. -/
def columnOf (perfs : List Perf) (key : String) : List ℚ := perfs.filterMap fun p => (p.lookup key).join

/-- The mean of a column; `none`: not a number. -/
def meanOf (l : List ℚ) : Option ℚ := if l = [] then none else some (l.sum / l.length)

/-- `df.mean().to_dict()` (`scripts/tune_greedy.py:54-55`). The records have the same keys. -/
def meanPerf (perfs : List Perf) : Perf :=
  match perfs with
  | [] => []
  | p :: _ => p.map fun e => (e.1, meanOf (columnOf perfs e.1))

/-- `one_run` (`scripts/tune_greedy.py:29-56`): what `tune.report` is given or the exception, and the state
afterwards. `N_REPEATS` is the length of `es`. -/
noncomputable def trial (w : World) (str : PyVal → String) (su : Setup) (datadir : Text) (fuel : ℕ)
    (es : List RoundEnv) (store : Store) : RandR (Option (Py Perf × State)) := do
  let r ← rounds w str su fuel es ⟨newSplit su.dataset datadir, store, [], []⟩
  match r with
  | none => return none
  | some (.error x, s) => return some (.error x, s)
  | some (.ok (), s) => return some (.ok (meanPerf s.perfs), s)

/-! ### The search space -/

/-- A dimension of the search space: a constant, `tune.loguniform(lo, hi)`, `tune.randint(lo, hi)`. -/
inductive Dim
  | const (v : PyVal)
  | logUniform (lo hi : ℚ)
  | randint (lo hi : ℕ)

/-- The hyperparameters of the search space of a data set (`scripts/tune_greedy.py:74-124`); `UnboundLocalError` for
other data sets. -/
def searchSpace (dataset : String) : Py (List (String × Dim)) :=
  if dataset = "toy" then .ok [("lambd", .logUniform 1 100), ("n_max_rules", .randint 2 5)]
  else if dataset = "emotions" then .ok [("lambd", .logUniform 1 1000), ("n_max_rules", .randint 5 50)]
  else if dataset = "mediamill" then .ok [("min_feature_proba", .const (.float (8 / 10))),
    ("min_label_proba", .const (.float (5 / 10))), ("lambd", .logUniform 1 1000), ("n_max_rules", .randint 20 100)]
  else if dataset = "birds" then .ok [("min_feature_proba", .const (.float (95 / 100))),
    ("min_label_proba", .const (.float (5 / 10))), ("lambd", .logUniform 1 1000), ("n_max_rules", .randint 5 50)]
  else if dataset = "cal500" then .error .exception
  else if dataset = "enron" then .ok [("min_feature_proba", .const (.float 1)), ("lambd", .logUniform 1 100),
    ("n_max_rules", .randint 10 50)]
  else if dataset = "bibtex" then .ok [("min_feature_proba", .const (.float (95 / 100))),
    ("min_label_proba", .const (.float (5 / 10))), ("lambd", .logUniform 1 1000), ("n_max_rules", .randint 50 150)]
  else if dataset = "medical" then .ok [("lambd", .logUniform 1 1000), ("n_max_rules", .randint 10 50)]
  else .error .unboundLocalError

/-- A value that the search algorithm may choose in a dimension. -/
def Dim.Allows : Dim → PyVal → Prop
  | .const v, x => x = v
  | .logUniform lo hi, x => ∃ q, x = .float q ∧ lo ≤ q ∧ q ≤ hi
  | .randint lo hi, x => ∃ n : ℕ, x = .int n ∧ lo ≤ n ∧ n < hi

/-- A configuration that a trial may be given: a value for every dimension and no other hyperparameters. -/
def Drawn (space : List (String × Dim)) (config : Config) : Prop :=
  ∀ key, match space.lookup key with
    | none => config key = none
    | some d => ∃ v, config key = some v ∧ d.Allows v

/-- The name of the experiment (`scripts/tune_greedy.py:71-72, 80`). -/
def experimentName (dataset version : String) : String :=
  if dataset = "toy" then "tune_greedy_" ++ version ++ "_debug" else "tune_greedy_" ++ version

/-! ### The summary -/

/-- A line of the summary: values of the hyperparameters, mean of the metric (`none`: not a number) and square of its
standard deviation (`none`: not a number). -/
structure Line where
  key : List String
  mean : Option ℚ
  var : Option ℚ

/-- `cli.search_runs` (`scripts/summarize_tune_results.py:24-28`): newest first. Runs that failed are included. -/
def searchRuns (runs : List Run) (i : String) (dataset : Text) : List Run :=
  (runs.filter fun r => r.experiment = i ∧ r.dataset = dataset).reverse

/-- The key of a run in `groupby` (`summarize_tune_results.py:36`): `none` if a value is missing; such rows are left
out. -/
def keyOf (keys : List String) (r : Run) : Option (List String) := keys.mapM fun k => r.params.lookup k

/-- The sample variance that `describe` computes the standard deviation from. -/
def varOf (l : List ℚ) : Option ℚ :=
  if l.length < 2 then none
  else some ((l.map fun x => (x - l.sum / l.length) ^ 2).sum / (l.length - 1))

/-- The line of a group. -/
def lineOfGroup (keys : List String) (metric : String) (rows : List Run) (key : List String) : Line :=
  let vals := columnOf ((rows.filter fun r => keyOf keys r = some key).map Run.metrics) metric
  { key := key, mean := meanOf vals, var := varOf vals }

/-- The table (`scripts/summarize_tune_results.py:29-36`): `IndexError` without rows, `ValueError` ("No group keys
passed!") if the first row has no hyperparameters, `KeyError` if no row has the metric. `sort` is
`sort_values(by='mean', ascending=False)`. -/
def summarizeRows (sort : List Line → List Line) (metric : String) : List Run → Py (List Line)
  | [] => .error .indexError
  | r :: rows =>
    if r.params = [] then .error .valueError
    else if ∀ x ∈ r :: rows, x.metrics.lookup metric = none then .error .keyError
    else
      let keys := r.params.map Prod.fst
      .ok (sort (((r :: rows).filterMap (keyOf keys)).dedup.map (lineOfGroup keys metric (r :: rows))))

/-- `scripts/summarize_tune_results.py`: the experiment is looked up by name in the default store, its runs are
searched in the store of `TRACKING_URI`. -/
def summarize (sort : List Line → List Line) (metric freshId : String) (store : Store) (runs : List Run)
    (experiment : String) (dataset : Text) : Py (List Line) × Store :=
  match Mlflow.getExperimentIdByName freshId store experiment with
  | (.error e, s) => (.error e, s)
  | (.ok i, s) => (summarizeRows sort metric (searchRuns runs i dataset), s)

end Tune

end Verif
