/-
The experiment helpers of `corset/utils.py` and what the scripts do with them. The tracking store of `mlflow` is a
list of experiments with an id and a name; the three calls of its interface that are used are atomic, and the id of a
new experiment is chosen by the store. Deleted experiments, tags and the contents of runs are not modelled.
-/
import Verif.Py

namespace Verif

namespace Mlflow

/-- An experiment of the tracking store. -/
structure Experiment where
  id : String
  name : String
  deriving DecidableEq, Repr

/-- The tracking store. -/
abbrev Store := List Experiment

/-- `mlflow.get_experiment_by_name(name)`; `None` when there is no such experiment. -/
def getByName (s : Store) (name : String) : Option Experiment := s.find? fun e => e.name = name

/-- `mlflow.create_experiment(name)` when the store chooses the id `i`: the id, and the store afterwards; an
`MlflowException` when the name is in use. -/
def createExperiment (s : Store) (i name : String) : Py String × Store :=
  if s.any fun e => e.name = name then (.error .exception, s) else (.ok i, s ++ [⟨i, name⟩])

/-- `create_experiment_if_needed` (`corset/utils.py:169-174`), `i` being the id chosen by the store if an experiment
is created. After creating it the function looks for an experiment whose name is the id. -/
def createIfNeeded (i : String) (s : Store) (name : String) : Py (Option Experiment) × Store :=
  match getByName s name with
  | some e => (.ok (some e), s)
  | none =>
    match createExperiment s i name with
    | (.error e, s') => (.error e, s')
    | (.ok j, s') => (.ok (getByName s' j), s')

/-- `exp.experiment_id` (`corset/utils.py:179`); `None` has no such attribute. -/
def idOf : Option Experiment → Py String
  | some e => .ok e.id
  | none => .error .attributeError

/-- `get_experiment_id_by_name` (`corset/utils.py:177-179`). -/
def getExperimentIdByName (i : String) (s : Store) (name : String) : Py String × Store :=
  match createIfNeeded i s name with
  | (.error e, s') => (.error e, s')
  | (.ok x, s') => (idOf x, s')

/-! ### Several processes -/

/-- Where a process is in `get_experiment_id_by_name`: the calls of the store are the steps. -/
inductive Proc
  /-- before `mlflow.get_experiment_by_name(name)`, `corset/utils.py:170` -/
  | start
  /-- it returned `None`: before `mlflow.create_experiment(name)`, `corset/utils.py:172` -/
  | missing
  /-- before `mlflow.get_experiment_by_name(exp_id)`, `corset/utils.py:173` -/
  | created (id : String)
  /-- the call returned or raised -/
  | done (r : Py String)
  deriving DecidableEq

/-- One step of a process, `i` being the id the store chooses if it has to choose one. -/
def step (name i : String) (s : Store) : Proc → Proc × Store
  | .start =>
    match getByName s name with
    | some e => (.done (idOf (some e)), s)
    | none => (.missing, s)
  | .missing =>
    match createExperiment s i name with
    | (.error e, s') => (.done (.error e), s')
    | (.ok j, s') => (.created j, s')
  | .created j => (.done (idOf (getByName s j)), s)
  | .done r => (.done r, s)

/-- The processes and the store they share. -/
structure World where
  procs : List Proc
  store : Store

/-- Process `k` makes a step. -/
def World.turn (name : String) (w : World) (k : ℕ) (i : String) : World :=
  match w.procs[k]? with
  | none => w
  | some p => ⟨w.procs.set k (step name i w.store p).1, (step name i w.store p).2⟩

/-- The processes make steps in the order of the schedule; with each step comes the id the store would choose. -/
def World.run (name : String) (w : World) : List (ℕ × String) → World
  | [] => w
  | (k, i) :: rest => (w.turn name k i).run name rest

/-- `n` processes that are about to call `get_experiment_id_by_name(name)`: the trials of
`scripts/effect_of_min_feature_proba.py:17-19, 71-75` and of `scripts/train_greedy_and_eval.py:17-19, 87-90`. -/
def World.init (n : ℕ) (s : Store) : World := ⟨List.replicate n .start, s⟩

/-- The start of `scripts/train_greedy_and_eval.py:84-90` and `scripts/tune_greedy.py:126`: the experiment is created
before the processes are started; the value of `create_experiment_if_needed` is not used. -/
def prepared (i : String) (n : ℕ) (s : Store) (name : String) : Py World :=
  match createIfNeeded i s name with
  | (.error e, _) => .error e
  | (.ok _, s') => .ok (World.init n s')

end Mlflow

end Verif
