/-
Training and evaluating on a data set: `train_greedy_and_eval` and `train_and_eval` (`corset/exp.py:33-75`), and the
trial of `scripts/tune_and_eval.py`.

Simplifications: log messages and times are not modelled. The matrices of a data set are tables of integers; the
learners see their CSR form without stored zeros. A hyperparameter of the wrong kind raises `TypeError` before fitting
starts (in the code: when it is first used). `fuel` bounds the number of iterations of the fitting loop, `none` means
that it was not enough.
-/
import Verif.Model.Load
import Verif.Model.Learner
import Verif.Model.Exp
import Verif.Model.Evaluation

namespace Verif

namespace Pipeline

open Load (Mat Obj World)

/-- The entries of a row that are not zero, with their columns. -/
def lineOf (ncols : ℕ) (r : List ℤ) : List (ℕ × ℤ) :=
  ((List.range ncols).map fun j => (j, r.getD j 0)).filter fun e => e.2 ≠ 0

/-- The CSR form of a table. -/
def toCsr (m : Mat) : Cmp := Cmp.ofLines m.ncols (m.rows.map (lineOf m.ncols))

/-- A hyperparameter used as a number. -/
def numOf : PyVal → Py ℚ
  | .int i => .ok i
  | .float q => .ok q
  | _ => .error .typeError

/-- A hyperparameter used as `range(n)`. -/
def countOf : PyVal → Py ℕ
  | .int i => .ok i.toNat
  | _ => .error .typeError

/-- A hyperparameter used as `len(rules) >= n` (`corset/greedy/divmax_v2.py:35-36`). -/
def limitOf : PyVal → Py (Option ℕ)
  | .none => .ok none
  | .int i => .ok (some i.toNat)
  | .float q => .ok (some ⌈q⌉.toNat)
  | _ => .error .typeError

/-- A classifier as `fit` sees it. -/
structure Ready where
  v3 : Bool
  params : Params
  obj : LearnObj

/-- The hyperparameters on a new object (`corset/greedy/divmax_v2.py:92-114`, `divmax_v3.py:16-38`). -/
noncomputable def readyOf (b : Built) : Py Ready := do
  let f ← numOf (← b.clf.getAttr "min_feature_proba")
  let l ← numOf (← b.clf.getAttr "min_label_proba")
  let la ← numOf (← b.clf.getAttr "lambd")
  let t ← countOf (← b.clf.getAttr "n_tails_per_iter")
  let h ← countOf (← b.clf.getAttr "n_heads_per_tail")
  let m ← limitOf (← b.clf.getAttr "n_max_rules")
  return { v3 := b.cls = "GreedyCFTPDivMaxV3",
           params := { lambd := (la : ℝ), nTails := t, nHeads := h, nMaxRules := m, tolerance := 0 },
           obj := LearnObj.new f l }

/-- `clf.fit(X, Y)`: the object afterwards. -/
noncomputable def fitReady (env : LearnEnv) (r : Ready) (X Y : Cmp) (fuel : ℕ) : RandR (Option LearnObj) := do
  let x ← learnFitV2 env r.params (if r.v3 then learnerV3 r.params else learnerV2 r.params)
    (if r.v3 then qualityOfRuleV3 else qualityOfRule) r.obj X Y fuel
  return x.map Prod.fst

/-- `clf.coverage_ratio()` (`corset/greedy/base.py:71-84`); `none`: not a number, when there are no labels. -/
def coverageOf (Y : Cmp) (selected : List BRule) : Py (Option ℚ) :=
  match coverageRatio Y selected with
  | .ok q => .ok (some q)
  | .error .zeroDivisionError => .ok none
  | .error e => .error e

/-- The dictionary of scores. -/
abbrev Perf := List (String × Option ℚ)

/-- `pred = clf.predict(X)`, `Evaluator(metrics).report(pred, Y)` (`corset/exp.py:50-52, 65-67`). -/
def scoresOf (metrics : List String) (o : LearnObj) (numLabels : ℕ) (X Y : Cmp) : Py Perf := do
  let pred ← predict (o.selected.map BRule.toRule) (some numLabels) X
  let ms ← evaluatorInit metrics
  let rep ← evaluatorReport ms pred Y
  return rep.map fun e => (e.1, some e.2)

/-- The rest of a run once the classifier was fitted on a training part with labels `trnY`
(`corset/exp.py:50-57, 65-70`). -/
def evaluateFitted (o : LearnObj) (trnY : Mat) (X Y : Mat) : Py Perf := do
  let perf ← scoresOf availableMetrics o trnY.ncols (toCsr X) (toCsr Y)
  let c ← coverageOf (toCsr trnY) o.selected
  return perf ++ [("coverage", c), ("n_rules", some (o.selected.length : ℚ))]

/-- `ds.load()` as a statement: an exception propagates. -/
noncomputable def loadOrRaise (w : World) (perm : ℕ → List ℕ) (ds : Obj) : RandR Obj := do
  let r ← (Load.load w perm ds).toReal
  match r.1 with
  | .ok () => return r.2
  | .error e => .raise e

/-- `create_greedy_clf_from_config_by_version` (`corset/exp.py:157-164`); `none` is a version that is not a string. -/
def createVersion (config : Config) : Option String → Py Built
  | some v => createByVersion config v
  | none => .error .assertionError

/-- The data that are evaluated on (`corset/exp.py:46-49`). -/
def targetOf (ds : Obj) (validation : Bool) : Py (Mat × Mat) :=
  if validation then do
    let X ← attr ds.data.devX
    let Y ← attr ds.data.devY
    return (X, Y)
  else do
    let X ← attr ds.data.tstX
    let Y ← attr ds.data.tstY
    return (X, Y)

/-- `train_greedy_and_eval` (`corset/exp.py:33-57`): the fitted classifier and its scores. -/
noncomputable def trainGreedyAndEval (w : World) (perm : ℕ → List ℕ) (env : LearnEnv) (ds : Obj) (config : Config)
    (version : Option String) (validation : Bool) (fuel : ℕ) : RandR (Option (LearnObj × Perf)) := do
  let ds' ← loadOrRaise w perm ds
  let b ← .lift (createVersion config version)
  let r ← .lift (readyOf b)
  let X ← .lift (attr ds'.data.trnX)
  let Y ← .lift (attr ds'.data.trnY)
  let fitted ← fitReady env r (toCsr X) (toCsr Y) fuel
  match fitted with
  | none => return none
  | some o => do
    let t ← .lift (targetOf ds' validation)
    let perf ← .lift (evaluateFitted o Y t.1 t.2)
    return some (o, perf)

/-- `train_and_eval` (`corset/exp.py:59-75`) with one of the two classifiers. -/
noncomputable def trainAndEval (w : World) (perm : ℕ → List ℕ) (env : LearnEnv) (ds : Obj) (b : Built) (fuel : ℕ) :
    RandR (Option (LearnObj × Perf)) := do
  let ds' ← loadOrRaise w perm ds
  let r ← .lift (readyOf b)
  let X ← .lift (attr ds'.data.trnX)
  let Y ← .lift (attr ds'.data.trnY)
  let fitted ← fitReady env r (toCsr X) (toCsr Y) fuel
  match fitted with
  | none => return none
  | some o => do
    let X' ← .lift (attr ds'.data.tstX)
    let Y' ← .lift (attr ds'.data.tstY)
    let perf ← .lift (evaluateFitted o Y X' Y')
    return some (o, perf)

/-- One round of the loop of `one_run` in `scripts/tune_and_eval.py:36-52`, on the loaded data set: the data are
divided, but `fit` gets all of them. -/
noncomputable def tuneRound (perm : ℕ → List ℕ) (env : LearnEnv) (ds : Obj) (config : Config) (fuel : ℕ) :
    RandR (Option (LearnObj × Perf)) := do
  let X ← .lift (attr ds.data.trnX)
  let Y ← .lift (attr ds.data.trnY)
  let s ← .lift (trainTestSplit perm X Y (7 / 10))
  let r ← .lift (readyOf (createFromConfig "GreedyCFTPDivMaxV2" config))
  let fitted ← fitReady env r (toCsr X) (toCsr Y) fuel
  match fitted with
  | none => return none
  | some o => do
    let perf ← .lift (scoresOf ["micro_f1", "macro_f1", "hamming_accuracy"] o Y.ncols (toCsr s.2.1) (toCsr s.2.2.2))
    let c ← .lift (coverageOf (toCsr Y) o.selected)
    return some (o, perf ++ [("n_rules", some (o.selected.length : ℚ)), ("coverage", c)])

end Pipeline

end Verif
