/-
Specification vocabulary for the scripts that run experiments.
-/
import Verif.Model.Scripts
import Verif.Spec.Tune

namespace Verif

namespace Scripts

open Pipeline Tune
open Load (World)
open Arff (Text)

/-- Why training on the training records of a data set and scoring on its test records may fail. -/
def WhyNot (w : World) (datadir dataset : Text) (e : PyErr) : Prop :=
  (Load.fetch w datadir dataset).Outcome (.error e) ∨
  ∃ f, (Load.fetch w datadir dataset).Outcome (.ok f) ∧
    ((e = .assertionError ∧ (f.trnX.rows.length ≠ f.trnY.rows.length ∨ f.tstX.rows.length ≠ f.tstY.rows.length ∨
        f.trnX.ncols ≠ f.tstX.ncols ∨ f.trnY.ncols ≠ f.tstY.ncols)) ∨
      (e = .typeError ∧ Troublesome f.trnX f.trnY) ∨ (e = .assertionError ∧ EverywhereTrue f.trnY))

/-- The scores of rules that were learned, at most `k` of them, from the training records of a data set as read; the
records scored are its test records. -/
def ScoresOn (w : World) (datadir dataset : Text) (k : ℕ) (perf : Perf) : Prop :=
  ∃ f rules, (Load.fetch w datadir dataset).Outcome (.ok f) ∧ LearnedFrom rules f.trnX f.trnY k ∧
    perf = perfSpec rules f.trnX f.trnY f.tstX f.tstY

/-- The record of a completed job: the data set, the version, the six hyperparameters with defaults filled in, and the
scores. -/
structure Completed (w : World) (str : PyVal → String) (su : Setup) (datadir : Text) (i : String) (k : ℕ) (r : Run) :
    Prop where
  experiment : r.experiment = i
  dataset : r.dataset = su.dataset
  version : r.version = su.version
  params : r.params = paramsSpec str su.config
  metrics : ScoresOn w datadir su.dataset k r.metrics
  finished : r.finished = true

/-- The scripts' table: how many rules `train_greedy_and_eval.py` asks for. -/
def trainLimits : List (String × ℕ) :=
  [("toy", 10), ("bibtex", 84), ("medical", 49), ("emotions", 19), ("birds", 48), ("enron", 49), ("mediamill", 44)]

/-- How many rules `effect_of_min_feature_proba.py` asks for, how often it runs each threshold, and the thresholds. -/
def featureTable : List (String × ℕ × ℕ × List ℚ) :=
  [("toy", 10, 4, [0, 1 / 2, 1]), ("bibtex", 85, 8, [7 / 10, 4 / 5, 9 / 10, 1]),
   ("medical", 40, 8, [2 / 5, 1 / 2, 3 / 5, 7 / 10, 4 / 5, 9 / 10, 1]),
   ("emotions", 25, 8, [1 / 2, 3 / 5, 7 / 10, 4 / 5, 9 / 10, 1])]

end Scripts

end Verif
