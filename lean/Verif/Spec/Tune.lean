/-
Specification vocabulary for tuning: what a round of a trial is, what it is worth, averages.
-/
import Verif.Model.Tune
import Verif.Spec.Pipeline

namespace Verif

namespace Tune

open Pipeline
open Load (Mat World)
open Arff (Text)

/-- A division of the training records of a data set, and rules. -/
structure Division where
  trnX : Mat
  trnY : Mat
  devX : Mat
  devY : Mat

/-- The division is one of the training records of the data set as read: every record goes to one of the two parts, seven
tenths (rounded down) to the first. -/
def DividedFrom (w : World) (datadir dataset : Text) (d : Division) : Prop :=
  ∃ f, (Load.fetch w datadir dataset).Outcome (.ok f) ∧
    ((d.trnX.rows.zip d.trnY.rows) ++ (d.devX.rows.zip d.devY.rows)).Perm (f.trnX.rows.zip f.trnY.rows) ∧
    d.trnX.rows.length = ⌊(7 / 10 : ℚ) * f.trnX.rows.length⌋₊ ∧ f.trnX.rows.length = f.trnY.rows.length

/-- A completed round: a division and the rules that were learned. -/
structure Round where
  division : Division
  rules : List Rule

/-- The rules were learned from the first part of a division of the data set. -/
structure Fair (w : World) (datadir dataset : Text) (k : ℕ) (r : Round) : Prop where
  divided : DividedFrom w datadir dataset r.division
  learned : LearnedFrom r.rules r.division.trnX r.division.trnY k

/-- A score of a round: on the part that was not trained on. -/
noncomputable def Round.score (r : Round) (metric : String) : ℚ :=
  rulesScore r.rules r.division.devX r.division.devY metric

/-- The share of the label occurrences of the part trained on that is covered. -/
noncomputable def Round.coverage (r : Round) : Option ℚ := coverageSpec r.rules r.division.trnX r.division.trnY

/-- The scores of a round. -/
noncomputable def Round.perf (r : Round) : Perf :=
  perfSpec r.rules r.division.trnX r.division.trnY r.division.devX r.division.devY

/-- The average of a list of numbers. -/
def average (l : List ℚ) : ℚ := l.sum / l.length

/-- What a trial should report: averages over its rounds. Rounds without label occurrences in the part trained on do not
count for the coverage; if there are no others it is not a number. -/
noncomputable def reportSpec (rs : List Round) : Perf :=
  (["hamming_accuracy", "subset_accuracy", "micro_precision", "micro_recall", "micro_f1", "macro_precision",
      "macro_recall", "macro_f1"].map fun m => (m, some (average (rs.map fun r => r.score m)))) ++
    [("coverage", if rs.filterMap Round.coverage = [] then none else some (average (rs.filterMap Round.coverage))),
      ("n_rules", some (average (rs.map fun r => (r.rules.length : ℚ))))]

/-- The six hyperparameters, defaults filled in, as texts. -/
def paramsSpec (str : PyVal → String) (config : Config) : List (String × String) :=
  [("lambd", str (config.get "lambd" (.float 10))),
   ("min_feature_proba", str (config.get "min_feature_proba" (.float (8 / 10)))),
   ("min_label_proba", str (config.get "min_label_proba" (.float (8 / 10)))),
   ("n_heads_per_tail", str (config.get "n_heads_per_tail" (.int 10))),
   ("n_max_rules", str (config.get "n_max_rules" (.int 10))),
   ("n_tails_per_iter", str (config.get "n_tails_per_iter" (.int 100)))]

/-- The record in the tracking store of a completed round. -/
noncomputable def Round.run (str : PyVal → String) (su : Setup) (i : String) (r : Round) : Run :=
  { experiment := i, dataset := su.dataset, version := su.version, params := paramsSpec str su.config,
    metrics := r.perf, finished := true }

/-- Why a trial may fail: reading the data failed; what was read does not fit together or is too small to be
divided; the part trained on is troublesome; some label is true of every record trained on. -/
def Cause (w : World) (datadir dataset : Text) (e : PyErr) : Prop :=
  (Load.fetch w datadir dataset).Outcome (.error e) ∨
  (∃ f, (Load.fetch w datadir dataset).Outcome (.ok f) ∧
    (f.trnX.rows.length ≠ f.trnY.rows.length ∨ f.tstX.rows.length ≠ f.tstY.rows.length ∨
      f.trnX.ncols ≠ f.tstX.ncols ∨ f.trnY.ncols ≠ f.tstY.ncols ∨ f.trnX.rows.length < 2)) ∨
  (e = .typeError ∧ ∃ d, DividedFrom w datadir dataset d ∧ Troublesome d.trnX d.trnY) ∨
  (e = .assertionError ∧ ∃ d, DividedFrom w datadir dataset d ∧ EverywhereTrue d.trnY)

end Tune

end Verif
