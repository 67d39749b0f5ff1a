/-
Specification vocabulary for training and evaluating on a data set: tables of zeros and ones, rules, scores.
Nothing here mentions sparse matrices, samplers or the classes of the program.
-/
import Verif.Model.Pipeline
import Verif.Spec.Evaluation

namespace Verif

namespace Pipeline

open Load (Mat)

/-- Every row has the width of the table and consists of zeros and ones. -/
def ZeroOne (m : Mat) : Prop := ∀ r ∈ m.rows, r.length = m.ncols ∧ ∀ v ∈ r, v = 0 ∨ v = 1

/-- There is a one in row `i`, column `j`. -/
def HasOne (m : Mat) (i j : ℕ) : Prop := ∃ r, m.rows[i]? = some r ∧ r[j]? = some 1

/-- Record `i` has all the listed items. -/
def HasAll (m : Mat) (items : List ℤ) (i : ℕ) : Prop := ∀ f ∈ items, ∃ j : ℕ, f = j ∧ HasOne m i j

/-- Some rule whose head record `i` has predicts label `l`. -/
def Predicts (rules : List Rule) (X : Mat) (i l : ℕ) : Prop :=
  ∃ r ∈ rules, HasAll X r.head i ∧ (l : ℤ) ∈ r.tail

/-- Some rule that predicts label `l` has a head and a tail that record `i` has. -/
def Covers (rules : List Rule) (X Y : Mat) (i l : ℕ) : Prop :=
  ∃ r ∈ rules, HasAll X r.head i ∧ HasAll Y r.tail i ∧ (l : ℤ) ∈ r.tail

open Classical in
/-- The positions of an `n × L` table where `p` holds. -/
noncomputable def cells (n L : ℕ) (p : ℕ → ℕ → Prop) : Finset (ℕ × ℕ) :=
  (Finset.range n ×ˢ Finset.range L).filter fun e => p e.1 e.2

/-- The positions of column `j`. -/
def column (s : Finset (ℕ × ℕ)) (j : ℕ) : Finset (ℕ × ℕ) := s.filter fun e => e.2 = j

/-- The scores of predicting the positions `P` when `T` is true, in an `n × L` table. -/
noncomputable def score (n L : ℕ) (P T : Finset (ℕ × ℕ)) : String → ℚ
  | "hamming_accuracy" => 1 - ((symmDiff P T).card : ℚ) / (n * L)
  | "subset_accuracy" => (((Finset.range n).filter fun i => ∀ l < L, ((i, l) ∈ P ↔ (i, l) ∈ T)).card : ℚ) / n
  | "micro_precision" => share (P ∩ T).card P.card
  | "micro_recall" => share (P ∩ T).card T.card
  | "micro_f1" => dice (P ∩ T).card P.card T.card
  | "macro_precision" => (∑ j ∈ Finset.range L, share (column P j ∩ column T j).card (column P j).card) / L
  | "macro_recall" => (∑ j ∈ Finset.range L, share (column P j ∩ column T j).card (column T j).card) / L
  | "macro_f1" =>
    (∑ j ∈ Finset.range L, dice (column P j ∩ column T j).card (column P j).card (column T j).card) / L
  | _ => 0

/-- The share of the label occurrences that the rules cover; `none` if there are no label occurrences. -/
noncomputable def coverageSpec (rules : List Rule) (X Y : Mat) : Option ℚ :=
  if (cells Y.rows.length Y.ncols (HasOne Y)).card = 0 then none
  else some ((cells Y.rows.length Y.ncols (Covers rules X Y)).card /
    ((cells Y.rows.length Y.ncols (HasOne Y)).card : ℚ))

/-- The scores of the rules on records with features `X` and labels `Y`. -/
noncomputable def rulesScore (rules : List Rule) (X Y : Mat) (metric : String) : ℚ :=
  score Y.rows.length Y.ncols (cells Y.rows.length Y.ncols (Predicts rules X))
    (cells Y.rows.length Y.ncols (HasOne Y)) metric

/-- The dictionary that a run returns: eight scores on the records evaluated, coverage on the records trained on,
and the number of rules. -/
noncomputable def perfSpec (rules : List Rule) (trnX trnY X Y : Mat) : Perf :=
  (["hamming_accuracy", "subset_accuracy", "micro_precision", "micro_recall", "micro_f1", "macro_precision",
      "macro_recall", "macro_f1"].map fun m => (m, some (rulesScore rules X Y m))) ++
    [("coverage", coverageSpec rules trnX trnY), ("n_rules", some (rules.length : ℚ))]

/-- The configuration, with defaults filled in, has numbers where numbers are needed, draws at least one tail and one
head per round, and asks for at most `k` rules. -/
structure Sensible (config : Config) (k : ℕ) : Prop where
  limit : config.get "n_max_rules" (.int 10) = .int k
  tails : ∃ t : ℕ, 0 < t ∧ config.get "n_tails_per_iter" (.int 100) = .int t
  heads : ∃ h : ℕ, 0 < h ∧ config.get "n_heads_per_tail" (.int 10) = .int h
  lambd : ∃ q, config.get "lambd" (.float 10) = .float q
  features : ∃ q, config.get "min_feature_proba" (.float (8 / 10)) = .float q
  labels : ∃ q, config.get "min_label_proba" (.float (8 / 10)) = .float q

/-- What every successful run with at most `k` rules leaves: rules that occur in the training records, and that cover
all label occurrences if there are fewer than `k`. -/
structure LearnedFrom (rules : List Rule) (X Y : Mat) (k : ℕ) : Prop where
  few : rules.length ≤ k
  found : ∀ r ∈ rules, r.head ≠ [] ∧ r.tail ≠ [] ∧ ∃ i < Y.rows.length, HasAll X r.head i ∧ HasAll Y r.tail i
  all : rules.length < k → ∀ i l, HasOne Y i l → Covers rules X Y i l

/-- What is read has zeros and ones only, training and test records, at least one label and at least one
feature; the recursion bound of the clique enumeration exceeds the widths. -/
structure GoodData (f : Load.Fetched) (depth : ℕ) : Prop where
  trnX : ZeroOne f.trnX
  trnY : ZeroOne f.trnY
  tstX : ZeroOne f.tstX
  tstY : ZeroOne f.tstY
  train : 0 < f.trnX.rows.length
  test : 0 < f.tstX.rows.length
  labels : 0 < f.trnY.ncols
  features_lt : f.trnX.ncols < depth
  labels_lt : f.trnY.ncols < depth
  features : 0 < f.trnX.ncols

/-- Two records share a feature, but some label is true of only one of them; or some record has no feature. -/
def Troublesome (X Y : Mat) : Prop :=
  (∃ i j f l, HasOne X i f ∧ HasOne X j f ∧ HasOne Y i l ∧ ¬ HasOne Y j l) ∨
    ∃ i < X.rows.length, ∀ f, ¬ HasOne X i f

/-- Some label is true of every record. -/
def EverywhereTrue (Y : Mat) : Prop := ∃ l, ∀ i < Y.rows.length, HasOne Y i l

end Pipeline

end Verif
