/-
Model of `TailEvaluator.report_summary` in `corset/evaluation.py`: the table that `DataFrame.describe` makes of the
scores of sampled tails.

Simplifications: scores are rational numbers, the standard deviation a real number (pandas computes in `float64`);
a frame is the list of its columns.
-/
import Verif.Model.Evaluation
import Verif.Model.Quantile
import Mathlib.Analysis.Real.Sqrt

namespace Verif

/-- One column of `DataFrame.describe`; `none` is NaN. -/
structure ColSummary where
  count : ℕ
  mean : Option ℚ
  std : Option ℝ
  min : Option ℚ
  q25 : Option ℚ
  q50 : Option ℚ
  q75 : Option ℚ
  max : Option ℚ

/-- The mean of some numbers. -/
def meanOf (v : List ℚ) : ℚ := v.sum / v.length

/-- `Series.quantile`: NaN without numbers. -/
def quantileOf (v : List ℚ) (q : ℚ) : Option ℚ := (Quantile.quantile v q).toOption

/-- `Series.describe` of a column of numbers, called by `corset/evaluation.py:154`: NaN entries are left out. -/
noncomputable def describeColumn (col : List (Option ℚ)) : ColSummary :=
  let v := col.filterMap id
  { count := v.length
    mean := if v = [] then none else some (meanOf v)
    std :=
      if v.length < 2 then none
      else some (Real.sqrt (((v.map fun x => (x - meanOf v) ^ 2).sum / ((v.length : ℚ) - 1) : ℚ) : ℝ))
    min := v.min?
    q25 := quantileOf v (1 / 4)
    q50 := quantileOf v (1 / 2)
    q75 := quantileOf v (3 / 4)
    max := v.max? }

/-- `TailEvaluator.report_summary`, `corset/evaluation.py:151-154`. -/
noncomputable def tailReportSummary (order : Finset ℕ → List ℕ) (ev : TailEval) (Ss : List (Finset ℕ)) :
    Py (List (String × ColSummary)) := do
  let df ← tailReport order ev Ss
  return df.map fun col => (col.1, describeColumn col.2)

end Verif
