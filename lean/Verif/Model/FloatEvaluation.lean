/-
Model of the eight metrics of `corset/evaluation.py` as they are computed: in double precision.

The counts are 64-bit integers and exact; each conversion of a count to a double, each quotient, product and
sum is rounded (`fl`), and the sum over the labels or rows is taken in some order (`Summation`). The
expressions are those of scikit-learn 1.0.2 (`hamming_loss`, `accuracy_score`, `_prf_divide`,
`precision_recall_fscore_support`), which calls `numpy.average` for means.

Simplifications: as in `Verif.Model.Evaluation`, and the exponent of a double is not bounded (the smallest
positive score is at least `2⁻⁵⁰` for the sizes considered).
-/
import Verif.Model.Evaluation
import Verif.Model.Float

namespace Verif

/-- `hamming_accuracy`, `corset/evaluation.py:17-18`: `1 - n_differences / (n_samples * n_labels * 1.0)`. -/
noncomputable def hammingAccuracyF (P T : Cmp) : ℝ :=
  fl (1 - fl (fl (((List.range T.nMajor).map (rowDifferences P T)).sum : ℕ) / fl ((T.nMajor * T.nMinor : ℕ) : ℝ)))

/-- `subset_accuracy`, `corset/evaluation.py:21-22`: the mean of the indicators of the agreeing rows. -/
noncomputable def subsetAccuracyF (S : Summation) (P T : Cmp) : ℝ :=
  fl (S.sum ((List.range T.nMajor).map fun i => if rowDifferences P T i = 0 then (1 : ℝ) else 0) /
    fl (T.nMajor : ℝ))

/-- `_prf_divide` with `zero_division=1`: a quotient of two integer arrays. -/
noncomputable def prfDivideF (num den : ℕ) : ℝ := if den = 0 then 1 else fl (fl (num : ℝ) / fl (den : ℝ))

/-- `(1 + beta2) * precision * recall / denom` with `beta=1`; a zero denominator is replaced by one. -/
noncomputable def fScoreF (p r : ℝ) : ℝ :=
  fl (fl (fl (2 * p) * r) / (if fl (p + r) = 0 then 1 else fl (p + r)))

/-- `np.average` over the labels. -/
noncomputable def labelMeanF (S : Summation) (L : ℕ) (f : ℕ → ℝ) : ℝ :=
  fl (S.sum ((List.range L).map f) / fl (L : ℝ))

/-- `micro_precision`, `corset/evaluation.py:25-29`. -/
noncomputable def microPrecisionF (P T : Cmp) : ℝ :=
  prfDivideF (labelTotal T.nMinor (tpSum P T)) (labelTotal T.nMinor (colCount P))

/-- `micro_recall`, `corset/evaluation.py:32-36`. -/
noncomputable def microRecallF (P T : Cmp) : ℝ :=
  prfDivideF (labelTotal T.nMinor (tpSum P T)) (labelTotal T.nMinor (colCount T))

/-- `micro_f1`, `corset/evaluation.py:39-43`. -/
noncomputable def microF1F (P T : Cmp) : ℝ := fScoreF (microPrecisionF P T) (microRecallF P T)

/-- `macro_precision`, `corset/evaluation.py:46-50`. -/
noncomputable def macroPrecisionF (S : Summation) (P T : Cmp) : ℝ :=
  labelMeanF S T.nMinor fun j => prfDivideF (tpSum P T j) (colCount P j)

/-- `macro_recall`, `corset/evaluation.py:53-57`. -/
noncomputable def macroRecallF (S : Summation) (P T : Cmp) : ℝ :=
  labelMeanF S T.nMinor fun j => prfDivideF (tpSum P T j) (colCount T j)

/-- `macro_f1`, `corset/evaluation.py:60-64`. -/
noncomputable def macroF1F (S : Summation) (P T : Cmp) : ℝ :=
  labelMeanF S T.nMinor fun j =>
    fScoreF (prfDivideF (tpSum P T j) (colCount P j)) (prfDivideF (tpSum P T j) (colCount T j))

end Verif
