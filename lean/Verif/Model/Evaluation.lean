/-
Model of `corset/evaluation.py`: the eight prediction metrics with `Evaluator`, and the statistics of
sampled tails with `TailEvaluator`.

Simplifications: scores are rational numbers; the metrics of scikit-learn 1.0.2 are modelled by the
computations of that release on sparse indicator matrices (`multilabel_confusion_matrix`,
`precision_recall_fscore_support`, `hamming_loss`, `accuracy_score`), for matrices that scikit-learn
recognises as such (at least two labels); `pandas` frames are lists of columns.
-/
import Verif.Model.Graph

namespace Verif

/-! ### Metrics -/

/-- `count_nonzero(y_true - y_pred, axis=1)` for one row, inside `hamming_loss` and `accuracy_score`. -/
def rowDifferences (P T : Cmp) (i : ℕ) : ℕ :=
  (List.range T.nMinor).countP fun j => cellSum T i j - cellSum P i j ≠ 0

/-- `hamming_accuracy`, `corset/evaluation.py:17-18`. -/
def hammingAccuracy (P T : Cmp) : ℚ :=
  1 - (((List.range T.nMajor).map (rowDifferences P T)).sum : ℚ) / ((T.nMajor : ℚ) * T.nMinor)

/-- `subset_accuracy`, `corset/evaluation.py:21-22`. -/
def subsetAccuracy (P T : Cmp) : ℚ :=
  ((List.range T.nMajor).countP fun i => rowDifferences P T i = 0 : ℚ) / T.nMajor

/-- `tp_sum` of one label: `count_nonzero(y_true.multiply(y_pred), axis=0)`. -/
def tpSum (P T : Cmp) (j : ℕ) : ℕ := (List.range T.nMajor).countP fun i => cellSum T i j * cellSum P i j ≠ 0

/-- `count_nonzero(m, axis=0)` for one label. -/
def colCount (m : Cmp) (j : ℕ) : ℕ := (List.range m.nMajor).countP fun i => cellSum m i j ≠ 0

/-- `_prf_divide` with `zero_division=1`. -/
def prfDivide (num den : ℕ) : ℚ := if den = 0 then 1 else (num : ℚ) / den

/-- The F-score of precision and recall with `beta=1`; a zero denominator is replaced by one. -/
def fScore (p r : ℚ) : ℚ := (1 + 1) * p * r / (if p + r = 0 then 1 else p + r)

/-- `average='macro'`: the mean over the labels. -/
def labelMean (L : ℕ) (f : ℕ → ℚ) : ℚ := ((List.range L).map f).sum / L

/-- `average='micro'`: the counts are added up over the labels. -/
def labelTotal (L : ℕ) (f : ℕ → ℕ) : ℕ := ((List.range L).map f).sum

/-- `micro_precision`, `corset/evaluation.py:25-29`. -/
def microPrecision (P T : Cmp) : ℚ :=
  prfDivide (labelTotal T.nMinor (tpSum P T)) (labelTotal T.nMinor (colCount P))

/-- `micro_recall`, `corset/evaluation.py:32-36`. -/
def microRecall (P T : Cmp) : ℚ :=
  prfDivide (labelTotal T.nMinor (tpSum P T)) (labelTotal T.nMinor (colCount T))

/-- `micro_f1`, `corset/evaluation.py:39-43`. -/
def microF1 (P T : Cmp) : ℚ := fScore (microPrecision P T) (microRecall P T)

/-- `macro_precision`, `corset/evaluation.py:46-50`. -/
def macroPrecision (P T : Cmp) : ℚ := labelMean T.nMinor fun j => prfDivide (tpSum P T j) (colCount P j)

/-- `macro_recall`, `corset/evaluation.py:53-57`. -/
def macroRecall (P T : Cmp) : ℚ := labelMean T.nMinor fun j => prfDivide (tpSum P T j) (colCount T j)

/-- `macro_f1`, `corset/evaluation.py:60-64`. -/
def macroF1 (P T : Cmp) : ℚ :=
  labelMean T.nMinor fun j => fScore (prfDivide (tpSum P T j) (colCount P j)) (prfDivide (tpSum P T j) (colCount T j))

/-- `AVAILABLE_METRICS`, `corset/evaluation.py:12-14`. -/
def availableMetrics : List String :=
  ["hamming_accuracy", "subset_accuracy", "micro_precision", "micro_recall", "micro_f1", "macro_precision",
    "macro_recall", "macro_f1"]

/-- `Evaluator.name2func`, `corset/evaluation.py:81-90`. -/
def name2func : List (String × (Cmp → Cmp → ℚ)) :=
  [("hamming_accuracy", hammingAccuracy), ("subset_accuracy", subsetAccuracy),
    ("micro_precision", microPrecision), ("micro_recall", microRecall), ("micro_f1", microF1),
    ("macro_precision", macroPrecision), ("macro_recall", macroRecall), ("macro_f1", macroF1)]

/-- `Evaluator.__init__`, `corset/evaluation.py:76-79`: the metrics it will report. -/
def evaluatorInit (metrics : List String) : Py (List String) :=
  if ∀ m ∈ metrics, m ∈ availableMetrics then .ok metrics else .error .assertionError

/-- `res[m] = v` on an `OrderedDict`: a present key keeps its place. -/
def dictSet (res : List (String × ℚ)) (m : String) (v : ℚ) : List (String × ℚ) :=
  if m ∈ res.map Prod.fst then res.map fun e => if e.1 = m then (m, v) else e else res ++ [(m, v)]

/-- One metric of the report: `ValueError` for matrices of different shapes. -/
def reportOne (P T : Cmp) (res : List (String × ℚ)) (m : String) : Py (List (String × ℚ)) :=
  match name2func.lookup m with
  | none => .error .keyError
  | some f => if P.nMajor = T.nMajor ∧ P.nMinor = T.nMinor then .ok (dictSet res m (f P T)) else .error .valueError

/-- `Evaluator.report`, `corset/evaluation.py:92-102`. -/
def evaluatorReport (metrics : List String) (P T : Cmp) : Py (List (String × ℚ)) :=
  metrics.foldlM (reportOne P T) []

/-! ### Tails -/

/-- `TailEvaluator`, `corset/evaluation.py:105-109`: the label matrix in CSC form, the number of training
rows, and the confidence graph of the data set if one was built. -/
structure TailEval where
  Yc : Cmp
  ntrn : ℕ
  g : Option DiG

/-- A set of labels in the order Python lists it. -/
def tailList (order : Finset ℕ → List ℕ) (S : Finset ℕ) : List ℤ := (order S).map fun l : ℕ => (l : ℤ)

/-- `TailEvaluator.support_size`, `corset/evaluation.py:111-112`. -/
def tailSupport (order : Finset ℕ → List ℕ) (ev : TailEval) (Ss : List (Finset ℕ)) : Py (List ℕ) :=
  Ss.mapM fun S => supportSize ev.Yc (tailList order S)

/-- `TailEvaluator.frequency`, `corset/evaluation.py:114-115`; `none` (not a number) without rows. -/
def tailFrequency (order : Finset ℕ → List ℕ) (ev : TailEval) (Ss : List (Finset ℕ)) : Py (List (Option ℚ)) := do
  let supp ← tailSupport order ev Ss
  return supp.map fun (s : ℕ) => if ev.ntrn = 0 then none else some ((s : ℚ) / ev.ntrn)

/-- `TailEvaluator.length`, `corset/evaluation.py:147-148`. -/
def tailLength (Ss : List (Finset ℕ)) : List ℕ := Ss.map Finset.card

/-- `TailEvaluator.area`, `corset/evaluation.py:117-118`. -/
def tailArea (order : Finset ℕ → List ℕ) (ev : TailEval) (Ss : List (Finset ℕ)) : Py (List ℕ) := do
  let supp ← tailSupport order ev Ss
  return List.zipWith (· * ·) supp (tailLength Ss)

/-- `self._ds._g[u][v]['proba']`, `corset/evaluation.py:128` and `141`: `AttributeError` when no graph was
built, `KeyError` when the edge is missing. -/
def tailPairProba (ev : TailEval) (e : ℕ × ℕ) : Py ℚ :=
  match ev.g with
  | none => .error .attributeError
  | some g => pairProba g e

/-- `np.sum([... for u, v in permutations(S, 2)])`, `corset/evaluation.py:127-130`. -/
def tailWeightSum (order : Finset ℕ → List ℕ) (ev : TailEval) (S : Finset ℕ) : Py ℚ := do
  let ps ← (orderedPairs (order S)).mapM (tailPairProba ev)
  return ps.sum

/-- `aux` of `edge_density`, `corset/evaluation.py:123-130`; `none` is NaN. -/
def densityOf (order : Finset ℕ → List ℕ) (ev : TailEval) (S : Finset ℕ) : Py (Option ℚ) :=
  if S.card = 0 then .ok none
  else do
    let t ← tailWeightSum order ev S
    return some (t / S.card)

/-- `TailEvaluator.edge_density`, `corset/evaluation.py:120-132`. -/
def tailDensity (order : Finset ℕ → List ℕ) (ev : TailEval) (Ss : List (Finset ℕ)) : Py (List (Option ℚ)) :=
  Ss.mapM (densityOf order ev)

/-- `aux` of `edge_ratio`, `corset/evaluation.py:137-143`. -/
def ratioOf (order : Finset ℕ → List ℕ) (ev : TailEval) (S : Finset ℕ) : Py (Option ℚ) :=
  if S.card ≤ 1 then .ok none
  else do
    let t ← tailWeightSum order ev S
    return some (t / S.card / (S.card - 1))

/-- `TailEvaluator.edge_ratio`, `corset/evaluation.py:134-145`. -/
def tailRatio (order : Finset ℕ → List ℕ) (ev : TailEval) (Ss : List (Finset ℕ)) : Py (List (Option ℚ)) :=
  Ss.mapM (ratioOf order ev)

/-- The frame of `TailEvaluator.report` with `concat_cols=False`, `corset/evaluation.py:162-169`: the
columns with their names. -/
def tailReport (order : Finset ℕ → List ℕ) (ev : TailEval) (Ss : List (Finset ℕ)) :
    Py (List (String × List (Option ℚ))) := do
  let supp ← tailSupport order ev Ss
  let freq ← tailFrequency order ev Ss
  let dens ← tailDensity order ev Ss
  let ratio ← tailRatio order ev Ss
  let area ← tailArea order ev Ss
  return [("support_size", supp.map fun x : ℕ => some (x : ℚ)), ("frequency", freq), ("edge_density", dens),
    ("edge_ratio", ratio), ("length", (tailLength Ss).map fun x : ℕ => some (x : ℚ)),
    ("area", area.map fun x : ℕ => some (x : ℚ))]

/-- `TailEvaluator.report` with `concat_cols=True`, `corset/evaluation.py:170-174`: pairs of score and
metric, column after column. -/
def tailReportConcat (order : Finset ℕ → List ℕ) (ev : TailEval) (Ss : List (Finset ℕ)) :
    Py (List (Option ℚ × String)) := do
  let df ← tailReport order ev Ss
  return df.flatMap fun col => col.2.map fun x => (x, col.1)

end Verif
