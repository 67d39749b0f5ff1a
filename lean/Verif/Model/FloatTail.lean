/-
The statistics of tails as they are reported, in double precision (`corset/evaluation.py:105-145`).
-/
import Verif.Model.Evaluation
import Verif.Model.FloatGraph

namespace Verif

/-- `TailEvaluator`, `corset/evaluation.py:105-109`, with the confidence graph whose weights are doubles. -/
structure TailEvalF where
  Yc : Cmp
  ntrn : ℕ
  g : Option DiGF

/-- `TailEvaluator.frequency`, `corset/evaluation.py:114-115`: numpy turns both integers into doubles and rounds
the quotient; `none` (not a number) without rows. -/
noncomputable def tailFrequencyF (order : Finset ℕ → List ℕ) (ev : TailEvalF) (Ss : List (Finset ℕ)) :
    Py (List (Option ℝ)) := do
  let supp ← Ss.mapM fun T => supportSize ev.Yc (tailList order T)
  return supp.map fun s : ℕ => if ev.ntrn = 0 then none else some (fl (fl (s : ℝ) / fl (ev.ntrn : ℝ)))

/-- `self._ds._g[u][v]['proba']`, `corset/evaluation.py:128` and `141`. -/
noncomputable def tailPairProbaF (ev : TailEvalF) (e : ℕ × ℕ) : Py ℝ :=
  match ev.g with
  | none => .error .attributeError
  | some g =>
    match g.weight e.1 e.2 with
    | some p => .ok p
    | none => .error .keyError

/-- `np.sum([... for u, v in permutations(S, 2)])`, `corset/evaluation.py:127-130`. -/
noncomputable def tailWeightSumF (S : Summation) (order : Finset ℕ → List ℕ) (ev : TailEvalF) (T : Finset ℕ) : Py ℝ := do
  let ps ← (orderedPairs (order T)).mapM (tailPairProbaF ev)
  return S.sum ps

/-- `aux` of `edge_density`, `corset/evaluation.py:123-130`; `none` is NaN. -/
noncomputable def densityOfF (S : Summation) (order : Finset ℕ → List ℕ) (ev : TailEvalF) (T : Finset ℕ) :
    Py (Option ℝ) :=
  if T.card = 0 then .ok none
  else do
    let t ← tailWeightSumF S order ev T
    return some (fl (t / fl (T.card : ℝ)))

/-- `TailEvaluator.edge_density`, `corset/evaluation.py:120-132`. -/
noncomputable def tailDensityF (S : Summation) (order : Finset ℕ → List ℕ) (ev : TailEvalF) (Ss : List (Finset ℕ)) :
    Py (List (Option ℝ)) := Ss.mapM (densityOfF S order ev)

/-- `aux` of `edge_ratio`, `corset/evaluation.py:137-143`: two divisions, each rounded. -/
noncomputable def ratioOfF (S : Summation) (order : Finset ℕ → List ℕ) (ev : TailEvalF) (T : Finset ℕ) :
    Py (Option ℝ) :=
  if T.card ≤ 1 then .ok none
  else do
    let t ← tailWeightSumF S order ev T
    return some (fl (fl (t / fl (T.card : ℝ)) / fl ((T.card - 1 : ℕ) : ℝ)))

/-- `TailEvaluator.edge_ratio`, `corset/evaluation.py:134-145`. -/
noncomputable def tailRatioF (S : Summation) (order : Finset ℕ → List ℕ) (ev : TailEvalF) (Ss : List (Finset ℕ)) :
    Py (List (Option ℝ)) := Ss.mapM (ratioOfF S order ev)

end Verif
