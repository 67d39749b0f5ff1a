/-
The selection objectives computed in double precision.

`Model/Rule.lean` and `Model/Greedy.lean` evaluate the divergence of a rule, the distance of two rules and the
objectives of the learners exactly. Here every operation is rounded to the nearest double, as in the program.
The logarithm is the only operation that IEEE arithmetic does not fix: `scipy.special.rel_entr` is a parameter
`rel`, about which the theorems assume a bound on its error.

Simplifications: the range of exponents is unbounded, as in `Model/Float.lean`. Python's `sum` adds from left
to right, rounding each time, as it does before Python 3.12. Counts are converted to doubles exactly, which
holds below 2⁵³.
-/
import Verif.Model.FloatGraph

namespace Verif

/-- The quotient of two Python integers as a double; `corset/rule.py:18` divides differences of products. -/
noncomputable def pyDivF (a b : ℤ) : Py ℝ :=
  if b = 0 then .error .zeroDivisionError else .ok (fl ((a : ℝ) / (b : ℝ)))

/-- `scipy.stats.entropy([p0, p1], [q0, q1])` in doubles, called at `corset/rule.py:113`: both vectors are divided by
their sums, then the terms are added. -/
noncomputable def entropyF (rel : ℝ → ℝ → ℝ) (p0 p1 q0 q1 : ℝ) : ℝ :=
  fl (rel (fl (p0 / fl (p0 + p1))) (fl (q0 / fl (q0 + q1))) +
    rel (fl (p1 / fl (p0 + p1))) (fl (q1 / fl (q0 + q1))))

/-- `Rule.KL`, `corset/rule.py:103-113`, in doubles. -/
noncomputable def BRule.klF (rel : ℝ → ℝ → ℝ) (r : BRule) : Py ℝ := do
  let p ← intDivF r.support.card r.headSupport.card
  let q ← intDivF r.tailSupport.card r.N
  if p < q then return 0
  else return entropyF rel p (fl (1 - p)) q (fl (1 - q))

/-- `jaccard_distance`, `corset/rule.py:8-18`, in doubles. -/
noncomputable def distF (r1 r2 : BRule) : Py ℝ := do
  let inter : ℤ := (r1.support ∩ r2.support).card * (r1.tail.toFinset ∩ r2.tail.toFinset).card
  let union : ℤ := r1.support.card * r1.tail.length + r2.support.card * r2.tail.length - inter
  let q ← pyDivF inter union
  return fl (1 - q)

/-- Python's `sum` of doubles. -/
noncomputable def pySumF {α : Type} (f : α → Py ℝ) (l : List α) : Py ℝ :=
  l.foldlM (fun acc x => do let y ← f x; return fl (acc + y)) 0

/-- `GreedyDivMax.quality_of_rule`, `corset/greedy/diversity_maximization.py:73-78`, in doubles. -/
noncomputable def qualityF (rel : ℝ → ℝ → ℝ) (selected : List BRule) (r : BRule) : Py ℝ := do
  let kl ← r.klF rel
  return fl ((r.marginalCoverage selected : ℝ) * kl)

/-- `GreedyDivMaxV3.quality_of_rule`, `corset/greedy/divmax_v3.py:10-13`, in doubles; the square root is correctly
rounded. -/
noncomputable def qualityV3F (rel : ℝ → ℝ → ℝ) (selected : List BRule) (r : BRule) : Py ℝ := do
  let kl ← r.klF rel
  return fl (fl (Real.sqrt (r.marginalCoverage selected : ℝ)) * kl)

/-- `GreedyDivMax.diversity_of_rule`, `corset/greedy/diversity_maximization.py:80-81`, in doubles. -/
noncomputable def diversityF (selected : List BRule) (r : BRule) : Py ℝ :=
  pySumF (fun other => distF r other) selected

/-- `GreedyDivMax.objective_of_rule`, `corset/greedy/diversity_maximization.py:84-87`, in doubles. -/
noncomputable def objectiveF (quality : List BRule → BRule → Py ℝ) (lambd : ℝ) (selected : List BRule)
    (r : BRule) : Py ℝ := do
  let q ← quality selected r
  let d ← diversityF selected r
  return fl (q + fl (lambd * d))

/-- `GreedySubmod.objective_of_rule`, `corset/greedy/submod.py:48-51`, in doubles. -/
noncomputable def objectiveSubmodF (rel : ℝ → ℝ → ℝ) (lambd : ℝ) (selected : List BRule) (r : BRule) :
    Py ℝ := do
  let mc := r.marginalCoverage selected
  let mul : ℝ := if mc > 0 then 1 else 0
  let kl ← r.klF rel
  return fl (fl (mul * kl) + fl (lambd * mc))

/-- `GreedyDivMax` with its objective in doubles, `corset/greedy/diversity_maximization.py:44-87`. The stopping test is
the exact one; theorem C129_stop relates it to the test in doubles. -/
noncomputable def learnerDivMaxF (rel : ℝ → ℝ → ℝ) (p : Params) (Y : Cmp) : Learner where
  objective := objectiveF (qualityF rel) p.lambd
  stop := shouldStopDivMax p Y

/-- `GreedyDivMaxV2` with its objective in doubles, `corset/greedy/divmax_v2.py:35-42`. -/
noncomputable def learnerV2F (rel : ℝ → ℝ → ℝ) (p : Params) : Learner where
  objective := objectiveF (qualityF rel) p.lambd
  stop := shouldStopV2 p

/-- `GreedyDivMaxV3` with its objective in doubles, `corset/greedy/divmax_v3.py:8-13`. -/
noncomputable def learnerV3F (rel : ℝ → ℝ → ℝ) (p : Params) : Learner where
  objective := objectiveF (qualityV3F rel) p.lambd
  stop := shouldStopV2 p

/-- `GreedySubmod` with its objective in doubles, `corset/greedy/submod.py:39-51`. -/
noncomputable def learnerSubmodF (rel : ℝ → ℝ → ℝ) (p : Params) : Learner where
  objective := objectiveSubmodF rel p.lambd
  stop := shouldStopV2 p

/-- The selections of `GreedyDivMax.fit_2nd_round`, `corset/greedy/diversity_maximization.py:147-191`, with the objective
in doubles. -/
noncomputable def secondRoundF {σ ω : Type} (S : Samplers σ ω) (rel : ℝ → ℝ → ℝ) (p : Params)
    (pool : List BRule) (budget : ℕ) : Py (List BRule) :=
  if pool.length = 0 then .error .insufficientCandidates
  else pickLoop S (objectiveF (qualityF rel) p.lambd) pool budget []

end Verif
