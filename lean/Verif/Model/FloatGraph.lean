/-
The label graphs and the probable cliques computed in floating point.

`Model/Graph.lean` computes edge weights exactly. Here they are computed as the program computes them: Python
rounds every operation to the nearest double (53 significant bits), and the compiled back end keeps weights,
products and the threshold in C `float`s (24 significant bits). Comparisons of ratios of counts elsewhere
in the program are given in the same arithmetic.

Simplification, as in `Model/Float.lean`: the range of exponents is unbounded. A product that underflows in
the program is below every threshold of at least 2⁻¹²⁶ in the model as well.
-/
import Verif.Model.Float
import Verif.Model.Graph
import Verif.Model.Greedy

namespace Verif

/-- The nearest number with `m + 1` significant bits, ties to even. `fl` is `flp 52`. -/
noncomputable def flp (m : ℕ) (x : ℝ) : ℝ :=
  if x = 0 then 0 else roundEven (x / 2 ^ (Int.log 2 |x| - m)) * 2 ^ (Int.log 2 |x| - m)

/-- Conversion to a C `float`. -/
noncomputable def single (x : ℝ) : ℝ := flp 23 x

/-- A `networkx.DiGraph` whose edges carry a double. -/
structure DiGF where
  nodes : List ℕ
  edges : List ((ℕ × ℕ) × ℝ)

/-- `g[u][v]['proba']`, if the edge exists. -/
noncomputable def DiGF.weight (g : DiGF) (u v : ℕ) : Option ℝ := g.edges.lookup (u, v)

/-- The quotient of two Python integers, which is the double nearest to the exact quotient. -/
noncomputable def intDivF (a b : ℕ) : Py ℝ :=
  if b = 0 then .error .zeroDivisionError else .ok (fl ((a : ℝ) / (b : ℝ)))

/-- The weight of one edge, `corset/graph.py:32-34`. -/
noncomputable def confidenceF (Y : Cmp) (e : ℕ × ℕ) : Py ((ℕ × ℕ) × ℝ) := do
  let p ← intDivF (labelRows Y e.1 ∩ labelRows Y e.2).card (labelRows Y e.1).card
  return (e, p)

/-- `construct_confidence_graph`, `corset/graph.py:10-46`, without the node attributes. The entries of the
product matrix `cor_M` are sums of ones, which doubles hold exactly, so its nonzero entries are those of
the exact product. -/
noncomputable def confidenceGraphF (Y : Cmp) : Py DiGF := do
  let es ← (corNonzero Y).mapM (confidenceF Y)
  return { nodes := List.range Y.nMajor, edges := es.filter fun e => e.1.1 ≠ e.1.2 }

/-- `1 - (1-p) * (1-q)`, `corset/graph.py:60`, in doubles. -/
noncomputable def connectF (p q : ℝ) : ℝ := fl (1 - fl (fl (1 - p) * fl (1 - q)))

/-- One iteration of the loop `corset/graph.py:58-61`. -/
noncomputable def connectEdgeF (g : DiGF) (e : (ℕ × ℕ) × ℝ) : Py (Option ((ℕ × ℕ) × ℝ)) :=
  if e.1.1 < e.1.2 then
    match g.weight e.1.1 e.1.2, g.weight e.1.2 e.1.1 with
    | some p, some q => .ok (some (e.1, connectF p q))
    | _, _ => .error .keyError
  else .ok none

/-- `convert_to_connectivity_graph`, `corset/graph.py:49-62`. -/
noncomputable def connectivityGraphF (g : DiGF) : Py (UGraph ℝ) := do
  let es ← g.edges.mapM (connectEdgeF g)
  return { nodes := g.nodes, edges := es.reduceOption }

/-- `PCSampleSpaceConstructor._build_graph`, `corset/samplers/pc.py:127-131`, on the CSC form. -/
noncomputable def buildGraphF (Y : Cmp) : Py (UGraph ℝ) := do
  let ug ← confidenceGraphF Y
  connectivityGraphF ug

/-- `new_proba *= g._adj[u][v][proba_key]`, `corset/samplers/pc.py:70`: the product in doubles. -/
noncomputable def doubleOps : ProbOps ℝ := { one := 1, mul := fun x y => fl (x * y), zero := 0 }

/-- `new_proba *= g_wrapper._edge_weight(u, v)`, `corset/samplers/dfs.pyx:131` with `43-44`: `_edge_weight`
returns a `double`, so the product is formed in doubles and then stored in the `float` `new_proba`. -/
noncomputable def singleOps : ProbOps ℝ := { one := 1, mul := fun x y => single (fl (x * y)), zero := 0 }

/-- `enumerate_probable_cliques`, `corset/samplers/pc.py:18-37`: `dfs` computes in doubles, `dfs_v2` stores
weights, products and threshold in `float`s. -/
noncomputable def enumerateProbableCliquesF (g : UGraph ℝ) (alpha : ℝ) (backend : Backend)
    (order : Finset ℕ → List ℕ) (depth : ℕ) : Py (List (List ℕ × ℝ)) :=
  match backend with
  | .dfs => enumerateCliques doubleOps g alpha order depth
  | .dfsV2 => enumerateCliquesV2 single singleOps g alpha order depth
  | .other => .error .valueError

/-- `PCSampleSpaceConstructor._build_sample_space`, `corset/samplers/pc.py:101-121`; the edges are pruned in
doubles. -/
noncomputable def buildSampleSpaceF (g : UGraph ℝ) (minProba : ℝ) (doPrune : Bool) (backend : Backend)
    (order : Finset ℕ → List ℕ) (depth : ℕ) : Py (List (Finset ℕ)) := do
  let l ← enumerateProbableCliquesF (if doPrune then pruneEdges g minProba else g) minProba backend order depth
  return l.map fun e => e.1.toFinset

/-! ### Comparisons of ratios -/

/-- The test `p < q` of `Rule.KL`, `corset/rule.py:109-111`, on the doubles returned by
`true_positive_rate` (`corset/rule.py:79-84`) and `base_rate` (`corset/rule.py:96-101`). -/
noncomputable def klBranchF (r : BRule) : Py Bool := do
  let p ← intDivF r.support.card r.headSupport.card
  let q ← intDivF r.tailSupport.card r.N
  return decide (p < q)

/-- The test of `Rule.KL` in exact arithmetic, the first lines of `BRule.KL`; `corset/rule.py:109-111`. -/
def klBranch (r : BRule) : Py Bool := do
  let p ← r.precision
  let q ← r.baseRate
  return decide (p < q)

/-- `GreedyDivMax.should_stop`, `corset/greedy/diversity_maximization.py:44-70`, with
`marginal_coverage_ratio`, `corset/greedy/base.py:84-95`, in doubles. -/
noncomputable def shouldStopDivMaxF (nMaxRules : Option ℕ) (tolerance : ℝ) (Y : Cmp) (selected : List BRule)
    (best : BRule) : Py Bool :=
  match nMaxRules with
  | some k => .ok (decide (selected.length ≥ k))
  | none => do
    let mc ← intDivF (best.marginalCoverage selected) Y.nnz
    return decide (mc ≤ tolerance)

end Verif
