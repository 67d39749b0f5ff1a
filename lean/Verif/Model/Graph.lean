/-
Model of the label graphs and of probable-clique enumeration (`corset/graph.py`,
`corset/samplers/pc.py`, `corset/samplers/dfs.pyx`).
-/
import Verif.Model.Sparse
import Verif.Model.Rand

namespace Verif

/-! ### Graphs -/

/-- A `networkx.DiGraph` whose edges carry the attribute `proba`: nodes in insertion order, and edges
`((u, v), proba)` in insertion order, each ordered pair once. -/
structure DiG where
  nodes : List ℕ
  edges : List ((ℕ × ℕ) × ℚ)
  deriving DecidableEq

namespace DiG

/-- `g[u][v]['proba']`, if the edge exists. -/
def weight (g : DiG) (u v : ℕ) : Option ℚ := g.edges.lookup (u, v)

/-- `g.has_edge(u, v)`. -/
def hasEdge (g : DiG) (u v : ℕ) : Bool := (g.weight u v).isSome

/-- `list(g[u].keys())` together with the probabilities of the edges. -/
def outEdges (g : DiG) (u : ℕ) : List (ℕ × ℚ) :=
  (g.edges.filter fun e => e.1.1 = u).map fun e => (e.1.2, e.2)

end DiG

/-- A `networkx.Graph` (undirected) with edge attribute `proba` in some number type. -/
structure UGraph (K : Type) where
  nodes : List ℕ
  edges : List ((ℕ × ℕ) × K)
  deriving DecidableEq

namespace UGraph

/-- The two orders in which an undirected edge may be looked up. -/
def joins {K : Type} (u v : ℕ) (e : (ℕ × ℕ) × K) : Bool := e.1 == (u, v) || e.1 == (v, u)

/-- `g._adj[u][v][proba_key]`, if the edge exists. -/
def weight {K : Type} (g : UGraph K) (u v : ℕ) : Option K := (g.edges.find? (joins u v)).map Prod.snd

/-- `set(g.neighbors(u))`. -/
def nbrs {K : Type} (g : UGraph K) (u : ℕ) : Finset ℕ :=
  (g.edges.filterMap fun e =>
    if e.1.1 = u then some e.1.2 else if e.1.2 = u then some e.1.1 else none).toFinset

end UGraph

/-! ### Confidence graph -/

/-- `label2rows[l] = set(Y[:, l].indices)`, `corset/graph.py:20-22`. `Y` is in CSC form. -/
def labelRows (Y : Cmp) (l : ℕ) : Finset ℕ := (Y.segIdx l).toFinset

/-- An entry of `Y.T @ Y`, `corset/graph.py:24`. -/
def corEntry (Y : Cmp) (u v : ℕ) : ℤ :=
  ((List.range Y.nMinor).map fun i => cellSum Y u i * cellSum Y v i).sum

/-- `cor_M.nonzero()`, `corset/graph.py:26`, in row-major order. -/
def corNonzero (Y : Cmp) : List (ℕ × ℕ) :=
  ((List.range Y.nMajor).flatMap fun u => (List.range Y.nMajor).map fun v => (u, v)).filter
    fun e => corEntry Y e.1 e.2 ≠ 0

/-- The weight of one edge, `corset/graph.py:32-34`. -/
def confidence (Y : Cmp) (e : ℕ × ℕ) : Py ((ℕ × ℕ) × ℚ) := do
  let p ← pyDiv ((labelRows Y e.1 ∩ labelRows Y e.2).card : ℤ) ((labelRows Y e.1).card : ℤ)
  return (e, p)

/-- `construct_confidence_graph`, `corset/graph.py:10-46`. Simplification: the node attributes `freq`
and `name` (`corset/graph.py:37-42`) are not part of the graph; see `labelFreq`. -/
def confidenceGraph (Y : Cmp) : Py DiG := do
  let es ← (corNonzero Y).mapM (confidence Y)
  return { nodes := List.range Y.nMajor, edges := es.filter fun e => e.1.1 ≠ e.1.2 }

/-- `label_freq = flatten(Y.sum(axis=0))`, `corset/graph.py:17`, the node attribute `freq`. -/
def labelFreq (Y : Cmp) : List ℤ :=
  (List.range Y.nMajor).map fun l => ((List.range Y.nMinor).map fun i => cellSum Y l i).sum

/-! ### Connectivity graph -/

/-- One iteration of the loop `corset/graph.py:58-61`: nothing for `u ≥ v`, `KeyError` when the
reverse edge is missing. -/
def connectEdge (g : DiG) (e : (ℕ × ℕ) × ℚ) : Py (Option ((ℕ × ℕ) × ℚ)) :=
  if e.1.1 < e.1.2 then
    match g.weight e.1.1 e.1.2, g.weight e.1.2 e.1.1 with
    | some p, some q => .ok (some (e.1, 1 - (1 - p) * (1 - q)))
    | _, _ => .error .keyError
  else .ok none

/-- `convert_to_connectivity_graph`, `corset/graph.py:49-62`. -/
def connectivityGraph (g : DiG) : Py (UGraph ℚ) := do
  let es ← g.edges.mapM (connectEdge g)
  return { nodes := g.nodes, edges := es.reduceOption }

/-! ### Sampling a clique -/

/-- `forms_clique`, `corset/graph.py:73-78`. -/
def formsClique (g : DiG) (S : Finset ℕ) (v : ℕ) : Bool := decide (∀ s ∈ S, g.hasEdge s v = true)

/-- `mask = np.random.rand(len(probas)) < probas` and the selection of the candidates,
`corset/graph.py:109-113`. -/
def drawCandidates : List (ℕ × ℚ) → Rand (List (ℕ × ℚ))
  | [] => pure []
  | e :: es => do
    let b ← bernoulli e.2
    let rest ← drawCandidates es
    return (if b then e :: rest else rest)

/-- The loop of `sample_clique`, `corset/graph.py:102-128`, with a bound on the number of iterations;
`none` means that the bound was reached. -/
def cliqueLoop (g : DiG) : ℕ → Finset ℕ → ℕ → Rand (Option (Finset ℕ))
  | 0, _, _ => pure none
  | fuel + 1, S, u =>
    if g.outEdges u = [] then pure (some S)
    else do
      let cand ← drawCandidates (g.outEdges u)
      if cand = [] then pure (some S)
      else do
        let i ← npChoice ((cand.map Prod.snd).map fun p => p / (cand.map Prod.snd).sum)
        let v := (cand.getD i (0, 0)).1
        if formsClique g S v then cliqueLoop g fuel (insert v S) v else pure (some S)

/-- `sample_clique`, `corset/graph.py:81-129`; the seed is not modelled. -/
def sampleClique (g : DiG) (start : Option ℕ) (fuel : ℕ) : Rand (Option (List ℕ)) := do
  let u ← match start with
    | some u => pure u
    | none => do
      let i ← uniformIdx g.nodes.length
      pure (g.nodes.getD i 0)
  let r ← cliqueLoop g fuel {u} u
  return r.map fun S => S.sort (· ≤ ·)

/-! ### Probable cliques -/

/-- The arithmetic used for clique probabilities. Python uses doubles, `dfs_v2` single precision; the
enumeration is modelled for any number type with a multiplication. -/
structure ProbOps (K : Type) where
  one : K
  mul : K → K → K
  /-- The value `unordered_map::operator[]` inserts for a missing key (`corset/samplers/dfs.pyx:45`). -/
  zero : K

/-- The loop `for v in S` that multiplies the edge probabilities, `corset/samplers/pc.py:69-75`;
`none` stands for `success = False`. -/
def extendProba {K : Type} [LinearOrder K] (ops : ProbOps K) (g : UGraph K) (alpha : K) (u : ℕ) :
    List ℕ → K → Py (Option K)
  | [], p => .ok (some p)
  | v :: vs, p =>
    match g.weight u v with
    | none => .error .keyError
    | some w => if ops.mul p w < alpha then .ok none else extendProba ops g alpha u vs (ops.mul p w)

/-- One iteration of the loop `for u in shared_nbrs`, `corset/samplers/pc.py:66-78`; `rec u p` is the
recursive call with `u` added and probability `p`. -/
def dfsBranch {K : Type} [LinearOrder K] (ops : ProbOps K) (g : UGraph K) (alpha : K) (S : List ℕ)
    (last : ℕ) (proba : K) (rec : ℕ → K → Py (List (List ℕ × K))) (u : ℕ) : Py (List (List ℕ × K)) :=
  if last < u then
    match extendProba ops g alpha u S proba with
    | .error e => .error e
    | .ok none => .ok []
    | .ok (some p) => rec u p
  else .ok []

/-- `dfs`, `corset/samplers/pc.py:41-78`: the entries appended to `pc_list`, in order. `depth` is the
remaining recursion depth of the interpreter; `order` is the iteration order of a set. -/
def dfs {K : Type} [LinearOrder K] (ops : ProbOps K) (g : UGraph K) (alpha : K)
    (order : Finset ℕ → List ℕ) : ℕ → List ℕ → K → Finset ℕ → Py (List (List ℕ × K))
  | 0, _, _, _ => .error .recursionError
  | depth + 1, S, proba, shared =>
    match S.getLast? with
    | none => do
      let rest ← g.nodes.mapM fun u => dfs ops g alpha order depth [u] ops.one (g.nbrs u)
      return (S, proba) :: rest.flatten
    | some last => do
      let rest ← (order shared).mapM (dfsBranch ops g alpha S last proba fun u p =>
        dfs ops g alpha order depth (S ++ [u]) p (shared ∩ g.nbrs u))
      return (S, proba) :: rest.flatten

/-- `enumerate_probable_cliques(..., backend='dfs')` with `return_proba=True`,
`corset/samplers/pc.py:23-28`; with `return_proba=False` only the first components are returned. -/
def enumerateCliques {K : Type} [LinearOrder K] (ops : ProbOps K) (g : UGraph K) (alpha : K)
    (order : Finset ℕ → List ℕ) (depth : ℕ) : Py (List (List ℕ × K)) := do
  let l ← dfs ops g alpha order depth [] ops.one g.nodes.toFinset
  return l.tail

/-- `prune_edges`, `corset/samplers/pc.py:82-94`. -/
def pruneEdges {K : Type} [LinearOrder K] (g : UGraph K) (minProba : K) : UGraph K :=
  { nodes := g.nodes, edges := g.edges.filter fun e => minProba ≤ e.2 }

/-- The same loop in `dfs_v2_aux`, `corset/samplers/dfs.pyx:126-134`: a missing edge reads as 0. -/
def extendProbaV2 {K : Type} [LinearOrder K] (ops : ProbOps K) (g : UGraph K) (alpha : K) (u : ℕ) :
    List ℕ → K → Option K
  | [], p => some p
  | v :: vs, p =>
    if ops.mul p ((g.weight u v).getD ops.zero) < alpha then none
    else extendProbaV2 ops g alpha u vs (ops.mul p ((g.weight u v).getD ops.zero))

/-- One iteration of the loop `corset/samplers/dfs.pyx:123-141`. -/
def dfsBranchV2 {K : Type} [LinearOrder K] (ops : ProbOps K) (g : UGraph K) (alpha : K) (S : List ℕ)
    (last : ℕ) (proba : K) (rec : ℕ → K → Py (List (List ℕ × K))) (u : ℕ) : Py (List (List ℕ × K)) :=
  if last < u then
    match extendProbaV2 ops g alpha u S proba with
    | none => .ok []
    | some p => rec u p
  else .ok []

/-- `dfs_v2_aux`, `corset/samplers/dfs.pyx:98-141`, on the graph wrapper built by `dfs_v2`
(`corset/samplers/dfs.pyx:89-93`), whose nodes are `0 .. N-1`. The C stack is not bounded here, so
running out of `depth` is only a device of the model. -/
def dfsV2 {K : Type} [LinearOrder K] (ops : ProbOps K) (g : UGraph K) (n : ℕ) (alpha : K)
    (order : Finset ℕ → List ℕ) : ℕ → List ℕ → K → Finset ℕ → Py (List (List ℕ × K))
  | 0, _, _, _ => .error .recursionError
  | depth + 1, S, proba, shared =>
    match S.getLast? with
    | none => do
      let rest ← (List.range n).mapM fun u => dfsV2 ops g n alpha order depth [u] ops.one (g.nbrs u)
      return (S, proba) :: rest.flatten
    | some last => do
      let rest ← (order shared).mapM (dfsBranchV2 ops g alpha S last proba fun u p =>
        dfsV2 ops g n alpha order depth (S ++ [u]) p (shared ∩ g.nbrs u))
      return (S, proba) :: rest.flatten

/-- What `dfs_v2` makes of the graph, `corset/samplers/dfs.pyx:89-91`, `19-41`: networkx writes the weights
into a matrix whose row `i` stands for the `i`-th node, and the wrapper copies that matrix, storing each
weight in single precision (`cast`). networkx refuses a graph without nodes. -/
def wrapGraph {K K' : Type} (cast : K → K') (g : UGraph K) : Py (UGraph K') :=
  if g.nodes = [] then .error .exception
  else .ok { nodes := List.range g.nodes.length
             edges := g.edges.map fun e => ((g.nodes.idxOf e.1.1, g.nodes.idxOf e.1.2), cast e.2) }

/-- `enumerate_probable_cliques(..., backend='dfs_v2')`, `corset/samplers/pc.py:29-35`, with `dfs_v2`,
`corset/samplers/dfs.pyx:79-96`; the threshold is converted to single precision as well. -/
def enumerateCliquesV2 {K K' : Type} [LinearOrder K'] (cast : K → K') (ops : ProbOps K') (g : UGraph K)
    (alpha : K) (order : Finset ℕ → List ℕ) (depth : ℕ) : Py (List (List ℕ × K')) := do
  let w ← wrapGraph cast g
  let l ← dfsV2 ops w w.nodes.length (cast alpha) order depth [] ops.one ∅
  return l.tail

/-- The values of `backend` that `enumerate_probable_cliques` tells apart. -/
inductive Backend where
  | dfs
  | dfsV2
  | other
  deriving DecidableEq

/-- `enumerate_probable_cliques`, `corset/samplers/pc.py:18-37`, with `return_proba=True`; both back ends
use the same arithmetic here. -/
def enumerateProbableCliques {K : Type} [LinearOrder K] (ops : ProbOps K) (g : UGraph K) (alpha : K)
    (backend : Backend) (order : Finset ℕ → List ℕ) (depth : ℕ) : Py (List (List ℕ × K)) :=
  match backend with
  | .dfs => enumerateCliques ops g alpha order depth
  | .dfsV2 => enumerateCliquesV2 id ops g alpha order depth
  | .other => .error .valueError

/-- `PCSampleSpaceConstructor._build_sample_space`, `corset/samplers/pc.py:101-121`. -/
def buildSampleSpace {K : Type} [LinearOrder K] (ops : ProbOps K) (g : UGraph K) (minProba : K)
    (doPrune : Bool) (backend : Backend) (order : Finset ℕ → List ℕ) (depth : ℕ) :
    Py (List (Finset ℕ)) := do
  let l ← enumerateProbableCliques ops (if doPrune then pruneEdges g minProba else g) minProba backend
    order depth
  return l.map fun e => e.1.toFinset

/-- `PCSampleSpaceConstructor._build_graph`, `corset/samplers/pc.py:127-131`, on the CSC form. -/
def buildGraph (Y : Cmp) : Py (UGraph ℚ) := do
  let ug ← confidenceGraph Y
  connectivityGraph ug

/-- `permutations(nodes, 2)`, `corset/graph.py:139`: the ordered pairs of different positions. -/
def orderedPairs (nodes : List ℕ) : List (ℕ × ℕ) :=
  ((List.range nodes.length).flatMap fun i => (List.range nodes.length).map fun j => (i, j)).filterMap
    fun p => if p.1 = p.2 then none else some (nodes.getD p.1 0, nodes.getD p.2 0)

/-- `g[u][v]['proba']` on a `DiGraph`: `KeyError` when there is no such edge. -/
def pairProba (g : DiG) (e : ℕ × ℕ) : Py ℚ :=
  match g.weight e.1 e.2 with
  | some p => .ok p
  | none => .error .keyError

/-- `g.subgraph(nodes).number_of_edges() == len(nodes) * (len(nodes) - 1)`, `corset/graph.py:141-142`. -/
def subgraphIsClique (g : DiG) (nodes : List ℕ) : Bool :=
  (((g.edges.filter fun e => decide (e.1.1 ∈ nodes ∧ e.1.2 ∈ nodes)).length : ℤ) ==
    (nodes.length : ℤ) * ((nodes.length : ℤ) - 1))

/-- `subgraph_stat`, `corset/graph.py:132-144`: `size`, `density` and `is_clique`. The density is
`none` (a NaN, with a warning) for no nodes, since numpy then divides zero by zero. -/
def subgraphStat (g : DiG) (nodes : List ℕ) : Py (ℕ × Option ℚ × Bool) := do
  let ps ← (orderedPairs nodes).mapM (pairProba g)
  return (nodes.length, if nodes.length = 0 then none else some (ps.sum / (nodes.length : ℚ)),
    subgraphIsClique g nodes)

end Verif
