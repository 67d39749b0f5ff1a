/-
Texts for people: `Rule.summary` (`corset/rule.py:142-145`) and `show_subgraph` (`corset/graph.py:64-70`).
-/
import Verif.Model.Rule
import Verif.Model.FloatGraph

namespace Verif

/-- `'{}'.format(n)` for a Python integer that is not negative. -/
def natText (n : ℕ) : List Char := Nat.toDigits 10 n

/-- `'{}'.format(n)` for an integer. -/
def intText (n : ℤ) : List Char := if n < 0 then '-' :: natText n.natAbs else natText n.natAbs

/-- `'{:.2f}'.format(x)` for a double `x ≥ 0`: the exact value of `x` is rounded to two decimals, ties to
even, `corset/rule.py:143` and `corset/graph.py:67`. The doubles printed by the program are quotients of
counts, so negative numbers, infinities and `nan` are left out. -/
noncomputable def fixed2 (x : ℝ) : List Char :=
  let k := (roundEven (100 * x)).toNat
  natText (k / 100) ++ ['.', Nat.digitChar (k % 100 / 10), Nat.digitChar (k % 10)]

/-- `Rule.summary`, `corset/rule.py:142-145`, for a rule bound to a dataset. -/
noncomputable def ruleSummary (r : BRule) : Py (List Char) := do
  let p ← intDivF r.support.card r.headSupport.card
  let q ← intDivF r.tailSupport.card r.N
  return "Rule(|H|=".toList ++ natText r.head.length ++ ", |L|=".toList ++ natText r.tail.length ++
    ", |supp|=".toList ++ natText r.support.card ++ ", area=".toList ++ natText r.labelArea ++
    ", p=".toList ++ fixed2 p ++ ", q=".toList ++ fixed2 q ++ ")".toList

/-- The confidence graph together with the node attributes `name` and `freq`. -/
structure NamedGraph extends DiGF where
  attrs : List (List Char × ℤ)

/-- The `name` of node `i`, `corset/graph.py:39-42`: `label_names[i]`, or `i` when there are no names. The
names are texts here. -/
def nodeName (labelNames : Option (List (List Char))) (i : ℕ) : Py (List Char) :=
  match labelNames with
  | none => .ok (natText i)
  | some names => if h : i < names.length then .ok names[i] else .error .indexError

/-- `construct_confidence_graph(Y, label_names)`, `corset/graph.py:10-46`, with the attributes of lines
36-42. -/
noncomputable def namedGraph (Y : Cmp) (labelNames : Option (List (List Char))) : Py NamedGraph := do
  let g ← confidenceGraphF Y
  let attrs ← (List.range Y.nMajor).mapM fun i => do
    let nm ← nodeName labelNames i
    return (nm, (labelFreq Y).getD i 0)
  return { toDiGF := g, attrs := attrs }

/-- `g.nodes[u]`, `corset/graph.py:67-70`. -/
def nodeAttr (g : NamedGraph) (u : ℕ) : Py (List Char × ℤ) :=
  match g.attrs[u]? with
  | some a => .ok a
  | none => .error .keyError

/-- The line printed for one edge, `corset/graph.py:67-70`. -/
noncomputable def edgeLine (g : NamedGraph) (e : (ℕ × ℕ) × ℝ) : Py (List Char) := do
  let a ← nodeAttr g e.1.1
  let b ← nodeAttr g e.1.2
  return a.1 ++ " (".toList ++ intText a.2 ++ ") -> ".toList ++ b.1 ++ " (".toList ++ intText b.2 ++ "): ".toList ++
    fixed2 e.2

/-- `show_subgraph`, `corset/graph.py:64-70`: the lines it prints. `g.subgraph(nodes)` ignores nodes that are
not in `g`; the order in which the view lists its edges depends on networkx and on the iteration order of
a set, so it is a parameter. -/
noncomputable def showSubgraph (order : List ((ℕ × ℕ) × ℝ) → List ((ℕ × ℕ) × ℝ)) (g : NamedGraph)
    (nodes : Finset ℕ) : Py (List (List Char)) :=
  (order (g.edges.filter fun e => e.1.1 ∈ nodes ∧ e.1.2 ∈ nodes)).mapM (edgeLine g)

end Verif
