/-
Specification vocabulary for label graphs and probable cliques.
-/
import Verif.Model.Graph
import Verif.Spec.Sparse
import Verif.Spec.Trie

namespace Verif

/-- The rows of the CSC label matrix in which both labels occur. -/
noncomputable def commonRows (Y : Cmp) (u v : ℕ) : Finset ℕ := by
  classical exact (Finset.range Y.nMinor).filter fun i => Y.Stored u i ∧ Y.Stored v i

namespace UGraph

/-- What networkx guarantees for an undirected graph: nodes once, edges between nodes, one value of
the attribute per edge. -/
structure WF {K : Type} (g : UGraph K) : Prop where
  nodup : g.nodes.Nodup
  ends : ∀ e ∈ g.edges, e.1.1 ∈ g.nodes ∧ e.1.2 ∈ g.nodes
  simple : ∀ e ∈ g.edges, g.weight e.1.1 e.1.2 = some e.2

/-- `u` and `v` are joined by an edge. -/
def Adj {K : Type} (g : UGraph K) (u v : ℕ) : Prop := ∃ w, g.weight u v = some w

/-- A set of nodes in which any two are joined. -/
def IsClique {K : Type} (g : UGraph K) (T : Finset ℕ) : Prop :=
  (∀ x ∈ T, x ∈ g.nodes) ∧ ∀ x ∈ T, ∀ y ∈ T, x ≠ y → g.Adj x y

/-- Product of the probabilities of the edges inside `T`. -/
def cliqueProb (g : UGraph ℚ) (T : Finset ℕ) : ℚ :=
  ∏ u ∈ T, ∏ v ∈ T.filter (· < u), (g.weight u v).getD 1

/-- `T` is one of the sets the enumeration promises: a single node, or a clique with probability at
least `alpha`. -/
def Probable (g : UGraph ℚ) (alpha : ℚ) (T : Finset ℕ) : Prop :=
  T ≠ ∅ ∧ g.IsClique T ∧ (T.card = 1 ∨ alpha ≤ g.cliqueProb T)

end UGraph

/-- Exact arithmetic on probabilities. -/
def ratOps : ProbOps ℚ := { one := 1, mul := (· * ·), zero := 0 }

/-- What the enumeration needs of the arithmetic: multiplying by a weight never increases, is monotone,
and stays among the valid values. Exact arithmetic on `[0,1]` has these properties, and so has any
arithmetic that rounds exact products monotonically. -/
structure ProbOps.Lawful {K : Type} [LinearOrder K] (ops : ProbOps K) (Valid : K → Prop) : Prop where
  one : Valid ops.one
  mul : ∀ p w, Valid p → Valid w → Valid (ops.mul p w)
  le_left : ∀ p w, Valid p → Valid w → ops.mul p w ≤ p
  le_right : ∀ p w, Valid p → Valid w → ops.mul p w ≤ w
  mono : ∀ p q w, Valid p → Valid q → Valid w → p ≤ q → ops.mul p w ≤ ops.mul q w

/-- Multiply `p` by the weights of the edges from `u` to the nodes of a list, one after the other. -/
def extendAll {K : Type} (ops : ProbOps K) (g : UGraph K) (u : ℕ) (vs : List ℕ) (p : K) : K :=
  vs.foldl (fun p v => ops.mul p ((g.weight u v).getD ops.one)) p

def orderedProbAux {K : Type} (ops : ProbOps K) (g : UGraph K) : List ℕ → List ℕ → K → K
  | _, [], p => p
  | pre, u :: us, p => orderedProbAux ops g (pre ++ [u]) us (extendAll ops g u pre p)

/-- The product of the edge probabilities inside the list, in a fixed order (which matters only when
the arithmetic rounds): nodes in list order, for each node its edges to the earlier ones. -/
def orderedProb {K : Type} (ops : ProbOps K) (g : UGraph K) (T : List ℕ) : K :=
  orderedProbAux ops g [] T ops.one

/-- All edges of the graph have weights satisfying `Valid`. -/
def UGraph.AllWeights {K : Type} (g : UGraph K) (Valid : K → Prop) : Prop := ∀ e ∈ g.edges, Valid e.2

end Verif
