/-
Specification for the law of `sample_clique`: which orders of addition lead to a set, and how probable each
of them is.
-/
import Verif.Model.Graph
import Mathlib.Data.List.Permutation
import Mathlib.Data.Finset.Sort

namespace Verif

namespace DiG

/-- Probability of the edge from `u` to `v`. -/
def pr (g : DiG) (u v : ℕ) : ℚ := (g.weight u v).getD 0

/-- The nodes `u` has an edge to. -/
def out (g : DiG) (u : ℕ) : Finset ℕ := g.nodes.toFinset.filter fun v => g.hasEdge u v = true

/-- The probability that exactly the edges from `u` to the nodes of `O` are kept. -/
def keepProb (g : DiG) (u : ℕ) (O : Finset ℕ) : ℚ :=
  (∏ x ∈ O, g.pr u x) * ∏ x ∈ g.out u \ O, (1 - g.pr u x)

/-- The probability that `v` is chosen at `u`: some edges are kept, among them that to `v`, and it is drawn
with probability proportional to the probabilities of the kept edges. -/
def stepProb (g : DiG) (u v : ℕ) : ℚ :=
  ∑ O ∈ (g.out u).powerset with v ∈ O, g.keepProb u O * (g.pr u v / ∑ x ∈ O, g.pr u x)

/-- The nodes that can be added after those of `l`: they have an edge from all of them. -/
def next (g : DiG) (l : List ℕ) : Finset ℕ := (g.out (l.getLastD 0)).filter fun v => ∀ s ∈ l, g.hasEdge s v = true

/-- The probability that the nodes of `l`, the first of which is given, are added in this order and no more. -/
def orderProb (g : DiG) (l : List ℕ) : ℚ :=
  ((l.zip l.tail).map fun e => g.stepProb e.1 e.2).prod * (1 - ∑ v ∈ g.next l, g.stepProb (l.getLastD 0) v)

end DiG

/-- The orders of the elements of a set. -/
def orders (A : Finset ℕ) : Finset (List ℕ) := (A.sort (· ≤ ·)).permutations.toFinset

/-- Structure of the digraphs: a graph whose edges have probabilities, without loops. -/
structure DiG.Weighted (g : DiG) : Prop where
  once : (g.edges.map Prod.fst).Nodup
  ends : ∀ u v, g.hasEdge u v = true → u ∈ g.nodes ∧ v ∈ g.nodes
  noLoop : ∀ u, g.hasEdge u u = false
  range : ∀ u v p, g.weight u v = some p → 0 ≤ p ∧ p ≤ 1

end Verif
