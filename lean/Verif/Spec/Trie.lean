/-
Specification vocabulary for the set trie and the sample assignment.
-/
import Verif.Model.Trie
import Verif.Spec.Sparse

namespace Verif

/-- One call on a `SetTrie` object that changes it. -/
inductive TrieOp
  | insert (s : Finset ℤ)
  | insertBatch (sets : List (Finset ℤ))

/-- The effect of the call. -/
def TrieOp.apply (t : TNode) : TrieOp → Py TNode
  | .insert s => trieInsert t s
  | .insertBatch sets => trieInsertBatch t sets

/-- The trie after a history of calls on a new `SetTrie`. -/
def runTrie (ops : List TrieOp) : Py TNode := ops.foldlM TrieOp.apply emptyTrie

/-- The sets mentioned by a call. -/
def TrieOp.sets : TrieOp → List (Finset ℤ)
  | .insert s => [s]
  | .insertBatch sets => sets

/-- The sets mentioned in a history. -/
def inserted (ops : List TrieOp) : List (Finset ℤ) := ops.flatMap TrieOp.sets

/-- A set as the trie reports it: the tuple of its sorted elements. -/
def tupleOf (s : Finset ℤ) : Option (List ℤ) := some (s.sort (· ≤ ·))

/-- A way of traversing a Python set: every element once, in some order. -/
def Traverses {α : Type} (f : Finset α → List α) : Prop :=
  ∀ S, (f S).Nodup ∧ ∀ x, x ∈ f S ↔ x ∈ S

/-- Row `i` of the label matrix contains every label of `s`. -/
def RowContains (Y : Cmp) (i : ℕ) (s : Finset ℤ) : Prop :=
  ∀ x ∈ s, ∃ j : ℕ, x = j ∧ Y.Stored i j

end Verif
