/-
Vocabulary for histories of calls on trie nodes and on a `SetTrie` made of them.
-/
import Verif.Model.TrieHeap
import Verif.Spec.Trie

namespace Verif

namespace TrieHeap

/-- A call or assignment that changes nodes. References are positions in the order of creation. -/
inductive Call
  /-- `Node(item, is_last=last)` or `NodeV2(item, is_last=last)` -/
  | make (item : Option ℤ) (last : Bool)
  /-- `n.add_child(item, is_last=last)` -/
  | addChild (n : ℕ) (item : ℤ) (last : Bool)
  /-- `n.is_last = True` -/
  | mark (n : ℕ)
  /-- `n.populate_sets()`, which only `NodeV2` has; on a `Node` the history does nothing here -/
  | populate (n : ℕ)

/-- What the call gives (a node for the first two), and the objects afterwards. A history can refer to existing objects
only, so a call on anything else does nothing. -/
def Call.run (c : Cls) (h : Heap) : Call → Option (Py ℕ) × Heap
  | .make item last => (some (.ok h.length), new h item last none)
  | .addChild n x last => if n < h.length then ((TrieHeap.addChild c h n x last).1, (TrieHeap.addChild c h n x last).2) else (none, h)
  | .mark n => (none, setLast h n)
  | .populate n => (none, if c = .nodeV2 ∧ n < h.length then TrieHeap.populate h.length h n else h)

/-- The results of a history of calls, and the objects afterwards. -/
def runCalls (c : Cls) : Heap → List Call → List (Option (Py ℕ)) × Heap
  | h, [] => ([], h)
  | h, a :: as => ((a.run c h).1 :: (runCalls c (a.run c h).2 as).1, (runCalls c (a.run c h).2 as).2)

/-- Node `k` hangs below node `n` with item `x`. -/
def Below (h : Heap) (n k : ℕ) (x : ℤ) : Prop := (nd h k).parent = some n ∧ (nd h k).item = some x

instance (h : Heap) (n k : ℕ) (x : ℤ) : Decidable (Below h n k x) := by unfold Below; infer_instance

/-- The items on the way from a node without parent (`root`) down to the node. -/
inductive Way (h : Heap) : ℕ → ℕ → List ℤ → Prop
  | root {r : ℕ} (hr : (nd h r).parent = none) : Way h r r []
  | step {r n k : ℕ} {x : ℤ} {w : List ℤ} (hw : Way h r n w) (hk : Below h n k x) : Way h r k (w ++ [x])

/-- The heap without the flags. -/
def unflagged (h : Heap) : Heap := h.map fun n => { n with isLast := false }

/-- The effect of a call on a `SetTrie` made of node objects. -/
def applyOp (c : Cls) (h : Heap) : TrieOp → Py Unit × Heap
  | .insert s => insert c h s
  | .insertBatch sets => insertBatch c h sets

/-- The objects after a history of calls on a new `SetTrie`. -/
def runOps (c : Cls) : Heap → List TrieOp → Py Unit × Heap
  | h, [] => (.ok (), h)
  | h, o :: os =>
    match applyOp c h o with
    | (.error e, h₁) => (.error e, h₁)
    | (.ok (), h₁) => runOps c h₁ os

end TrieHeap

end Verif
