/-
Model of the set trie (`corset/trie/`), of the PRETTI trie (`corset/PRETTI/`) and of the sample
assignment procedures (`corset/samplers/assignment.py`).
-/
import Verif.Model.Sparse

namespace Verif

/-! ### Binary search -/

/-- `_binary_search`, `corset/trie/utils.py:5-21`. `low` and `high` are Python ints; the fuel stands
for the recursion depth and `none` for running out of it. -/
def binarySearchAux (arr : List ℤ) : ℕ → ℤ → ℤ → ℤ → Option (Py ℤ)
  | 0, _, _, _ => none
  | fuel + 1, low, high, x =>
    if high ≥ low then
      let mid := (high + low) / 2
      match pyGet arr mid with
      | .error e => some (.error e)
      | .ok v =>
        if v = x then some (.ok mid)
        else if v > x then binarySearchAux arr fuel low (mid - 1) x
        else binarySearchAux arr fuel (mid + 1) high x
    else some (.ok (-1))

/-- `binary_search`, `corset/trie/utils.py:1-2`. -/
def binarySearch (arr : List ℤ) (x : ℤ) (fuel : ℕ) : Option (Py ℤ) :=
  binarySearchAux arr fuel 0 ((arr.length : ℤ) - 1) x

/-! ### Set trie -/

/-- A `NodeV2` (`corset/trie/node.py:116-124`): `item` (`None` only at the root), `is_last`, the cached
tuple `_set`, and the children in list order. `children_items` and `item2child` hold the same keys as
`children` and are not represented separately; the parent link is replaced by passing the path from
the root where it is needed. -/
inductive TNode
  | mk (item : Option ℤ) (isLast : Bool) (cache : Option (List ℤ)) (children : List TNode)

namespace TNode

def item : TNode → Option ℤ | mk i _ _ _ => i
def isLast : TNode → Bool | mk _ l _ _ => l
def cache : TNode → Option (List ℤ) | mk _ _ c _ => c
def children : TNode → List TNode | mk _ _ _ cs => cs

/-- `item2child.get(item)`: `has_child` and `get_child`, `corset/trie/node.py:130-135`. -/
def getChild (n : TNode) (a : ℤ) : Option TNode := n.children.find? fun c => c.item == some a

/-- `child_node.is_last = True`. -/
def setLast : TNode → TNode | mk i _ c cs => mk i true c cs

/-- Mutation of the child with the given item (the code mutates the child object in place). -/
def replaceChild : TNode → ℤ → TNode → TNode
  | mk i l c cs, a, new => mk i l c (cs.map fun x => if x.item == some a then new else x)

/-- `bisect.bisect_left(children_items, item)`: the number of leading items smaller than `item`. -/
def bisectLeft (cs : List TNode) (a : ℤ) : ℕ :=
  (cs.takeWhile fun c => decide (c.item.getD a < a)).length

/-- `children.insert(pos, child_node)` at the position found by bisection,
`corset/trie/node.py:151-158`. -/
def addChildNode : TNode → ℤ → TNode → TNode
  | mk i l c cs, a, new => mk i l c (cs.take (bisectLeft cs a) ++ new :: cs.drop (bisectLeft cs a))

/-- The guard of `add_child`, `corset/trie/node.py:138-141`. -/
def tooSmall (n : TNode) (a : ℤ) : Bool :=
  match n.item with
  | none => false
  | some i => decide (a ≤ i)

/-- `_trie_insert`, `corset/trie/_trie.py:4-15`, the position argument being replaced by the remaining
list. -/
def insertList : TNode → List ℤ → Py TNode
  | n, [] => .ok n
  | n, a :: as =>
    match n.getChild a with
    | none =>
      if n.tooSmall a then .error .valueError
      else do
        let child ← insertList (mk (some a) false none []) as
        return n.addChildNode a (if as = [] then child.setLast else child)
    | some c => do
      let child ← insertList c as
      return n.replaceChild a (if as = [] then child.setLast else child)

/-- `_trie_search`, `corset/trie/_trie.py:18-28`. On an empty query the code would raise `IndexError`;
`search` never calls it so (`corset/trie/_trie.py:89-91`). -/
def searchList : TNode → List ℤ → Bool
  | _, [] => false
  | n, q :: qs =>
    match n.getChild q with
    | none => false
    | some c => if qs = [] then c.isLast else searchList c qs

/-- `_trie_search_subsets`, `corset/trie/_trie.py:54-70`. The result is a set of `get_set()` values,
which may be `None` when the cache has not been filled. -/
def searchSubsetsList : TNode → List ℤ → Finset (Option (List ℤ))
  | _, [] => ∅
  | n, q :: qs =>
    (match n.getChild q with
      | none => ∅
      | some c => (if c.isLast then {c.cache} else ∅) ∪ searchSubsetsList c qs)
      ∪ searchSubsetsList n qs

mutual

/-- `all_supersets`, `corset/trie/node.py:69-82`. -/
def allSupersets : TNode → Finset (Option (List ℤ))
  | mk _ l c cs => (if l then {c} else ∅) ∪ allSupersetsLoop cs

/-- The `for c in node.children` loop of `all_supersets`. -/
def allSupersetsLoop : List TNode → Finset (Option (List ℤ))
  | [] => ∅
  | c :: cs => allSupersets c ∪ allSupersetsLoop cs

end

mutual

/-- `_trie_search_supersets`, `corset/trie/_trie.py:31-51`, the position argument being replaced by the
current item and the rest of the query. -/
def searchSupersetsList : TNode → ℤ → List ℤ → Finset (Option (List ℤ))
  | mk _ _ _ cs, q, qs => searchSupersetsLoop cs q qs

/-- The `for child_node in node.children` loop, with its `break`. -/
def searchSupersetsLoop : List TNode → ℤ → List ℤ → Finset (Option (List ℤ))
  | [], _, _ => ∅
  | c :: cs, q, qs =>
    if c.item.getD q ≤ q then
      if c.item.getD q = q then
        match qs with
        | [] => allSupersets c ∪ searchSupersetsLoop cs q qs
        | q' :: qs' => searchSupersetsList c q' qs'
      else searchSupersetsList c q qs ∪ searchSupersetsLoop cs q qs
    else searchSupersetsLoop cs q qs

end

/-- `if self.is_last() and self._set is None: self._set = self.get_set()`, part of `populate_sets`,
`corset/trie/node.py:163-174`. -/
def fillCache (c : Option (List ℤ)) (l : Bool) (path : List ℤ) : Option (List ℤ) :=
  match c with
  | some x => some x
  | none => if l then some path else none

mutual

/-- `populate_sets`, `corset/trie/node.py:163-174`; `path` is the tuple `get_set` would build by
following the parent links (`corset/trie/node.py:56-67`). -/
def populate : TNode → List ℤ → TNode
  | mk i l c cs, path =>
    mk i l (fillCache c l path) (populateLoop cs path)

/-- The loop over the children in `populate_sets`. -/
def populateLoop : List TNode → List ℤ → List TNode
  | [], _ => []
  | c :: cs, path => populate c (path ++ c.item.toList) :: populateLoop cs path

end

mutual

/-- `Node.__eq__`, `corset/trie/node.py:87-97`. -/
def beq : TNode → TNode → Bool
  | mk i l _ cs, mk i' l' _ cs' =>
    if i ≠ i' ∨ l ≠ l' then false
    else if cs.length ≠ cs'.length then false
    else beqLoop cs cs'

/-- The `zip` loop of `Node.__eq__`. -/
def beqLoop : List TNode → List TNode → Bool
  | [], _ => true
  | _, [] => true
  | c :: cs, c' :: cs' => if beq c c' then beqLoop cs cs' else false

end

end TNode

/-- `SetTrie()`, `corset/trie/_trie.py:74-75`. -/
def emptyTrie : TNode := .mk none false none []

/-- `SetTrie.insert`, `corset/trie/_trie.py:77-79`. -/
def trieInsert (t : TNode) (s : Finset ℤ) : Py TNode := t.insertList (s.sort (· ≤ ·))

/-- `SetTrie.insert_batch`, `corset/trie/_trie.py:81-85`. -/
def trieInsertBatch (t : TNode) (sets : List (Finset ℤ)) : Py TNode := do
  let t' ← sets.foldlM trieInsert t
  return t'.populate []

/-- `SetTrie.search`, `corset/trie/_trie.py:87-91`. -/
def trieSearch (t : TNode) (q : Finset ℤ) : Bool :=
  if q.card = 0 then false else t.searchList (q.sort (· ≤ ·))

/-- `SetTrie.search_supersets`, `corset/trie/_trie.py:93-101`. -/
def trieSearchSupersets (t : TNode) (q : Finset ℤ) : Py (Finset (Option (List ℤ))) :=
  match q.sort (· ≤ ·) with
  | [] => .error .valueError
  | a :: as => .ok (t.searchSupersetsList a as)

/-- `SetTrie.search_subsets`, `corset/trie/_trie.py:103-107`. -/
def trieSearchSubsets (t : TNode) (q : Finset ℤ) : Finset (Option (List ℤ)) :=
  if 0 < q.card then t.searchSubsetsList (q.sort (· ≤ ·)) else ∅

/-! ### PRETTI trie -/

/-- A PRETTI trie node, `corset/PRETTI/PRETTI_Trie.py:1-4`: the rows containing the path, and the
children dictionary. -/
inductive PNode
  | mk (vList : Finset ℕ) (children : List (ℤ × PNode))

namespace PNode

def vList : PNode → Finset ℕ | mk v _ => v
def children : PNode → List (ℤ × PNode) | mk _ cs => cs

/-- `children[a] = node`. -/
def setChild : PNode → ℤ → PNode → PNode
  | mk v cs, a, new => mk v ((a, new) :: cs.filter fun p => p.1 ≠ a)

/-- The walk of `ProcessRecord` along the ordered items, `corset/PRETTI/PRETTI_Trie.py:27-42`: the
updated trie and the `v_list` of the last node. -/
def walk (inv : List (Finset ℕ)) : PNode → List ℤ → Py (PNode × Finset ℕ)
  | n, [] => .ok (n, n.vList)
  | n, a :: as =>
    match n.children.lookup a with
    | some c => do
      let (c', v) ← walk inv c as
      return (n.setChild a c', v)
    | none => do
      let rows ← pyGet inv a
      let (c', v) ← walk inv (mk (rows ∩ n.vList) []) as
      return (n.setChild a c', v)

end PNode

/-- The attributes of a `PTrie` that change: the trie and `trie_new_rows`. -/
structure PTrie where
  root : PNode
  newRows : List (List ℕ)

/-- `PTrie(InvInd, n_rows)`, `corset/PRETTI/PRETTI_Trie.py:8-12`. -/
def PTrie.init (nRows : ℕ) : PTrie :=
  { root := .mk (Finset.range nRows) [], newRows := List.replicate nRows [] }

/-- `ProcessRecord`, `corset/PRETTI/PRETTI_Trie.py:22-46`. The final loop appends the id to every row
of the node's `v_list`; the order of that loop is irrelevant because each row is visited once. -/
def processRecord (inv : List (Finset ℕ)) (ordering : List ℤ) (t : PTrie) (rid : ℕ)
    (sample : Finset ℤ) : Py PTrie := do
  let (root, v) ← t.root.walk inv (ordering.filter fun x => decide (x ∈ sample))
  return { root := root
           newRows := t.newRows.mapIdx fun i row => if i ∈ v then row ++ [rid] else row }

/-- `__init__` and `build_index`, `corset/PRETTI/PRETTI_invertedIndex.py:4-12`: for each column the rows with a
non-zero entry (`nonzero` drops stored zeros). -/
def buildIndex (Y : Cmp) : List (Finset ℕ) :=
  (List.range Y.nMinor).map fun j =>
    (Finset.range Y.nMajor).filter fun i => ∃ e ∈ Y.entries i, e.1 = j ∧ e.2 ≠ 0

/-- Number of samples containing an item: the counts of `Counter([item for sublist in ...])`,
`corset/samplers/assignment.py:57-58`. -/
def itemCount (space : List (Finset ℤ)) (x : ℤ) : ℕ := space.countP fun s => decide (x ∈ s)

/-- A possible result of `find_ordering`, `corset/samplers/assignment.py:56-58`: the items of the
samples, each once, by decreasing count. Ties are broken by the iteration order of the sets, which is
not fixed by the language. -/
def IsOrdering (space : List (Finset ℤ)) (ordering : List ℤ) : Prop :=
  ordering.Nodup ∧ (∀ x, x ∈ ordering ↔ ∃ s ∈ space, x ∈ s) ∧
    ordering.Pairwise fun x y => itemCount space y ≤ itemCount space x

/-- The loop `for sample_id, sample in enumerate(self._sample_space)`,
`corset/samplers/assignment.py:68-69`. -/
def processAll (inv : List (Finset ℕ)) (ordering : List ℤ) : PTrie → ℕ → List (Finset ℤ) → Py PTrie
  | t, _, [] => .ok t
  | t, k, s :: ss => do
    let t' ← processRecord inv ordering t k s
    processAll inv ordering t' (k + 1) ss

/-- `PRETTISampleAssignmentMixin._generate_new_rows`, `corset/samplers/assignment.py:61-71`. -/
def prettiNewRows (Y : Cmp) (space : List (Finset ℤ)) (ordering : List ℤ) : Py (List (List ℕ)) := do
  let t ← processAll (buildIndex Y) ordering (PTrie.init Y.nMajor) 0 space
  return t.newRows

/-- The label set of a row as a set of ints. -/
def intSet (s : Finset ℕ) : Finset ℤ := s.image fun j : ℕ => (j : ℤ)

/-- `NaiveSampleAssignmentMixin._generate_new_rows`, `corset/samplers/assignment.py:10-21`. -/
def naiveNewRows (Y : Cmp) (space : List (Finset ℤ)) : List (List ℕ) :=
  (convertMatrixToSetsV2 Y).map fun labelset =>
    (List.range space.length).filter fun id => decide (space.getD id ∅ ⊆ intSet labelset)

/-- `sample2id`, `corset/samplers/assignment.py:38`: the position of a tuple; of several equal tuples
the last one wins. -/
def sample2id (space : List (Finset ℤ)) (t : Option (List ℤ)) : Py ℕ :=
  match (List.range space.length).reverse.find? fun id =>
      decide (some ((space.getD id ∅).sort (· ≤ ·)) = t) with
  | some id => .ok id
  | none => .error .keyError

/-- `TrieSampleAssignmentMixin._generate_new_rows`, `corset/samplers/assignment.py:28-50`. The set of
subsets is traversed in an order chosen by `setOrder`. -/
def trieNewRows (setOrder : Finset (Option (List ℤ)) → List (Option (List ℤ))) (Y : Cmp)
    (space : List (Finset ℤ)) : Py (List (List ℕ)) := do
  let t ← trieInsertBatch emptyTrie space
  (convertMatrixToSetsV2 Y).mapM fun labelset =>
    (setOrder (trieSearchSubsets t (intSet labelset))).mapM (sample2id space)

end Verif
