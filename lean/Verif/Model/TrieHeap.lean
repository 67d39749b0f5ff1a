/-
The node objects of `corset/trie/node.py`, both classes, as records on a heap. `Verif.Model.Trie` represents a `NodeV2`
together with its subtree as one value and leaves out the attributes `children_items`, `item2child` and `parent`; here
every attribute is represented and a node is a reference (its position on the heap).

Simplifications: nodes are made by `Node(item)`, `NodeV2(item)` and `add_child`; the constructor argument `children` is
treated separately (`hasChildList`, `hasChildDict`). `__repr__` and the message printed by `populate_sets` are not
modelled.
-/
import Verif.Model.Trie

namespace Verif

namespace TrieHeap

/-- The two classes of `corset/trie/node.py`. -/
inductive Cls
  | node
  | nodeV2
  deriving DecidableEq, Repr

/-- The attributes of a node object (`corset/trie/node.py:6-11, 116-124`). `item2child` and `cache` (`_set`) exist in
`NodeV2` only; the dictionary is the list of its entries in the order of insertion. -/
structure Nd where
  item : Option ℤ
  children : List ℕ
  childrenItems : List ℤ
  isLast : Bool
  parent : Option ℕ
  item2child : List (ℤ × ℕ)
  cache : Option (List ℤ)
  deriving DecidableEq, Repr

/-- A new node object without children. -/
def blank (item : Option ℤ) (isLast : Bool) (parent : Option ℕ) : Nd :=
  { item := item, children := [], childrenItems := [], isLast := isLast, parent := parent, item2child := [],
    cache := none }

/-- The objects that exist, in the order of their creation. -/
abbrev Heap := List Nd

/-- The object a reference refers to. References always refer to objects that exist; the value for other numbers is
irrelevant. -/
def nd (h : Heap) (i : ℕ) : Nd := h.getD i (blank none false none)

/-- An assignment to attributes of an object. -/
def upd (h : Heap) (i : ℕ) (f : Nd → Nd) : Heap := h.modify i f

/-- `Node(item, is_last=...)` and `NodeV2(item, is_last=...)` (`corset/trie/node.py:6-11, 116-124`). -/
def new (h : Heap) (item : Option ℤ) (isLast : Bool) (parent : Option ℕ) : Heap := h ++ [blank item isLast parent]

/-- `[c.item for c in self.children]` (`corset/trie/node.py:22, 27`). -/
def itemsOf (h : Heap) (i : ℕ) : List ℤ := (nd h i).children.map fun c => (nd h c).item.getD 0

/-- `binary_search(items, item)` (`corset/trie/node.py:23, 28`); it always returns (`C46`). -/
def find (items : List ℤ) (x : ℤ) : ℤ :=
  match binarySearch items x (items.length + 1) with
  | some (.ok r) => r
  | _ => -1

/-- `has_child` (`corset/trie/node.py:21-24, 130-131`). -/
def hasChild (c : Cls) (h : Heap) (i : ℕ) (x : ℤ) : Bool :=
  match c with
  | .node => find (itemsOf h i) x ≠ -1
  | .nodeV2 => ((nd h i).item2child.lookup x).isSome

/-- `get_child` (`corset/trie/node.py:26-32, 134-135`). -/
def getChild (c : Cls) (h : Heap) (i : ℕ) (x : ℤ) : Py ℕ :=
  match c with
  | .node =>
    let pos := find (itemsOf h i) x
    if pos ≠ -1 then pyGet (nd h i).children pos else .error .keyError
  | .nodeV2 =>
    match (nd h i).item2child.lookup x with
    | some k => .ok k
    | none => .error .keyError

/-- `num_children` (`corset/trie/node.py:17-19, 126-128`). -/
def numChildren (c : Cls) (h : Heap) (i : ℕ) : ℕ :=
  match c with
  | .node => (nd h i).children.length
  | .nodeV2 => (nd h i).item2child.length

/-- `is_leaf` (`corset/trie/node.py:13-15`). -/
def isLeaf (c : Cls) (h : Heap) (i : ℕ) : Bool := numChildren c h i = 0

/-- `bisect.bisect_left(self.children_items, item)` on a sorted list. -/
def bisect (items : List ℤ) (x : ℤ) : ℕ := (items.takeWhile fun y => decide (y < x)).length

/-- The assignments of `add_child` to the attributes of `self`, `k` being the new node
(`corset/trie/node.py:44-53, 147-159`). -/
def attach (c : Cls) (x : ℤ) (k : ℕ) (n : Nd) : Nd :=
  let pos := bisect n.childrenItems x
  { n with childrenItems := n.childrenItems.insertIdx pos x, children := n.children.insertIdx pos k,
           item2child := if c = .nodeV2 then n.item2child ++ [(x, k)] else n.item2child }

/-- `add_child` (`corset/trie/node.py:34-54, 137-160`): the new node or the exception, and the heap afterwards. -/
def addChild (c : Cls) (h : Heap) (i : ℕ) (x : ℤ) (isLast : Bool) : Py ℕ × Heap :=
  match (nd h i).item with
  | some it =>
    if x ≤ it then (.error .valueError, h)
    else if hasChild c h i x then (.error .valueError, h)
    else (.ok h.length, upd (new h (some x) isLast (some i)) i (attach c x h.length))
  | none =>
    if hasChild c h i x then (.error .valueError, h)
    else (.ok h.length, upd (new h (some x) isLast (some i)) i (attach c x h.length))

/-- `_recurse_up` (`corset/trie/node.py:61-65`). A parent is older than its children; the test is there for the
termination of the definition. -/
def recurseUp (h : Heap) (i : ℕ) : List ℤ :=
  match (nd h i).parent with
  | none => []
  | some p => if p < i then recurseUp h p ++ (nd h i).item.toList else []
termination_by i

/-- `Node.get_set` (`corset/trie/node.py:56-67`). -/
def getSetUp (h : Heap) (i : ℕ) : Option (List ℤ) := if (nd h i).isLast then some (recurseUp h i) else none

/-- `get_set` (`corset/trie/node.py:56-67, 177-178`). -/
def getSet (c : Cls) (h : Heap) (i : ℕ) : Option (List ℤ) :=
  match c with
  | .node => getSetUp h i
  | .nodeV2 => (nd h i).cache

/-- The test and the assignment at the start of `aux` (`corset/trie/node.py:168-169`). -/
def fill (h : Heap) (i : ℕ) : Heap :=
  if (nd h i).cache = none then upd h i fun n => { n with cache := getSetUp h i } else h

/-- `aux` in `populate_sets` (`corset/trie/node.py:163-174`). The first argument bounds the depth of the recursion; the
number of objects is enough. -/
def populate : ℕ → Heap → ℕ → Heap
  | 0, h, _ => h
  | d + 1, h, i => if isLeaf .nodeV2 (fill h i) i then fill h i else (nd (fill h i) i).children.foldl (populate d) (fill h i)

/-- `_recurse_down` in `all_supersets` (`corset/trie/node.py:69-82`), with the same bound. -/
def allSupersets (c : Cls) (h : Heap) : ℕ → ℕ → Finset (Option (List ℤ))
  | 0, _ => ∅
  | d + 1, i => (if (nd h i).isLast then {getSet c h i} else ∅) ∪
      (nd h i).children.foldr (fun k r => allSupersets c h d k ∪ r) ∅

/-- `Node.__eq__` (`corset/trie/node.py:87-97`), with the same bound. -/
def beq (h h' : Heap) : ℕ → ℕ → ℕ → Bool
  | 0, _, _ => true
  | d + 1, i, j =>
    if (nd h i).item ≠ (nd h' j).item ∨ (nd h i).isLast ≠ (nd h' j).isLast then false
    else if (nd h i).children.length ≠ (nd h' j).children.length then false
    else ((nd h i).children.zip (nd h' j).children).all fun p => beq h h' d p.1 p.2

/-- A nested tuple. -/
inductive Tup
  | atom (x : Option ℤ)
  | tup (l : List Tup)

/-- `as_nested_tuple` (`corset/trie/node.py:99-105`), with the same bound. -/
def nested (c : Cls) (h : Heap) : ℕ → ℕ → Tup
  | 0, i => .tup [.atom (nd h i).item, .tup []]
  | d + 1, i =>
    if isLeaf c h i then .tup [.atom (nd h i).item, .tup []]
    else .tup (.atom (nd h i).item :: (nd h i).children.map (nested c h d))

/-! ### `SetTrie` on the objects -/

/-- `child_node.is_last = True` (`corset/trie/_trie.py:15`). -/
def setLast (h : Heap) (i : ℕ) : Heap := upd h i fun n => { n with isLast := true }

/-- `_trie_insert` (`corset/trie/_trie.py:4-15`), the position being replaced by the remaining list: the exception, if
any, and the heap afterwards. -/
def insertFrom (c : Cls) : Heap → ℕ → List ℤ → Py Unit × Heap
  | h, _, [] => (.ok (), h)
  | h, i, x :: xs =>
    let r := if hasChild c h i x then (getChild c h i x, h) else addChild c h i x false
    match r with
    | (.error e, h₁) => (.error e, h₁)
    | (.ok k, h₁) =>
      match insertFrom c h₁ k xs with
      | (.error e, h₂) => (.error e, h₂)
      | (.ok (), h₂) => (.ok (), if xs = [] then setLast h₂ k else h₂)

/-- `SetTrie()` (`corset/trie/_trie.py:74-75`); the root is object 0. -/
def emptyHeap : Heap := new [] none false none

/-- `SetTrie.insert` (`corset/trie/_trie.py:77-79`). -/
def insert (c : Cls) (h : Heap) (s : Finset ℤ) : Py Unit × Heap := insertFrom c h 0 (s.sort (· ≤ ·))

/-- The loop of `SetTrie.insert_batch` (`corset/trie/_trie.py:82-83`). -/
def insertAll (c : Cls) : Heap → List (Finset ℤ) → Py Unit × Heap
  | h, [] => (.ok (), h)
  | h, s :: ss =>
    match insert c h s with
    | (.error e, h₁) => (.error e, h₁)
    | (.ok (), h₁) => insertAll c h₁ ss

/-- `SetTrie.insert_batch` (`corset/trie/_trie.py:81-85`). -/
def insertBatch (c : Cls) (h : Heap) (sets : List (Finset ℤ)) : Py Unit × Heap :=
  match insertAll c h sets with
  | (.error e, h₁) => (.error e, h₁)
  | (.ok (), h₁) => (.ok (), if c = .nodeV2 then populate h₁.length h₁ 0 else h₁)

/-- `_trie_search` (`corset/trie/_trie.py:18-28`); it is never called with an empty query. -/
def searchFrom (c : Cls) (h : Heap) : ℕ → List ℤ → Bool
  | _, [] => false
  | i, q :: qs =>
    match getChild c h i q with
    | .error _ => false
    | .ok k => if qs = [] then (nd h k).isLast else searchFrom c h k qs

/-- `SetTrie.search` (`corset/trie/_trie.py:87-91`). -/
def search (c : Cls) (h : Heap) (q : Finset ℤ) : Bool :=
  if q.card = 0 then false else searchFrom c h 0 (q.sort (· ≤ ·))

/-- `_trie_search_subsets` (`corset/trie/_trie.py:54-70`). -/
def subsetsFrom (c : Cls) (h : Heap) : ℕ → List ℤ → Finset (Option (List ℤ))
  | _, [] => ∅
  | i, q :: qs =>
    (match getChild c h i q with
      | .error _ => ∅
      | .ok k => (if (nd h k).isLast then {getSet c h k} else ∅) ∪ subsetsFrom c h k qs)
      ∪ subsetsFrom c h i qs

/-- `SetTrie.search_subsets` (`corset/trie/_trie.py:103-107`). -/
def searchSubsets (c : Cls) (h : Heap) (q : Finset ℤ) : Finset (Option (List ℤ)) :=
  if 0 < q.card then subsetsFrom c h 0 (q.sort (· ≤ ·)) else ∅

/-- The loop over the children in `_trie_search_supersets` (`corset/trie/_trie.py:31-51`); `rec` is the recursive
call on a child with the given query. -/
def supersetsLoop (c : Cls) (h : Heap) (rec : ℕ → ℤ → List ℤ → Finset (Option (List ℤ))) :
    List ℕ → ℤ → List ℤ → Finset (Option (List ℤ))
  | [], _, _ => ∅
  | k :: ks, q, qs =>
    let it := (nd h k).item.getD q
    if it ≤ q then
      if it = q then
        match qs with
        | [] => allSupersets c h h.length k ∪ supersetsLoop c h rec ks q qs
        | q' :: qs' => rec k q' qs'
      else rec k q qs ∪ supersetsLoop c h rec ks q qs
    else supersetsLoop c h rec ks q qs

/-- `_trie_search_supersets` (`corset/trie/_trie.py:31-51`); the first argument bounds the depth as above. -/
def supersetsFrom (c : Cls) (h : Heap) : ℕ → ℕ → ℤ → List ℤ → Finset (Option (List ℤ))
  | 0, _, _, _ => ∅
  | d + 1, i, q, qs => supersetsLoop c h (supersetsFrom c h d) (nd h i).children q qs

/-- `SetTrie.search_supersets` (`corset/trie/_trie.py:93-101`). -/
def searchSupersets (c : Cls) (h : Heap) (q : Finset ℤ) : Py (Finset (Option (List ℤ))) :=
  match q.sort (· ≤ ·) with
  | [] => .error .valueError
  | a :: as => .ok (supersetsFrom c h h.length 0 a as)

/-! ### The constructor argument `children` -/

/-- `has_child` of `Node(item, children=cs)` (`corset/trie/node.py:6-11, 21-24`), `items` being the items of the
children in the given order. -/
def hasChildList (items : List ℤ) (x : ℤ) : Bool := find items x ≠ -1

/-- `has_child` of `NodeV2(item, children=cs)` (`corset/trie/node.py:116-124, 130-131`). -/
def hasChildDict (items : List ℤ) (x : ℤ) : Bool := items.contains x

/-- `num_children` of `NodeV2(item, children=cs)` (`corset/trie/node.py:123, 126-128`): the dictionary has an entry for
each item. -/
def numChildrenDict (items : List ℤ) : ℕ := items.dedup.length

end TrieHeap

end Verif
