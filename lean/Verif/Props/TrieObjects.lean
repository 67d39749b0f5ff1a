/-
C113, continued: a `SetTrie` made of node objects, nested tuples, and the constructor argument `children`.
-/
import Verif.Props.TrieHeap

namespace Verif

namespace TrieHeap

/-! ### Queries on the objects and on the value -/

theorem searchFrom_tree {c : Cls} {h : Heap} (hI : Inv c h) (qs : List ℤ) : ∀ {i : ℕ}, i < h.length →
    searchFrom c h i qs = (tree h i).searchList qs := by
  induction qs with
  | nil => intro i _; rfl
  | cons q qs ih =>
    intro i hi
    rw [searchFrom, TNode.searchList]
    by_cases hex : ∃ k, (nd h k).parent = some i ∧ (nd h k).item = some q
    · obtain ⟨k, hk, hq⟩ := hex
      have hkl := (hI.parent_lt hk).1
      rw [(hI.getChild_ok i k q).mpr ⟨hk, hq⟩, tree_getChild_some hI hi hk hq]
      simp only
      rw [tree_isLast hI hkl, ih hkl]
    · rw [tree_getChild_none hI hi hex]
      rcases hI.getChild_error i q with ⟨k, hk⟩ | he
      · exact absurd ⟨k, (hI.getChild_ok i k q).mp hk⟩ hex
      · rw [he]

theorem subsetsFrom_tree {h : Heap} (hI : Inv .nodeV2 h) (qs : List ℤ) : ∀ {i : ℕ}, i < h.length →
    subsetsFrom .nodeV2 h i qs = (tree h i).searchSubsetsList qs := by
  induction qs with
  | nil => intro i _; rfl
  | cons q qs ih =>
    intro i hi
    rw [subsetsFrom, TNode.searchSubsetsList, ih hi]
    congr 1
    by_cases hex : ∃ k, (nd h k).parent = some i ∧ (nd h k).item = some q
    · obtain ⟨k, hk, hq⟩ := hex
      have hkl := (hI.parent_lt hk).1
      rw [(hI.getChild_ok i k q).mpr ⟨hk, hq⟩, tree_getChild_some hI hi hk hq]
      simp only
      rw [tree_isLast hI hkl, tree_cache hI hkl, ih hkl]
      rfl
    · rw [tree_getChild_none hI hi hex]
      rcases hI.getChild_error i q with ⟨k, hk⟩ | he
      · exact absurd ⟨k, (hI.getChild_ok i k q).mp hk⟩ hex
      · rw [he]

theorem allSupersets_tree {h : Heap} (hI : Inv .nodeV2 h) (d : ℕ) : ∀ {i : ℕ}, i < h.length → h.length ≤ i + d →
    allSupersets .nodeV2 h d i = (tree h i).allSupersets := by
  induction d with
  | zero => intro i h1 h2; omega
  | succ d ih =>
    intro i hi hd
    rw [allSupersets, tree_eq hI hi, TNode.allSupersets]
    congr 1
    have hch : ∀ k ∈ (nd h i).children, allSupersets .nodeV2 h d k = (tree h k).allSupersets := by
      intro k hk
      have := hI.child_gt hk
      exact ih this.2 (by omega)
    revert hch
    generalize (nd h i).children = l
    intro hch
    induction l with
    | nil => rfl
    | cons a l ihl =>
      rw [List.foldr_cons, List.map_cons, TNode.allSupersetsLoop, hch a List.mem_cons_self,
        ihl (fun k hk => hch k (List.mem_cons_of_mem _ hk))]

theorem supersetsLoop_cons (c : Cls) (h : Heap) (rec : ℕ → ℤ → List ℤ → Finset (Option (List ℤ))) (k : ℕ) (ks : List ℕ)
    (q : ℤ) (qs : List ℤ) : supersetsLoop c h rec (k :: ks) q qs =
      if (nd h k).item.getD q ≤ q then
        if (nd h k).item.getD q = q then
          match qs with
          | [] => allSupersets c h h.length k ∪ supersetsLoop c h rec ks q qs
          | q' :: qs' => rec k q' qs'
        else rec k q qs ∪ supersetsLoop c h rec ks q qs
      else supersetsLoop c h rec ks q qs := by
  cases qs <;> rfl

theorem searchSupersetsLoop_cons (t : TNode) (ts : List TNode) (q : ℤ) (qs : List ℤ) :
    TNode.searchSupersetsLoop (t :: ts) q qs =
      if t.item.getD q ≤ q then
        if t.item.getD q = q then
          match qs with
          | [] => t.allSupersets ∪ TNode.searchSupersetsLoop ts q qs
          | q' :: qs' => t.searchSupersetsList q' qs'
        else t.searchSupersetsList q qs ∪ TNode.searchSupersetsLoop ts q qs
      else TNode.searchSupersetsLoop ts q qs := by
  cases qs <;> rw [TNode.searchSupersetsLoop]

theorem supersetsLoop_tree {h : Heap} (hI : Inv .nodeV2 h) (rec : ℕ → ℤ → List ℤ → Finset (Option (List ℤ)))
    (l : List ℕ) (hl : ∀ k ∈ l, k < h.length) (hrec : ∀ k ∈ l, ∀ q qs, rec k q qs = (tree h k).searchSupersetsList q qs)
    (q : ℤ) (qs : List ℤ) :
    supersetsLoop .nodeV2 h rec l q qs = TNode.searchSupersetsLoop (l.map (tree h)) q qs := by
  induction l with
  | nil => rw [List.map_nil, supersetsLoop, TNode.searchSupersetsLoop]
  | cons k l ih =>
    have ih' := ih (fun a ha => hl a (List.mem_cons_of_mem _ ha)) (fun a ha => hrec a (List.mem_cons_of_mem _ ha))
    have hk := hl k List.mem_cons_self
    rw [List.map_cons, supersetsLoop_cons, searchSupersetsLoop_cons, tree_item hI hk, ih']
    split
    · split
      · cases qs with
        | nil => simp only; rw [allSupersets_tree hI _ hk (by omega)]
        | cons q' qs' => simp only; rw [hrec k List.mem_cons_self]
      · rw [hrec k List.mem_cons_self]
    · rfl

theorem supersetsFrom_tree {h : Heap} (hI : Inv .nodeV2 h) (d : ℕ) : ∀ {i : ℕ}, i < h.length → h.length ≤ i + d →
    ∀ q qs, supersetsFrom .nodeV2 h d i q qs = (tree h i).searchSupersetsList q qs := by
  induction d with
  | zero => intro i h1 h2; omega
  | succ d ih =>
    intro i hi hd q qs
    rw [supersetsFrom, tree_eq hI hi, TNode.searchSupersetsList]
    refine supersetsLoop_tree hI _ _ (fun k hk => (hI.child_gt hk).2) ?_ q qs
    intro k hk q qs
    have := hI.child_gt hk
    exact ih this.2 (by omega) q qs

theorem beq_tree {c c' : Cls} {h h' : Heap} (hI : Inv c h) (hI' : Inv c' h') (d : ℕ) : ∀ {i j : ℕ}, i < h.length →
    j < h'.length → h.length ≤ i + d → beq h h' d i j = (tree h i).beq (tree h' j) := by
  induction d with
  | zero => intro i j h1 _ h2; omega
  | succ d ih =>
    intro i j hi hj hd
    rw [beq, tree_eq hI hi, tree_eq hI' hj, TNode.beq, List.length_map, List.length_map]
    split
    · rfl
    · split
      · rfl
      · have hch : ∀ k ∈ (nd h i).children, ∀ k' ∈ (nd h' j).children, beq h h' d k k' = (tree h k).beq (tree h' k') := by
          intro k hk k' hk'
          have := hI.child_gt hk
          exact ih this.2 (hI'.child_gt hk').2 (by omega)
        revert hch
        generalize (nd h i).children = l
        generalize (nd h' j).children = l'
        intro hch
        induction l generalizing l' with
        | nil => rw [List.map_nil, TNode.beqLoop]; rfl
        | cons a l ihl =>
          cases l' with
          | nil => rfl
          | cons a' l' =>
            rw [List.map_cons, List.map_cons, TNode.beqLoop, List.zip_cons_cons, List.all_cons,
              hch a List.mem_cons_self a' List.mem_cons_self,
              ihl l' (fun k hk k' hk' => hch k (List.mem_cons_of_mem _ hk) k' (List.mem_cons_of_mem _ hk'))]
            cases (tree h a).beq (tree h' a') <;> simp

theorem populate_tree {h : Heap} (hI : Inv .nodeV2 h) {i : ℕ} (hi : i < h.length) (d : ℕ) (hd : h.length ≤ i + d) :
    tree (populate d h i) i = (tree h i).populate (recurseUp h i) := by
  obtain ⟨hl, hnd⟩ := populate_nd d h i hI rfl hi hd
  have hI' := hI.populate d i
  have key : ∀ m k, h.length ≤ k + m → k < h.length → Desc h i k →
      tree (populate d h i) k = (tree h k).populate (recurseUp h k) := by
    intro m
    induction m with
    | zero => intro k h1 h2; omega
    | succ m ih =>
      intro k h1 h2 hD
      rw [tree_eq hI' (by omega), tree_eq hI h2, TNode.populate, (hnd k).1 hD]
      unfold filled
      simp only
      congr 1
      have hch : ∀ a ∈ (nd h k).children, tree (populate d h i) a = (tree h a).populate (recurseUp h a) ∧
          recurseUp h a = recurseUp h k ++ (tree h a).item.toList := by
        intro a ha
        have hp := (hI.mem k a).mp ha
        have hg := hI.child_gt ha
        refine ⟨ih a (by omega) hg.2 (.step hD hp.2), ?_⟩
        rw [recurseUp_eq h a, hp.2, tree_item hI hg.2]
        simp only
        rw [if_pos hg.1]
      revert hch
      generalize (nd h k).children = l
      intro hch
      induction l with
      | nil => rw [List.map_nil, List.map_nil, TNode.populateLoop]
      | cons a l ihl =>
        obtain ⟨h3, h4⟩ := hch a List.mem_cons_self
        rw [List.map_cons, List.map_cons, TNode.populateLoop, h3, h4, ihl (fun b hb => hch b (List.mem_cons_of_mem _ hb))]
  exact key _ i hd hi .refl

/-! ### Histories of a trie -/

/-- What holds of the objects of a trie: the root is the object 0. -/
structure Rooted (c : Cls) (h : Heap) : Prop where
  inv : Inv c h
  pos : 0 < h.length
  item : (nd h 0).item = none
  parent : (nd h 0).parent = none
  all : ∀ k, k < h.length → Desc h 0 k

theorem rooted_empty (c : Cls) : Rooted c emptyHeap := by
  refine ⟨(inv_nil c).new none false, by simp [emptyHeap], rfl, rfl, ?_⟩
  intro k hk
  have : k = 0 := by simp [emptyHeap] at hk; omega
  subst this
  exact .refl

theorem desc_root_old {c : Cls} {h h' : Heap} (hI : Inv c h)
    (hp : ∀ k, k < h.length → (nd h' k).parent = (nd h k).parent) {k : ℕ} (hk : k < h.length) (hd : Desc h 0 k) :
    Desc h' 0 k := by
  induction hd with
  | refl => exact .refl
  | @step n k _ hn ih => exact .step (ih (hI.parent_lt hn).2) (by rw [hp k hk]; exact hn)

theorem insert_rooted {c : Cls} {h : Heap} (hR : Rooted c h) (s : Finset ℤ) :
    ∃ h', insert c h s = (.ok (), h') ∧ Rooted c h' ∧ trieInsert (tree h 0) s = .ok (tree h' 0) := by
  obtain ⟨h', e1, hI', hl, hpi, -, hds, -, ht⟩ := insertFrom_spec c (s.sort (· ≤ ·)) h 0 hR.inv hR.pos
    (sort_lt s) (fun x _ y hy => by rw [hR.item] at hy; cases hy)
  have hp := hR.pos
  refine ⟨h', e1, ⟨hI', by omega, by rw [(hpi 0 hp).2, hR.item], by rw [(hpi 0 hp).1, hR.parent], ?_⟩, ht⟩
  intro k hk
  rcases Nat.lt_or_ge k h.length with h1 | h1
  · exact desc_root_old hR.inv (fun a ha => (hpi a ha).1) h1 (hR.all k h1)
  · exact hds k h1 hk

theorem insertAll_rooted {c : Cls} (sets : List (Finset ℤ)) : ∀ {h : Heap}, Rooted c h →
    ∃ h', insertAll c h sets = (.ok (), h') ∧ Rooted c h' ∧ sets.foldlM trieInsert (tree h 0) = .ok (tree h' 0) := by
  induction sets with
  | nil => intro h hR; exact ⟨h, rfl, hR, rfl⟩
  | cons s ss ih =>
    intro h hR
    obtain ⟨h₁, e1, hR₁, t1⟩ := insert_rooted hR s
    obtain ⟨h₂, e2, hR₂, t2⟩ := ih hR₁
    refine ⟨h₂, ?_, hR₂, ?_⟩
    · rw [insertAll, e1]; exact e2
    · rw [List.foldlM_cons, t1]; exact t2

theorem populate_rooted {h : Heap} (hR : Rooted .nodeV2 h) : Rooted .nodeV2 (populate h.length h 0) ∧
    tree (populate h.length h 0) 0 = (tree h 0).populate [] := by
  obtain ⟨hl, hnd⟩ := populate_nd h.length h 0 hR.inv rfl hR.pos (by omega)
  have hpi : ∀ k, (nd (populate h.length h 0) k).parent = (nd h k).parent ∧
      (nd (populate h.length h 0) k).item = (nd h k).item := by
    intro k
    by_cases hd : Desc h 0 k
    · rw [(hnd k).1 hd]; exact ⟨rfl, rfl⟩
    · rw [(hnd k).2 hd]; exact ⟨rfl, rfl⟩
  have hp := hR.pos
  refine ⟨⟨hR.inv.populate _ 0, by omega, by rw [(hpi 0).2, hR.item], by rw [(hpi 0).1, hR.parent], ?_⟩, ?_⟩
  · intro k hk
    rw [hl] at hk
    exact desc_root_old hR.inv (fun a _ => (hpi a).1) hk (hR.all k hk)
  · rw [populate_tree hR.inv hR.pos _ (by omega), recurseUp_eq, hR.parent]

theorem applyOp_rooted {h : Heap} (hR : Rooted .nodeV2 h) (o : TrieOp) :
    ∃ h', applyOp .nodeV2 h o = (.ok (), h') ∧ Rooted .nodeV2 h' ∧ o.apply (tree h 0) = .ok (tree h' 0) := by
  cases o with
  | insert s => exact insert_rooted hR s
  | insertBatch sets =>
    obtain ⟨h₁, e1, hR₁, t1⟩ := insertAll_rooted sets hR
    obtain ⟨hR₂, t2⟩ := populate_rooted hR₁
    refine ⟨populate h₁.length h₁ 0, ?_, hR₂, ?_⟩
    · unfold applyOp insertBatch
      simp only [e1, if_true]
    · unfold TrieOp.apply trieInsertBatch
      simp only [t1, bind, Except.bind, pure, Except.pure, t2]

theorem runOps_rooted (ops : List TrieOp) : ∀ {h : Heap}, Rooted .nodeV2 h →
    ∃ h', runOps .nodeV2 h ops = (.ok (), h') ∧ Rooted .nodeV2 h' ∧ ops.foldlM TrieOp.apply (tree h 0) = .ok (tree h' 0) := by
  induction ops with
  | nil => intro h hR; exact ⟨h, rfl, hR, rfl⟩
  | cons o os ih =>
    intro h hR
    obtain ⟨h₁, e1, hR₁, t1⟩ := applyOp_rooted hR o
    obtain ⟨h₂, e2, hR₂, t2⟩ := ih hR₁
    refine ⟨h₂, ?_, hR₂, ?_⟩
    · rw [runOps, e1]; exact e2
    · rw [List.foldlM_cons, t1]; exact t2

theorem tree_empty : tree emptyHeap 0 = emptyTrie := rfl

/-- **C113.** A `SetTrie` made of node objects, after any history of `insert` and `insert_batch` calls: no call raised, and
every query answers as on the tree value about which C42, C43 and C44 are proved. -/
theorem C113_trie (ops : List TrieOp) : ∃ h t, runOps .nodeV2 emptyHeap ops = (.ok (), h) ∧ runTrie ops = .ok t ∧
    (∀ q, search .nodeV2 h q = trieSearch t q) ∧ (∀ q, searchSubsets .nodeV2 h q = trieSearchSubsets t q) ∧
    (∀ q, searchSupersets .nodeV2 h q = trieSearchSupersets t q) := by
  obtain ⟨h, e, hR, ht⟩ := runOps_rooted ops (rooted_empty .nodeV2)
  rw [tree_empty] at ht
  refine ⟨h, tree h 0, e, ht, ?_, ?_, ?_⟩
  · intro q
    unfold search trieSearch
    rw [searchFrom_tree hR.inv _ hR.pos]
  · intro q
    unfold searchSubsets trieSearchSubsets
    rw [subsetsFrom_tree hR.inv _ hR.pos]
  · intro q
    unfold searchSupersets trieSearchSupersets
    cases q.sort (· ≤ ·) with
    | nil => rfl
    | cons a as =>
      simp only
      rw [supersetsFrom_tree hR.inv _ hR.pos (by omega)]

example : ∃ h, runOps .nodeV2 emptyHeap exampleHistory = (.ok (), h) ∧ search .nodeV2 h {1, 2} = true ∧
    search .nodeV2 h {1} = false := by
  obtain ⟨h, t, h1, h2, h3, -⟩ := C113_trie exampleHistory
  obtain ⟨t', h4, h5⟩ := C42_search exampleHistory
  rw [h2] at h4
  cases h4
  refine ⟨h, h1, ?_, ?_⟩
  · rw [h3]; exact (h5 _).mpr (by decide)
  · rw [h3, ← Bool.not_eq_true, h5]; decide

/-- **C113.** Two tries made of node objects compare equal exactly if the same non-empty sets were inserted. -/
theorem C113_trie_equality (ops ops' : List TrieOp) : ∃ h h', runOps .nodeV2 emptyHeap ops = (.ok (), h) ∧
    runOps .nodeV2 emptyHeap ops' = (.ok (), h') ∧
    (beq h h' h.length 0 0 = true ↔ ∀ s : Finset ℤ, s ≠ ∅ → (s ∈ inserted ops ↔ s ∈ inserted ops')) := by
  obtain ⟨h, e, hR, ht⟩ := runOps_rooted ops (rooted_empty .nodeV2)
  obtain ⟨h', e', hR', ht'⟩ := runOps_rooted ops' (rooted_empty .nodeV2)
  rw [tree_empty] at ht ht'
  refine ⟨h, h', e, e', ?_⟩
  obtain ⟨t, t', h1, h2, h3⟩ := C45_equality ops ops'
  have h1' : runTrie ops = .ok (tree h 0) := ht
  have h2' : runTrie ops' = .ok (tree h' 0) := ht'
  rw [h1'] at h1
  rw [h2'] at h2
  cases h1
  cases h2
  rw [beq_tree hR.inv hR'.inv _ hR.pos hR'.pos (by omega)]
  exact h3

/-! ### A trie made of the slower class -/

theorem agree_insertFrom (xs : List ℤ) : ∀ {h h' : Heap} (i : ℕ), Agree h h' → Inv .node h → Inv .nodeV2 h' → i < h.length →
    (insertFrom .node h i xs).1 = (insertFrom .nodeV2 h' i xs).1 ∧
    Agree (insertFrom .node h i xs).2 (insertFrom .nodeV2 h' i xs).2 := by
  induction xs with
  | nil => intro h h' i ha _ _ _; exact ⟨rfl, ha⟩
  | cons x xs ih =>
    intro h h' i ha hI hI' hi
    rw [insertFrom, insertFrom]
    rw [agree_hasChild ha hI hI', agree_getChild ha hI hI']
    by_cases hc : hasChild .nodeV2 h' i x = true
    · simp only [hc, if_true]
      rcases hI'.getChild_error i x with ⟨k, hk⟩ | he
      · rw [hk]
        simp only
        have hkl := (hI'.parent_lt ((hI'.getChild_ok i k x).mp hk).1).1
        obtain ⟨h1, h2⟩ := ih k ha hI hI' (by rw [ha.1]; exact hkl)
        rcases e1 : insertFrom .node h k xs with ⟨r, h₁⟩
        rcases e2 : insertFrom .nodeV2 h' k xs with ⟨r', h₁'⟩
        rw [e1, e2] at h1 h2
        simp only at h1 h2
        subst h1
        cases r with
        | error e => exact ⟨rfl, h2⟩
        | ok u =>
          refine ⟨rfl, ?_⟩
          simp only
          split
          · exact agree_setLast h2 k
          · exact h2
      · rw [he]; exact ⟨rfl, ha⟩
    · simp only [hc, if_false, Bool.false_eq_true]
      obtain ⟨g1, g2⟩ := agree_addChild ha hI hI' i x false
      have hIa := hI.addChild hi x false
      have hIa' := hI'.addChild (by rw [← ha.1]; exact hi) x false
      have hlen : ∀ k, (addChild .node h i x false).1 = .ok k → k < (addChild .node h i x false).2.length := by
        intro k
        unfold addChild
        split
        · split
          · intro he; cases he
          · split
            · intro he; cases he
            · intro he; cases he; simp
        · split
          · intro he; cases he
          · intro he; cases he; simp
      rcases e1 : addChild .node h i x false with ⟨r, h₁⟩
      rcases e2 : addChild .nodeV2 h' i x false with ⟨r', h₁'⟩
      rw [e1, e2] at g1 g2
      rw [e1] at hIa hlen
      rw [e2] at hIa'
      simp only at g1 g2 hIa hIa' hlen
      subst g1
      cases r with
      | error e => exact ⟨rfl, g2⟩
      | ok k =>
        simp only
        obtain ⟨h1, h2⟩ := ih k g2 hIa hIa' (hlen k rfl)
        rcases e3 : insertFrom .node h₁ k xs with ⟨s, h₂⟩
        rcases e4 : insertFrom .nodeV2 h₁' k xs with ⟨s', h₂'⟩
        rw [e3, e4] at h1 h2
        simp only at h1 h2
        subst h1
        cases s with
        | error e => exact ⟨rfl, h2⟩
        | ok u =>
          refine ⟨rfl, ?_⟩
          simp only
          split
          · exact agree_setLast h2 k
          · exact h2

theorem agree_insertAll (sets : List (Finset ℤ)) : ∀ {h h' : Heap}, Agree h h' → Rooted .node h → Rooted .nodeV2 h' →
    ∃ h₁ h₁', insertAll .node h sets = (.ok (), h₁) ∧ insertAll .nodeV2 h' sets = (.ok (), h₁') ∧ Agree h₁ h₁' ∧
      Rooted .node h₁ ∧ Rooted .nodeV2 h₁' := by
  induction sets with
  | nil => intro h h' ha hR hR'; exact ⟨h, h', rfl, rfl, ha, hR, hR'⟩
  | cons s ss ih =>
    intro h h' ha hR hR'
    obtain ⟨g, e1, hRg, -⟩ := insert_rooted hR s
    obtain ⟨g', e1', hRg', -⟩ := insert_rooted hR' s
    have hag := (agree_insertFrom (s.sort (· ≤ ·)) 0 ha hR.inv hR'.inv hR.pos).2
    have hag' : Agree g g' := by
      have h1 : (insert .node h s).2 = g := by rw [e1]
      have h2 : (insert .nodeV2 h' s).2 = g' := by rw [e1']
      rw [← h1, ← h2]; exact hag
    obtain ⟨k, k', e2, e2', hh⟩ := ih hag' hRg hRg'
    refine ⟨k, k', ?_, ?_, hh⟩
    · rw [insertAll, e1]; exact e2
    · rw [insertAll, e1']; exact e2'

theorem agree_runOps (ops : List TrieOp) : ∀ {h h' : Heap}, Agree h h' → Rooted .node h → Rooted .nodeV2 h' →
    ∃ h₁ h₁', runOps .node h ops = (.ok (), h₁) ∧ runOps .nodeV2 h' ops = (.ok (), h₁') ∧ Agree h₁ h₁' ∧
      Rooted .node h₁ ∧ Rooted .nodeV2 h₁' := by
  induction ops with
  | nil => intro h h' ha hR hR'; exact ⟨h, h', rfl, rfl, ha, hR, hR'⟩
  | cons o os ih =>
    intro h h' ha hR hR'
    have hstep : ∃ g g', applyOp .node h o = (.ok (), g) ∧ applyOp .nodeV2 h' o = (.ok (), g') ∧ Agree g g' ∧
        Rooted .node g ∧ Rooted .nodeV2 g' := by
      cases o with
      | insert s =>
        obtain ⟨g, g', e, e', hh⟩ := agree_insertAll [s] ha hR hR'
        refine ⟨g, g', ?_, ?_, hh⟩
        · rw [insertAll] at e
          rcases e3 : insert .node h s with ⟨r, k⟩
          rw [e3] at e
          cases r with
          | error x => simp at e
          | ok u => simp only [insertAll] at e; change insert .node h s = _; rw [e3]; exact e
        · rw [insertAll] at e'
          rcases e3 : insert .nodeV2 h' s with ⟨r, k⟩
          rw [e3] at e'
          cases r with
          | error x => simp at e'
          | ok u => simp only [insertAll] at e'; change insert .nodeV2 h' s = _; rw [e3]; exact e'
      | insertBatch sets =>
        obtain ⟨g, g', e, e', ha', hRg, hRg'⟩ := agree_insertAll sets ha hR hR'
        refine ⟨g, populate g'.length g' 0, ?_, ?_, agree_populate ha' hRg'.inv 0 hRg'.pos, hRg, (populate_rooted hRg').1⟩
        · unfold applyOp insertBatch; simp only [e, reduceCtorEq, if_false]
        · unfold applyOp insertBatch; simp only [e', if_true]
    obtain ⟨g, g', e, e', ha', hRg, hRg'⟩ := hstep
    obtain ⟨k, k', e2, e2', hh⟩ := ih ha' hRg hRg'
    refine ⟨k, k', ?_, ?_, hh⟩
    · rw [runOps, e]; exact e2
    · rw [runOps, e']; exact e2'

/-- On a populated trie the two classes answer alike. -/
theorem agree_getSet {h h' : Heap} (ha : Agree h h') (hR' : Rooted .nodeV2 h') {k : ℕ} (hk : k < h'.length) :
    getSet .node h k = getSet .nodeV2 (populate h'.length h' 0) k := by
  obtain ⟨-, hnd⟩ := populate_nd h'.length h' 0 hR'.inv rfl hR'.pos (by omega)
  unfold getSet
  simp only
  rw [(hnd k).1 (hR'.all k hk)]
  unfold filled getSetUp TNode.fillCache
  simp only
  rw [(ha.2 k).2.2.2.1, recurseUp_congr (h := h') (h' := h) (n := k + 1) (fun j _ => ⟨(ha.2 j).2.2.2.2, (ha.2 j).1⟩) k (by omega)]
  rcases hc : (nd h' k).cache with _ | s
  · rfl
  · obtain ⟨h1, h2⟩ := hR'.inv.cache k s hc
    simp only
    rw [h1, h2]
    rfl

theorem agree_subsets {h h' : Heap} (ha : Agree h h') (hI : Inv .node h) (hI' : Inv .nodeV2 h')
    (hg : ∀ k, k < h.length → getSet .node h k = getSet .nodeV2 h' k) (qs : List ℤ) :
    ∀ i, subsetsFrom .node h i qs = subsetsFrom .nodeV2 h' i qs := by
  induction qs with
  | nil => intro i; rfl
  | cons q qs ih =>
    intro i
    rw [subsetsFrom, subsetsFrom, ih i, agree_getChild ha hI hI']
    congr 1
    rcases hI'.getChild_error i q with ⟨k, hk⟩ | he
    · rw [hk]
      have hkl := (hI'.parent_lt ((hI'.getChild_ok i k q).mp hk).1).1
      simp only
      rw [(ha.2 k).2.2.2.1, hg k (by rw [ha.1]; exact hkl), ih k]
    · rw [he]

theorem agree_allSupersets {h h' : Heap} (ha : Agree h h') (hI : Inv .node h)
    (hg : ∀ k, k < h.length → getSet .node h k = getSet .nodeV2 h' k) (d : ℕ) :
    ∀ i, i < h.length → allSupersets .node h d i = allSupersets .nodeV2 h' d i := by
  induction d with
  | zero => intro i _; rfl
  | succ d ih =>
    intro i hi
    rw [allSupersets, allSupersets, (ha.2 i).2.2.2.1, hg i hi, ← (ha.2 i).2.1]
    congr 1
    have hch : ∀ k ∈ (nd h i).children, allSupersets .node h d k = allSupersets .nodeV2 h' d k :=
      fun k hk => ih k (hI.child_gt hk).2
    revert hch
    generalize (nd h i).children = l
    intro hch
    induction l with
    | nil => rfl
    | cons a l ihl =>
      rw [List.foldr_cons, List.foldr_cons, hch a List.mem_cons_self, ihl (fun k hk => hch k (List.mem_cons_of_mem _ hk))]

theorem agree_supersets {h h' : Heap} (ha : Agree h h') (hI : Inv .node h)
    (hg : ∀ k, k < h.length → getSet .node h k = getSet .nodeV2 h' k) (d : ℕ) :
    ∀ i q qs, supersetsFrom .node h d i q qs = supersetsFrom .nodeV2 h' d i q qs := by
  induction d with
  | zero => intro i q qs; rfl
  | succ d ih =>
    intro i q qs
    rw [supersetsFrom, supersetsFrom, ← (ha.2 i).2.1]
    have hl : ∀ k ∈ (nd h i).children, k < h.length := fun k hk => (hI.child_gt hk).2
    revert hl
    generalize (nd h i).children = l
    intro hl
    induction l with
    | nil => rw [supersetsLoop, supersetsLoop]
    | cons k l ihl =>
      have ihl' := ihl (fun a ha => hl a (List.mem_cons_of_mem _ ha))
      rw [supersetsLoop_cons, supersetsLoop_cons, (ha.2 k).1, ihl']
      split
      · split
        · cases qs with
          | nil => simp only; rw [ha.1, ← ha.1, agree_allSupersets ha hI hg _ k (hl k List.mem_cons_self)]
          | cons q' qs' => simp only; rw [ih]
        · rw [ih]
      · rfl

theorem agree_search {h h' : Heap} (ha : Agree h h') (hI : Inv .node h) (hI' : Inv .nodeV2 h') (qs : List ℤ) :
    ∀ i, searchFrom .node h i qs = searchFrom .nodeV2 h' i qs := by
  induction qs with
  | nil => intro i; rfl
  | cons q qs ih =>
    intro i
    rw [searchFrom, searchFrom, agree_getChild ha hI hI']
    rcases hI'.getChild_error i q with ⟨k, hk⟩ | he
    · rw [hk]
      simp only
      rw [(ha.2 k).2.2.2.1, ih k]
    · rw [he]

/-- **C113.** A trie made of the class `Node` answers all three queries exactly after any history; since it computes sets
when asked, the history does not have to end with `insert_batch`. -/
theorem C113_trie_node (ops : List TrieOp) : ∃ h, runOps .node emptyHeap ops = (.ok (), h) ∧
    (∀ q : Finset ℤ, search .node h q = true ↔ q ≠ ∅ ∧ q ∈ inserted ops) ∧
    (∀ (q : Finset ℤ) x, x ∈ searchSubsets .node h q ↔ ∃ s ∈ inserted ops, s ≠ ∅ ∧ s ⊆ q ∧ x = tupleOf s) ∧
    (∀ q : Finset ℤ, q ≠ ∅ → ∃ r, searchSupersets .node h q = .ok r ∧
      ∀ x, x ∈ r ↔ ∃ s ∈ inserted ops, q ⊆ s ∧ x = tupleOf s) ∧
    searchSupersets .node h ∅ = .error .valueError := by
  have he : Agree emptyHeap emptyHeap := ⟨rfl, fun _ => ⟨rfl, rfl, rfl, rfl, rfl⟩⟩
  obtain ⟨h, h', e, e', ha, hR, hR'⟩ := agree_runOps ops he (rooted_empty .node) (rooted_empty .nodeV2)
  -- the other class, populated
  have hpop : runOps .nodeV2 emptyHeap (ops ++ [.insertBatch []]) = (.ok (), populate h'.length h' 0) := by
    have happ : ∀ (os : List TrieOp) (g : Heap), runOps .nodeV2 g os = (.ok (), h') →
        runOps .nodeV2 g (os ++ [.insertBatch []]) = (.ok (), populate h'.length h' 0) := by
      intro os
      induction os with
      | nil =>
        intro g hg
        simp only [runOps, Prod.mk.injEq, true_and] at hg
        subst hg
        rfl
      | cons o os ih =>
        intro g hg
        rw [runOps] at hg
        rw [List.cons_append, runOps]
        rcases e3 : applyOp .nodeV2 g o with ⟨r, k⟩
        rw [e3] at hg
        cases r with
        | error x => simp at hg
        | ok u => exact ih k hg
    exact happ ops emptyHeap e'
  have hins : inserted (ops ++ [.insertBatch []]) = inserted ops := by simp [inserted, TrieOp.sets]
  have ha₁ : Agree h (populate h'.length h' 0) := agree_populate ha hR'.inv 0 hR'.pos
  have hI₁ := hR'.inv.populate h'.length 0
  have hg : ∀ k, k < h.length → getSet .node h k = getSet .nodeV2 (populate h'.length h' 0) k :=
    fun k hk => agree_getSet ha hR' (by rw [← ha.1]; exact hk)
  obtain ⟨h₂, t, k1, k2, k3, k4, k5⟩ := C113_trie (ops ++ [.insertBatch []])
  rw [hpop] at k1
  simp only [Prod.mk.injEq, true_and] at k1
  subst k1
  refine ⟨h, e, ?_, ?_, ?_, ?_⟩
  · intro q
    obtain ⟨t', h4, h5⟩ := C42_search (ops ++ [.insertBatch []])
    rw [k2] at h4; cases h4
    have : search .node h q = search .nodeV2 (populate h'.length h' 0) q := by
      unfold search; rw [agree_search ha₁ hR.inv hI₁]
    rw [this, k3, h5, hins]
  · intro q x
    obtain ⟨t', h4, h5⟩ := C43_search_subsets ops []
    rw [k2] at h4; cases h4
    have : searchSubsets .node h q = searchSubsets .nodeV2 (populate h'.length h' 0) q := by
      unfold searchSubsets; rw [agree_subsets ha₁ hR.inv hI₁ hg]
    rw [this, k4, h5, hins]
  · intro q hq
    obtain ⟨t', h4, h5, -⟩ := C44_search_supersets ops []
    rw [k2] at h4; cases h4
    have : searchSupersets .node h q = searchSupersets .nodeV2 (populate h'.length h' 0) q := by
      unfold searchSupersets
      rw [← ha₁.1]
      cases q.sort (· ≤ ·) with
      | nil => rfl
      | cons a as => simp only; rw [agree_supersets ha₁ hR.inv hg]
    rw [this, k5, ← hins]
    exact h5 q hq
  · simp [searchSupersets]

/-! ### Nested tuples -/

theorem nd_unflagged (h : Heap) (k : ℕ) : nd (unflagged h) k = { nd h k with isLast := false } := by
  unfold nd unflagged
  rw [List.getD_eq_getElem?_getD, List.getD_eq_getElem?_getD, List.getElem?_map]
  cases h[k]? <;> rfl

theorem nested_head (c : Cls) (h : Heap) (d i : ℕ) : ∃ l, nested c h d i = .tup (.atom (nd h i).item :: l) := by
  cases d with
  | zero => exact ⟨_, rfl⟩
  | succ d =>
    rw [nested]
    split
    · exact ⟨_, rfl⟩
    · exact ⟨_, rfl⟩

/-- **C113.** After any two histories, two nodes have equal nested tuples exactly if they compare equal once all flags
`is_last` are cleared: the tuple determines the items and the shape of the subtree and nothing else. -/
theorem C113_nested_tuple (c c' : Cls) (calls calls' : List Call) (i j : ℕ) :
    let h := (runCalls c [] calls).2
    let h' := (runCalls c' [] calls').2
    i < h.length → j < h'.length →
    (nested c h h.length i = nested c' h' h'.length j ↔ beq (unflagged h) (unflagged h') h.length i j = true) := by
  intro h h' hi hj
  have hI : Inv c h := inv_history c calls
  have hI' : Inv c' h' := inv_history c' calls'
  have hleaf : ∀ k, isLeaf c h k = true ↔ (nd h k).children = [] := by
    intro k
    unfold isLeaf
    rw [(C113_children c calls k).2.2.2.2.2.1, decide_eq_true_eq, List.length_eq_zero_iff]
  have hleaf' : ∀ k, isLeaf c' h' k = true ↔ (nd h' k).children = [] := by
    intro k
    unfold isLeaf
    rw [(C113_children c' calls' k).2.2.2.2.2.1, decide_eq_true_eq, List.length_eq_zero_iff]
  have key : ∀ d d' i j, i < h.length → j < h'.length → h.length ≤ i + d → h'.length ≤ j + d' →
      (nested c h d i = nested c' h' d' j ↔ beq (unflagged h) (unflagged h') d i j = true) := by
    intro d
    induction d with
    | zero => intro d' i j h1 _ h2; omega
    | succ d ih =>
      intro d' i j hi hj hd hd'
      obtain _ | d' := d'
      · omega
      rw [nested, nested, beq]
      simp only [nd_unflagged, ne_eq, not_true_eq_false, or_false]
      have hch : ∀ k ∈ (nd h i).children, ∀ k' ∈ (nd h' j).children,
          (nested c h d k = nested c' h' d' k' ↔ beq (unflagged h) (unflagged h') d k k' = true) := by
        intro k hk k' hk'
        have h1 := hI.child_gt hk
        have h2 := hI'.child_gt hk'
        exact ih d' k k' h1.2 h2.2 (by omega) (by omega)
      have hlists : ∀ l l' : List ℕ, (∀ k ∈ l, ∀ k' ∈ l', (nested c h d k = nested c' h' d' k' ↔
          beq (unflagged h) (unflagged h') d k k' = true)) → (l.map (nested c h d) = l'.map (nested c' h' d') ↔
          l.length = l'.length ∧ ((l.zip l').all fun p => beq (unflagged h) (unflagged h') d p.1 p.2) = true) := by
        intro l
        induction l with
        | nil => intro l' _; cases l' <;> simp
        | cons a l ihl =>
          intro l' hl
          cases l' with
          | nil => simp
          | cons a' l' =>
            have := ihl l' (fun k hk k' hk' => hl k (List.mem_cons_of_mem _ hk) k' (List.mem_cons_of_mem _ hk'))
            rw [List.map_cons, List.map_cons, List.cons.injEq, this, hl a List.mem_cons_self a' List.mem_cons_self]
            simp only [List.length_cons, Nat.add_right_cancel_iff, List.zip_cons_cons, List.all_cons, Bool.and_eq_true]
            tauto
      have hL := hlists _ _ hch
      by_cases h1 : (nd h i).children = []
      · rw [if_pos ((hleaf i).mpr h1), h1]
        by_cases h2 : (nd h' j).children = []
        · rw [if_pos ((hleaf' j).mpr h2), h2]
          by_cases h3 : (nd h i).item = (nd h' j).item <;> simp [h3]
        · rw [if_neg (fun h => h2 ((hleaf' j).mp h))]
          obtain ⟨b, l', hb⟩ := List.exists_cons_of_ne_nil h2
          rw [hb]
          obtain ⟨m, hm⟩ := nested_head c' h' d' b
          simp [hm]
      · rw [if_neg (fun h => h1 ((hleaf i).mp h))]
        by_cases h2 : (nd h' j).children = []
        · rw [if_pos ((hleaf' j).mpr h2), h2]
          obtain ⟨b, l', hb⟩ := List.exists_cons_of_ne_nil h1
          rw [hb]
          obtain ⟨m, hm⟩ := nested_head c h d b
          simp [hm]
        · rw [if_neg (fun h => h2 ((hleaf' j).mp h))]
          simp only [Tup.tup.injEq, List.cons.injEq, Tup.atom.injEq]
          rw [hL]
          by_cases h3 : (nd h i).item = (nd h' j).item
          · by_cases h4 : (nd h i).children.length = (nd h' j).children.length <;> simp [h3, h4]
          · simp [h3]
  exact key _ _ i j hi hj (by omega) (by omega)

/-- The flags matter to `==` but not to the tuple. -/
example : let h := (runCalls .node [] [.make none false, .addChild 0 5 true]).2
    let h' := (runCalls .node [] [.make none false, .addChild 0 5 false]).2
    nested .node h 2 0 = nested .node h' 2 0 ∧ beq h h' 2 0 0 = false := by
  refine ⟨rfl, by decide +kernel⟩

/-! ### The constructor argument `children` -/

theorem binarySearchAux_sound (arr : List ℤ) (x : ℤ) : ∀ (fuel : ℕ) (low high : ℤ), 0 ≤ low → high < arr.length →
    (high - low + 1).toNat < fuel → ∃ r, binarySearchAux arr fuel low high x = some (.ok r) ∧
      (r = -1 ∨ (low ≤ r ∧ r ≤ high ∧ arr[r.toNat]? = some x)) := by
  intro fuel
  induction fuel with
  | zero => intro low high _ _ h; omega
  | succ fuel ih =>
    intro low high h0 h1 h2
    rw [binarySearchAux]
    by_cases hc : high ≥ low
    · rw [if_pos hc]
      obtain ⟨hm, hget⟩ := pyGet_ok (l := arr) (k := (high + low) / 2) (by omega) (by omega)
      simp only [hget]
      split
      · rename_i heq
        exact ⟨_, rfl, Or.inr ⟨by omega, by omega, by rw [List.getElem?_eq_getElem hm, heq]⟩⟩
      · split
        · obtain ⟨r, hr, hr'⟩ := ih low ((high + low) / 2 - 1) h0 (by omega) (by omega)
          refine ⟨r, hr, ?_⟩
          rcases hr' with h | ⟨h3, h4, h5⟩
          · exact Or.inl h
          · exact Or.inr ⟨h3, by omega, h5⟩
        · obtain ⟨r, hr, hr'⟩ := ih ((high + low) / 2 + 1) high (by omega) h1 (by omega)
          refine ⟨r, hr, ?_⟩
          rcases hr' with h | ⟨h3, h4, h5⟩
          · exact Or.inl h
          · exact Or.inr ⟨by omega, h4, h5⟩
    · rw [if_neg hc]
      exact ⟨-1, rfl, Or.inl rfl⟩

/-- If binary search finds every element of a stretch, the stretch is increasing. -/
theorem sorted_of_found (arr : List ℤ) (hnd : arr.Nodup) : ∀ (fuel : ℕ) (low high : ℤ), 0 ≤ low → high < arr.length →
    (high - low + 1).toNat < fuel →
    (∀ i (hi : i < arr.length), low ≤ i → (i : ℤ) ≤ high → binarySearchAux arr fuel low high arr[i] ≠ some (.ok (-1))) →
    ∀ i j (hi : i < arr.length) (hj : j < arr.length), low ≤ i → i < j → (j : ℤ) ≤ high → arr[i] < arr[j] := by
  intro fuel
  induction fuel with
  | zero => intro low high _ _ h; omega
  | succ fuel ih =>
    intro low high h0 h1 h2 hf i j hi hj hli hij hjh
    obtain ⟨hm, hget⟩ := pyGet_ok (l := arr) (k := (high + low) / 2) (by omega) (by omega)
    have hinj : ∀ a b (ha : a < arr.length) (hb : b < arr.length), arr[a] = arr[b] → a = b :=
      fun a b ha hb h => (List.Nodup.getElem_inj_iff hnd).mp h
    -- the elements left of the middle
    have hleft : ∀ a (ha : a < arr.length), low ≤ a → (a : ℤ) < (high + low) / 2 → arr[a] < arr[((high + low) / 2).toNat] ∧
        binarySearchAux arr fuel low ((high + low) / 2 - 1) arr[a] ≠ some (.ok (-1)) := by
      intro a ha hla ham
      have hfa := hf a ha hla (by omega)
      rw [binarySearchAux, if_pos (by omega)] at hfa
      simp only [hget] at hfa
      have hne : arr[((high + low) / 2).toNat] ≠ arr[a] := fun h => by have := hinj _ _ hm ha h; omega
      rw [if_neg hne] at hfa
      split at hfa
      · rename_i hgt; exact ⟨hgt, hfa⟩
      · exfalso
        obtain ⟨r, hr, hr'⟩ := binarySearchAux_sound arr arr[a] fuel ((high + low) / 2 + 1) high (by omega) h1 (by omega)
        rcases hr' with h | ⟨h3, h4, h5⟩
        · rw [hr, h] at hfa; exact hfa rfl
        · obtain ⟨h6, h7⟩ := List.getElem?_eq_some_iff.mp h5
          have := hinj _ _ h6 ha h7
          omega
    have hright : ∀ a (ha : a < arr.length), (high + low) / 2 < (a : ℤ) → (a : ℤ) ≤ high →
        arr[((high + low) / 2).toNat] < arr[a] ∧
        binarySearchAux arr fuel ((high + low) / 2 + 1) high arr[a] ≠ some (.ok (-1)) := by
      intro a ha hma hah
      have hfa := hf a ha (by omega) hah
      rw [binarySearchAux, if_pos (by omega)] at hfa
      simp only [hget] at hfa
      have hne : arr[((high + low) / 2).toNat] ≠ arr[a] := fun h => by have := hinj _ _ hm ha h; omega
      rw [if_neg hne] at hfa
      split at hfa
      · exfalso
        obtain ⟨r, hr, hr'⟩ := binarySearchAux_sound arr arr[a] fuel low ((high + low) / 2 - 1) h0 (by omega) (by omega)
        rcases hr' with h | ⟨h3, h4, h5⟩
        · rw [hr, h] at hfa; exact hfa rfl
        · obtain ⟨h6, h7⟩ := List.getElem?_eq_some_iff.mp h5
          have := hinj _ _ h6 ha h7
          omega
      · rename_i hgt
        exact ⟨lt_of_le_of_ne (not_lt.mp hgt) hne, hfa⟩
    rcases lt_trichotomy (j : ℤ) ((high + low) / 2) with hjm | hjm | hjm
    · exact ih low ((high + low) / 2 - 1) h0 (by omega) (by omega)
        (fun a ha h3 h4 => (hleft a ha h3 (by omega)).2) i j hi hj hli hij (by omega)
    · have : j = ((high + low) / 2).toNat := by omega
      subst this
      exact (hleft i hi hli (by omega)).1
    · rcases lt_trichotomy (i : ℤ) ((high + low) / 2) with him | him | him
      · exact (hleft i hi hli him).1.trans (hright j hj hjm hjh).1
      · have : i = ((high + low) / 2).toNat := by omega
        subst this
        exact (hright j hj hjm hjh).1
      · exact ih ((high + low) / 2 + 1) high (by omega) h1 (by omega)
          (fun a ha h3 h4 => (hright a ha (by omega) h4).2) i j hi hj (by omega) hij hjh

/-- **C113.** The constructors also take a list of children. For children with different items, `has_child` of the two
classes agrees on every item exactly if the list is in increasing order; `NodeV2` finds exactly the items of the list in
any order. -/
theorem C113_constructor (items : List ℤ) (hnd : items.Nodup) :
    (∀ x, hasChildDict items x = true ↔ x ∈ items) ∧ numChildrenDict items = items.length ∧
    ((∀ x, hasChildList items x = hasChildDict items x) ↔ items.Pairwise (· < ·)) := by
  have hdict : ∀ x, hasChildDict items x = true ↔ x ∈ items := fun x => by simp [hasChildDict]
  refine ⟨hdict, by rw [numChildrenDict, hnd.dedup], ?_, ?_⟩
  · intro h
    rw [List.pairwise_iff_getElem]
    intro i j hi hj hij
    refine sorted_of_found items hnd (items.length + 1) 0 ((items.length : ℤ) - 1) le_rfl (by omega) (by omega) ?_ i j hi hj
      (by omega) hij (by omega)
    intro a ha _ _ he
    have h1 := h items[a]
    rw [(hdict _).mpr (List.getElem_mem ha)] at h1
    have h2 : find items items[a] = -1 := by
      unfold find binarySearch
      rw [he]
    simp [hasChildList, h2] at h1
  · intro hs x
    rw [Bool.eq_iff_iff, hdict]
    have hf := find_spec hs x
    simp only [hasChildList, ne_eq, decide_eq_true_eq]
    constructor
    · intro h1; by_contra h2; exact h1 (hf.1 h2)
    · intro h1 h2; have := (hf.2 h1).1; omega

example : hasChildList [3, 1, 2] 3 = false ∧ hasChildDict [3, 1, 2] 3 = true ∧ hasChildList [1, 2, 3] 3 = true := by
  decide +kernel

end TrieHeap

end Verif
