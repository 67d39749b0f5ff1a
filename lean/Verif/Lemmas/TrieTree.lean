/-
The subtree below a node object as a value of `Verif.Model.Trie`, and what the calls do to it.
-/
import Verif.Lemmas.TrieHeap
import Verif.Spec.TrieHeap

namespace Verif

namespace TrieHeap

/-! ### Descendants -/

/-- `k` is `i` or below `i`. -/
inductive Desc (h : Heap) (i : ℕ) : ℕ → Prop
  | refl : Desc h i i
  | step {n k : ℕ} (hn : Desc h i n) (hk : (nd h k).parent = some n) : Desc h i k

theorem Desc.le {c : Cls} {h : Heap} (hI : Inv c h) {i k : ℕ} (hd : Desc h i k) : i ≤ k := by
  induction hd with
  | refl => exact le_rfl
  | step _ hk ih => exact ih.trans (hI.older _ _ hk).le

theorem Desc.trans {h : Heap} {i j k : ℕ} (h1 : Desc h i j) (h2 : Desc h j k) : Desc h i k := by
  induction h2 with
  | refl => exact h1
  | step _ hk ih => exact .step ih hk

theorem Desc.child {h : Heap} {i k : ℕ} (hk : (nd h k).parent = some i) : Desc h i k := .step .refl hk

theorem Desc.inv {h : Heap} {i k : ℕ} (hd : Desc h i k) (hne : k ≠ i) :
    ∃ n, (nd h k).parent = some n ∧ Desc h i n := by
  cases hd with
  | refl => exact absurd rfl hne
  | step hn hk => exact ⟨_, hk, hn⟩

/-- A node is below at most one child of a node. -/
theorem Desc.disjoint {c : Cls} {h : Heap} (hI : Inv c h) {i a b : ℕ} (ha : (nd h a).parent = some i)
    (hb : (nd h b).parent = some i) (hab : a ≠ b) {k : ℕ} (h1 : Desc h a k) : ¬ Desc h b k := by
  induction h1 with
  | refl =>
    intro h2
    obtain ⟨n, hn, h3⟩ := h2.inv hab
    rw [ha] at hn; cases hn
    have := h3.le hI
    have := hI.older _ _ hb
    omega
  | @step n k hn hk ih =>
    intro h2
    by_cases hkb : k = b
    · subst hkb
      rw [hb] at hk; cases hk
      have := hn.le hI
      have := hI.older _ _ ha
      omega
    · obtain ⟨m, hm, h3⟩ := h2.inv hkb
      rw [hk] at hm; cases hm
      exact ih h3

theorem Desc.lt_length {c : Cls} {h : Heap} (hI : Inv c h) {i k : ℕ} (hi : i < h.length) (hd : Desc h i k) :
    k < h.length := by
  cases hd with
  | refl => exact hi
  | step _ hk => exact (hI.parent_lt hk).1

/-- The first step of a way down. -/
theorem Desc.via {h : Heap} {i k : ℕ} (hd : Desc h i k) : k = i ∨ ∃ a, (nd h a).parent = some i ∧ Desc h a k := by
  induction hd with
  | refl => exact Or.inl rfl
  | @step n k _ hk ih =>
    rcases ih with rfl | ⟨a, ha, hd⟩
    · exact Or.inr ⟨k, hk, .refl⟩
    · exact Or.inr ⟨a, ha, .step hd hk⟩

/-! ### The subtree as a value -/

/-- The subtree, with a bound on the depth. -/
def treeOf (h : Heap) : ℕ → ℕ → TNode
  | 0, i => .mk (nd h i).item (nd h i).isLast (nd h i).cache []
  | d + 1, i => .mk (nd h i).item (nd h i).isLast (nd h i).cache ((nd h i).children.map (treeOf h d))

/-- The subtree below a node. -/
def tree (h : Heap) (i : ℕ) : TNode := treeOf h h.length i

theorem Inv.child_gt {c : Cls} {h : Heap} (hI : Inv c h) {i k : ℕ} (hk : k ∈ (nd h i).children) : i < k ∧ k < h.length :=
  ⟨hI.older _ _ ((hI.mem i k).mp hk).2, ((hI.mem i k).mp hk).1⟩

theorem treeOf_congr {c : Cls} {h h' : Heap} (hI : Inv c h) (d : ℕ) : ∀ (i d' : ℕ), i < h.length → h.length ≤ i + d →
    h.length ≤ i + d' → (∀ k, Desc h i k → nd h' k = nd h k) → treeOf h' d' i = treeOf h d i := by
  induction d with
  | zero => intro i d' h1 h2; omega
  | succ d ih =>
    intro i d' h1 h2 h3 h4
    obtain _ | d' := d'
    · omega
    rw [treeOf, treeOf, h4 i .refl]
    congr 1
    apply List.map_congr_left
    intro k hk
    have hc := hI.child_gt hk
    have hp := ((hI.mem i k).mp hk).2
    exact ih k d' hc.2 (by omega) (by omega) (fun a ha => h4 a ((Desc.child hp).trans ha))

theorem tree_congr {c : Cls} {h h' : Heap} (hI : Inv c h) (hlen : h.length ≤ h'.length) {i : ℕ} (hi : i < h.length)
    (hs : ∀ k, Desc h i k → nd h' k = nd h k) : tree h' i = tree h i :=
  treeOf_congr hI _ i _ hi (by omega) (by omega) hs

theorem tree_eq {c : Cls} {h : Heap} (hI : Inv c h) {i : ℕ} (hi : i < h.length) :
    tree h i = .mk (nd h i).item (nd h i).isLast (nd h i).cache ((nd h i).children.map (tree h)) := by
  have : ∃ n, h.length = n + 1 := ⟨h.length - 1, by omega⟩
  obtain ⟨n, hn⟩ := this
  have h0 : tree h i = treeOf h (n + 1) i := by rw [tree, hn]
  rw [h0, treeOf]
  congr 1
  apply List.map_congr_left
  intro k hk
  have hc := hI.child_gt hk
  exact treeOf_congr hI _ k _ hc.2 (by omega) (by omega) (fun _ _ => rfl)

theorem tree_item {c : Cls} {h : Heap} (hI : Inv c h) {i : ℕ} (hi : i < h.length) : (tree h i).item = (nd h i).item := by
  rw [tree_eq hI hi]; rfl

theorem tree_isLast {c : Cls} {h : Heap} (hI : Inv c h) {i : ℕ} (hi : i < h.length) :
    (tree h i).isLast = (nd h i).isLast := by
  rw [tree_eq hI hi]; rfl

theorem tree_cache {c : Cls} {h : Heap} (hI : Inv c h) {i : ℕ} (hi : i < h.length) :
    (tree h i).cache = (nd h i).cache := by
  rw [tree_eq hI hi]; rfl

theorem tree_children {c : Cls} {h : Heap} (hI : Inv c h) {i : ℕ} (hi : i < h.length) :
    (tree h i).children = (nd h i).children.map (tree h) := by
  rw [tree_eq hI hi]; rfl

theorem tree_getChild_some {c : Cls} {h : Heap} (hI : Inv c h) {i k : ℕ} (hi : i < h.length) {x : ℤ}
    (hk : (nd h k).parent = some i) (hx : (nd h k).item = some x) : (tree h i).getChild x = some (tree h k) := by
  unfold TNode.getChild
  rw [tree_children hI hi]
  have hmem : k ∈ (nd h i).children := (hI.mem i k).mpr ⟨(hI.parent_lt hk).1, hk⟩
  have hall : ∀ a ∈ (nd h i).children, ((tree h a).item == some x) = true → a = k := by
    intro a ha he
    have hp := (hI.mem i a).mp ha
    rw [tree_item hI hp.1] at he
    exact hI.child_unique hp.2 hk (by simpa using he) hx
  revert hmem hall
  generalize (nd h i).children = l
  intro hmem hall
  induction l with
  | nil => cases hmem
  | cons a l ih =>
    rw [List.map_cons, List.find?_cons]
    split
    · rename_i he
      rw [hall a List.mem_cons_self he]
    · rename_i he
      rcases List.mem_cons.mp hmem with rfl | hm
      · rw [tree_item hI (hI.parent_lt hk).1, hx] at he
        simp at he
      · exact ih hm (fun b hb => hall b (List.mem_cons_of_mem _ hb))

theorem tree_getChild_none {c : Cls} {h : Heap} (hI : Inv c h) {i : ℕ} (hi : i < h.length) {x : ℤ}
    (hn : ¬ ∃ k, (nd h k).parent = some i ∧ (nd h k).item = some x) : (tree h i).getChild x = none := by
  unfold TNode.getChild
  rw [tree_children hI hi, List.find?_eq_none]
  intro t ht
  rw [List.mem_map] at ht
  obtain ⟨k, hk, rfl⟩ := ht
  have hp := (hI.mem i k).mp hk
  rw [tree_item hI hp.1]
  intro he
  exact hn ⟨k, hp.2, by simpa using he⟩

/-! ### Insertion -/

theorem desc_congr {h h' : Heap} {n : ℕ} (hp : ∀ k, k < n → (nd h' k).parent = (nd h k).parent) {i k : ℕ}
    (hk : k < n) {c : Cls} (hI : Inv c h') (hd : Desc h' i k) : Desc h i k := by
  induction hd with
  | refl => exact .refl
  | @step m k _ hm ih =>
    have := hI.older _ _ hm
    exact .step (ih (by omega)) (by rw [← hp k hk]; exact hm)

theorem setLast_nd (h : Heap) {i : ℕ} (hi : i < h.length) (k : ℕ) :
    nd (setLast h i) k = if k = i then { nd h i with isLast := true } else nd h k := by
  unfold setLast
  rw [nd_upd]
  simp [hi]

theorem bisect_tree {c : Cls} {h : Heap} (hI : Inv c h) (i : ℕ) (f : ℕ → TNode) (x : ℤ)
    (hf : ∀ k ∈ (nd h i).children, (f k).item = (nd h k).item) :
    TNode.bisectLeft ((nd h i).children.map f) x = bisect (nd h i).childrenItems x := by
  rw [hI.items i]
  unfold TNode.bisectLeft bisect itemsOf
  have hm : ∀ k ∈ (nd h i).children, ∃ y, (nd h k).item = some y := fun k hk => hI.item k i ((hI.mem i k).mp hk).2
  revert hf hm
  generalize (nd h i).children = l
  intro hf hm
  induction l with
  | nil => rfl
  | cons a l ih =>
    obtain ⟨y, hy⟩ := hm a List.mem_cons_self
    have ih' := ih (fun k hk => hf k (List.mem_cons_of_mem _ hk)) (fun k hk => hm k (List.mem_cons_of_mem _ hk))
    simp only [List.map_cons, List.takeWhile_cons, hf a List.mem_cons_self, hy, Option.getD_some]
    split
    · simp only [List.length_cons, ih']
    · rfl

/-- What `_trie_insert` does to the objects and to the subtree. -/
theorem insertFrom_spec (c : Cls) : ∀ (xs : List ℤ) (h : Heap) (i : ℕ), Inv c h → i < h.length → xs.Pairwise (· < ·) →
    (∀ x ∈ xs, ∀ y, (nd h i).item = some y → y < x) →
    ∃ h', insertFrom c h i xs = (.ok (), h') ∧ Inv c h' ∧ h.length ≤ h'.length ∧
      (∀ k, k < h.length → (nd h' k).parent = (nd h k).parent ∧ (nd h' k).item = (nd h k).item) ∧
      (∀ k, k < h.length → ¬ Desc h i k → nd h' k = nd h k) ∧
      (∀ k, h.length ≤ k → k < h'.length → Desc h' i k) ∧
      ((nd h' i).isLast = (nd h i).isLast ∧ (nd h' i).cache = (nd h i).cache) ∧
      (tree h i).insertList xs = .ok (tree h' i) := by
  intro xs
  induction xs with
  | nil =>
    intro h i hI hi _ _
    exact ⟨h, rfl, hI, le_rfl, fun k _ => ⟨rfl, rfl⟩, fun k _ _ => rfl, fun k h1 h2 => by omega, ⟨rfl, rfl⟩,
      by rw [TNode.insertList]⟩
  | cons x xs ih =>
    intro h i hI hi hs hab
    rw [List.pairwise_cons] at hs
    rw [insertFrom]
    by_cases hex : ∃ k, (nd h k).parent = some i ∧ (nd h k).item = some x
    · -- the child exists
      obtain ⟨k, hk, hkx⟩ := hex
      have hkl : k < h.length := (hI.parent_lt hk).1
      have hik : i < k := hI.older _ _ hk
      rw [if_pos ((hI.hasChild_iff i x).mpr ⟨k, hk, hkx⟩), (hI.getChild_ok i k x).mpr ⟨hk, hkx⟩]
      obtain ⟨h₂, e1, hI₂, hl₂, hpi₂, hfr₂, hds₂, -, ht₂⟩ := ih h k hI hkl hs.2
        (fun y hy z hz => by rw [hkx] at hz; cases hz; exact hs.1 y hy)
      simp only [e1]
      refine ⟨_, rfl, ?_⟩
      -- both outcomes at once
      have hset : ∀ a, nd (if xs = [] then setLast h₂ k else h₂) a =
          if xs = [] ∧ a = k then { nd h₂ k with isLast := true } else nd h₂ a := by
        intro a
        split
        · rename_i hx; rw [setLast_nd _ (by omega)]; simp [hx]
        · rename_i hx; simp [hx]
      have hlen' : (if xs = [] then setLast h₂ k else h₂).length = h₂.length := by
        split <;> simp [setLast]
      have hI' : Inv c (if xs = [] then setLast h₂ k else h₂) := by
        split
        · exact hI₂.setLast k
        · exact hI₂
      generalize (if xs = [] then setLast h₂ k else h₂) = h' at hset hlen' hI'
      have hpar' : ∀ a, (nd h' a).parent = (nd h₂ a).parent := by
        intro a; rw [hset]; split
        · rename_i hx; rw [hx.2]
        · rfl
      have hfr : ∀ a, a < h.length → ¬ Desc h k a → nd h' a = nd h a := by
        intro a ha hd
        rw [hset, if_neg (fun hx : xs = [] ∧ a = k => hd (hx.2 ▸ .refl)), hfr₂ a ha hd]
      have hni : ¬ Desc h k i := fun hd => by have := hd.le hI; omega
      have hndi : nd h' i = nd h i := hfr i hi hni
      have hpi : ∀ a, a < h.length → (nd h' a).parent = (nd h a).parent ∧ (nd h' a).item = (nd h a).item := by
        intro a ha
        rw [hset]; split
        · rename_i hx; rw [hx.2]; exact hpi₂ k hkl
        · exact hpi₂ a ha
      have htk : tree h' k = if xs = [] then (tree h₂ k).setLast else tree h₂ k := by
        split
        · rename_i hx
          rw [tree_eq hI' (by omega), tree_eq hI₂ (by omega)]
          rw [hset, if_pos ⟨hx, rfl⟩]
          rw [TNode.setLast]
          congr 1
          apply List.map_congr_left
          intro a ha
          have hp := (hI₂.mem k a).mp ha
          have hka := hI₂.older _ _ hp.2
          refine tree_congr hI₂ (by omega) hp.1 ?_
          intro b hb
          have := hb.le hI₂
          rw [hset, if_neg (by omega)]
        · rename_i hx
          refine tree_congr hI₂ (by omega) (by omega) ?_
          intro b hb
          rw [hset, if_neg (fun h => hx h.1)]
      refine ⟨hI', by omega, hpi, ?_, ?_, by rw [hndi]; exact ⟨rfl, rfl⟩, ?_⟩
      · intro a ha hd
        exact hfr a ha (fun h1 => hd ((Desc.child hk).trans h1))
      · intro a h1 h2
        have hp1 : ∀ b, b < h'.length → (nd h₂ b).parent = (nd h' b).parent := fun b _ => (hpar' b).symm
        have hd := desc_congr hp1 h2 hI₂ (hds₂ a h1 (by omega))
        exact (Desc.child (by rw [(hpi k hkl).1]; exact hk)).trans hd
      · rw [TNode.insertList, tree_getChild_some hI hi hk hkx]
        simp only [ht₂, bind, Except.bind, pure, Except.pure]
        congr 1
        rw [tree_eq hI hi, tree_eq hI' (by omega), hndi, TNode.replaceChild]
        congr 1
        rw [List.map_map]
        apply List.map_congr_left
        intro a ha
        have hp := (hI.mem i a).mp ha
        simp only [Function.comp_apply]
        rw [tree_item hI hp.1]
        by_cases hak : a = k
        · subst hak
          rw [hkx]
          simp [htk]
        · have : ((nd h a).item == some x) = false := by
            rw [Bool.eq_false_iff]
            intro he
            exact hak (hI.child_unique hp.2 hk (by simpa using he) hkx)
          rw [this]
          simp only [Bool.false_eq_true, if_false]
          refine (tree_congr hI (by omega) hp.1 ?_).symm
          intro b hb
          exact hfr b (hb.lt_length hI hp.1) (fun h1 => Desc.disjoint hI hp.2 hk hak hb h1)
    · -- a new child
      have hnc : ¬ hasChild c h i x = true := fun h1 => hex ((hI.hasChild_iff i x).mp h1)
      have hadd : addChild c h i x false = (.ok h.length, upd (new h (some x) false (some i)) i (attach c x h.length)) := by
        unfold addChild
        split
        · rename_i it hit
          have := hab x List.mem_cons_self it hit
          rw [if_neg (by omega), if_neg hnc]
        · rw [if_neg hnc]
      rw [if_neg hnc, hadd]
      have hI₁ : Inv c (upd (new h (some x) false (some i)) i (attach c x h.length)) :=
        hI.attach hi false (fun y hy => hab x List.mem_cons_self y hy) hex
      have hnd₁ : ∀ a, nd (upd (new h (some x) false (some i)) i (attach c x h.length)) a =
          if a = i then attach c x h.length (nd h i) else if a = h.length then blank (some x) false (some i) else nd h a := by
        intro a
        rw [nd_upd]
        by_cases ha : a = i
        · subst ha
          rw [if_pos ⟨rfl, by simp; omega⟩, if_pos rfl, nd_new, if_neg (by omega)]
        · rw [if_neg (fun h => ha h.1), if_neg ha, nd_new]
      have hlen₁ : (upd (new h (some x) false (some i)) i (attach c x h.length)).length = h.length + 1 := by simp
      generalize upd (new h (some x) false (some i)) i (attach c x h.length) = h₁ at hI₁ hnd₁ hlen₁
      have hnk : nd h₁ h.length = blank (some x) false (some i) := by
        rw [hnd₁, if_neg (by omega), if_pos rfl]
      obtain ⟨h₂, e1, hI₂, hl₂, hpi₂, hfr₂, hds₂, -, ht₂⟩ := ih h₁ h.length hI₁ (by omega) hs.2
        (fun y hy z hz => by rw [hnk] at hz; cases hz; exact hs.1 y hy)
      simp only [e1]
      refine ⟨_, rfl, ?_⟩
      have hset : ∀ a, nd (if xs = [] then setLast h₂ h.length else h₂) a =
          if xs = [] ∧ a = h.length then { nd h₂ h.length with isLast := true } else nd h₂ a := by
        intro a
        split
        · rename_i hx; rw [setLast_nd _ (by omega)]; simp [hx]
        · rename_i hx; simp [hx]
      have hlen' : (if xs = [] then setLast h₂ h.length else h₂).length = h₂.length := by
        split <;> simp [setLast]
      have hI' : Inv c (if xs = [] then setLast h₂ h.length else h₂) := by
        split
        · exact hI₂.setLast _
        · exact hI₂
      generalize (if xs = [] then setLast h₂ h.length else h₂) = h' at hset hlen' hI'
      have hpar' : ∀ a, (nd h' a).parent = (nd h₂ a).parent := by
        intro a; rw [hset]; split
        · rename_i hx; rw [hx.2]
        · rfl
      -- below the new node there is nothing old
      have hnotdesc : ∀ a, a < h.length → ¬ Desc h₁ h.length a := by
        intro a ha hd; have := hd.le hI₁; omega
      have hfr₁ : ∀ a, a < h.length → nd h' a = nd h₁ a := by
        intro a ha
        rw [hset, if_neg (by omega), hfr₂ a (by omega) (hnotdesc a ha)]
      have hfr : ∀ a, a < h.length → a ≠ i → nd h' a = nd h a := by
        intro a ha hai
        rw [hfr₁ a ha, hnd₁, if_neg hai, if_neg (by omega)]
      have hndi : nd h' i = attach c x h.length (nd h i) := by rw [hfr₁ i hi, hnd₁, if_pos rfl]
      have hparn : (nd h' h.length).parent = some i := by
        rw [hpar', (hpi₂ _ (by omega)).1, hnk]; rfl
      have hpi : ∀ a, a < h.length → (nd h' a).parent = (nd h a).parent ∧ (nd h' a).item = (nd h a).item := by
        intro a ha
        by_cases hai : a = i
        · subst hai; rw [hndi]; exact ⟨rfl, rfl⟩
        · rw [hfr a ha hai]; exact ⟨rfl, rfl⟩
      have htk : tree h' h.length = if xs = [] then (tree h₂ h.length).setLast else tree h₂ h.length := by
        split
        · rename_i hx
          rw [tree_eq hI' (by omega), tree_eq hI₂ (by omega)]
          rw [hset, if_pos ⟨hx, rfl⟩]
          rw [TNode.setLast]
          congr 1
          apply List.map_congr_left
          intro a ha
          have hp := (hI₂.mem h.length a).mp ha
          have hka := hI₂.older _ _ hp.2
          refine tree_congr hI₂ (by omega) hp.1 ?_
          intro b hb
          have := hb.le hI₂
          rw [hset, if_neg (by omega)]
        · rename_i hx
          refine tree_congr hI₂ (by omega) (by omega) ?_
          intro b hb
          rw [hset, if_neg (fun h => hx h.1)]
      have htn : tree h₁ h.length = .mk (some x) false none [] := by
        rw [tree_eq hI₁ (by omega), hnk]; rfl
      refine ⟨hI', by omega, hpi, ?_, ?_, by rw [hndi]; exact ⟨rfl, rfl⟩, ?_⟩
      · intro a ha hd
        exact hfr a ha (fun h1 => hd (h1 ▸ .refl))
      · intro a h1 h2
        by_cases hal : a = h.length
        · subst hal; exact Desc.child hparn
        · have hp1 : ∀ b, b < h'.length → (nd h₂ b).parent = (nd h' b).parent := fun b _ => (hpar' b).symm
          have hd := desc_congr hp1 h2 hI₂ (hds₂ a (by omega) (by omega))
          exact (Desc.child hparn).trans hd
      · rw [TNode.insertList, tree_getChild_none hI hi hex]
        have hsmall : (tree h i).tooSmall x = false := by
          unfold TNode.tooSmall
          rw [tree_item hI hi]
          split
          · rfl
          · rename_i it hit
            have := hab x List.mem_cons_self it hit
            simpa using this
        rw [htn] at ht₂
        simp only [hsmall, ht₂, bind, Except.bind, pure, Except.pure, Bool.false_eq_true, if_false]
        congr 1
        rw [tree_eq hI hi, tree_eq hI' (by omega), hndi, TNode.addChildNode]
        have hb := bisect_tree hI i (tree h) x (fun k hk => tree_item hI ((hI.mem i k).mp hk).1)
        have hle : bisect (nd h i).childrenItems x ≤ (nd h i).children.length := by
          rw [hI.items i]
          have := bisect_le (itemsOf h i) x
          simpa [itemsOf] using this
        unfold attach
        simp only
        rw [List.map_insertIdx, insertIdx_eq _ _ _ (by simpa using hle), hb, htk]
        have hm : (nd h i).children.map (tree h') = (nd h i).children.map (tree h) := by
          apply List.map_congr_left
          intro a ha
          have hp := (hI.mem i a).mp ha
          have hia := hI.older _ _ hp.2
          refine tree_congr hI (by omega) hp.1 ?_
          intro b hb
          have := hb.le hI
          exact hfr b (hb.lt_length hI hp.1) (by omega)
        rw [hm]

/-! ### `populate_sets` -/

/-- The object after its cache was filled. -/
def filled (h : Heap) (k : ℕ) : Nd :=
  { nd h k with cache := TNode.fillCache (nd h k).cache (nd h k).isLast (recurseUp h k) }

theorem fill_nd (h : Heap) (i : ℕ) (hi : i < h.length) (k : ℕ) :
    nd (fill h i) k = if k = i then filled h i else nd h k := by
  unfold fill
  split
  · rename_i hc
    rw [nd_upd]
    by_cases hk : k = i
    · rw [if_pos ⟨hk, hi⟩, if_pos hk]
      unfold filled getSetUp TNode.fillCache
      rw [hc]
    · rw [if_neg (fun h => hk h.1), if_neg hk]
  · rename_i hc
    split
    · rename_i hk
      subst hk
      unfold filled TNode.fillCache
      rcases hcc : (nd h k).cache with _ | s
      · exact absurd hcc hc
      · rcases hn : nd h k with ⟨a, b, c, d, e, f, g⟩
        rw [hn] at hcc
        simp at hcc
        subst hcc
        rfl
    · rfl

theorem length_fill (h : Heap) (i : ℕ) : (fill h i).length = h.length := by
  unfold fill; split <;> simp

/-- What `populate_sets` does to the objects. -/
theorem populate_nd {c : Cls} (d : ℕ) : ∀ (h : Heap) (i : ℕ), Inv c h → c = .nodeV2 → i < h.length → h.length ≤ i + d →
    (populate d h i).length = h.length ∧
      ∀ k, (Desc h i k → nd (populate d h i) k = filled h k) ∧ (¬ Desc h i k → nd (populate d h i) k = nd h k) := by
  induction d with
  | zero => intro h i _ _ h1 h2; omega
  | succ d ih =>
    intro h i hI hc hi hd
    -- facts about the heap with the cache of `i` filled
    have hIf := hI.fill i
    have hlf := length_fill h i
    have hsame : ∀ k, (nd (fill h i) k).parent = (nd h k).parent ∧ (nd (fill h i) k).item = (nd h k).item ∧
        (nd (fill h i) k).children = (nd h k).children ∧ (nd (fill h i) k).isLast = (nd h k).isLast := by
      intro k
      rw [fill_nd h i hi]
      split
      · rename_i hk; subst hk; exact ⟨rfl, rfl, rfl, rfl⟩
      · exact ⟨rfl, rfl, rfl, rfl⟩
    rw [populate]
    split
    · rename_i hleaf
      refine ⟨hlf, ?_⟩
      intro k
      have hch : (nd h i).children = [] := by
        unfold isLeaf numChildren at hleaf
        simp only [decide_eq_true_eq] at hleaf
        have hp := hIf.dict hc i
        have h0 := hp.length_eq
        rw [List.length_zip, (hsame i).2.2.1] at h0
        have h1 : (itemsOf (fill h i) i).length = (nd h i).children.length := by
          unfold itemsOf; rw [(hsame i).2.2.1]; simp
        rw [h1, min_self] at h0
        exact List.length_eq_zero_iff.mp (by omega)
      rw [fill_nd h i hi]
      constructor
      · intro hD
        rcases hD.via with rfl | ⟨a, ha, -⟩
        · rw [if_pos rfl]
        · have := (hI.mem i a).mpr ⟨(hI.parent_lt ha).1, ha⟩
          rw [hch] at this; cases this
      · intro hD
        rw [if_neg (fun hk : k = i => hD (hk ▸ .refl))]
    · -- the loop
      have key : ∀ (l : List ℕ) (h₀ : Heap), Inv c h₀ → h₀.length = h.length →
          (∀ k, (nd h₀ k).parent = (nd h k).parent ∧ (nd h₀ k).item = (nd h k).item ∧ (nd h₀ k).isLast = (nd h k).isLast) →
          (∀ a ∈ l, (nd h a).parent = some i) → l.Nodup → (∀ a ∈ l, ∀ k, Desc h a k → nd h₀ k = nd h k) →
          (l.foldl (populate d) h₀).length = h.length ∧
            ∀ k, ((∃ a ∈ l, Desc h a k) → nd (l.foldl (populate d) h₀) k = filled h k) ∧
              ((¬ ∃ a ∈ l, Desc h a k) → nd (l.foldl (populate d) h₀) k = nd h₀ k) := by
        intro l
        induction l with
        | nil =>
          intro h₀ _ hl _ _ _ _
          exact ⟨hl, fun k => ⟨fun ⟨a, ha, _⟩ => by simp at ha, fun _ => rfl⟩⟩
        | cons a l ihl =>
          intro h₀ hI₀ hl₀ hs₀ hp₀ hnd₀ hu₀
          rw [List.foldl_cons]
          have hpa := hp₀ a List.mem_cons_self
          have hal : a < h.length := (hI.parent_lt hpa).1
          have hia := hI.older _ _ hpa
          obtain ⟨hlen, hnd⟩ := ih h₀ a hI₀ hc (by omega) (by omega)
          have hD : ∀ b k, Desc h₀ b k ↔ Desc h b k := by
            intro b k
            constructor
            · intro hd'; exact desc_congr (n := k + 1) (fun j _ => (hs₀ j).1) (by omega) hI₀ hd'
            · intro hd'; exact desc_congr (n := k + 1) (fun j _ => (hs₀ j).1.symm) (by omega) hI hd'
          have hru : ∀ k, recurseUp h₀ k = recurseUp h k := fun k =>
            recurseUp_congr (n := k + 1) (fun j _ => ⟨(hs₀ j).1, (hs₀ j).2.1⟩) k (by omega)
          have hIa := Inv.populate d hI₀ a
          have hsa : ∀ k, (nd (populate d h₀ a) k).parent = (nd h k).parent ∧
              (nd (populate d h₀ a) k).item = (nd h k).item ∧ (nd (populate d h₀ a) k).isLast = (nd h k).isLast := by
            intro k
            by_cases hdk : Desc h₀ a k
            · rw [(hnd k).1 hdk]; exact hs₀ k
            · rw [(hnd k).2 hdk]; exact hs₀ k
          rw [List.nodup_cons] at hnd₀
          obtain ⟨hL, hN⟩ := ihl (populate d h₀ a) hIa (by omega) hsa (fun b hb => hp₀ b (List.mem_cons_of_mem _ hb)) hnd₀.2
            (by
              intro b hb k hk
              have hab : b ≠ a := fun he => hnd₀.1 (he ▸ hb)
              have hna : ¬ Desc h₀ a k := by
                rw [hD]
                exact Desc.disjoint hI (hp₀ b (List.mem_cons_of_mem _ hb)) hpa hab hk
              rw [(hnd k).2 hna]
              exact hu₀ b (List.mem_cons_of_mem _ hb) k hk)
          refine ⟨hL, ?_⟩
          intro k
          constructor
          · rintro ⟨b, hb, hbk⟩
            by_cases hex : ∃ b ∈ l, Desc h b k
            · exact (hN k).1 hex
            · rw [(hN k).2 hex]
              have hba : b = a := by
                rcases List.mem_cons.mp hb with h1 | h1
                · exact h1
                · exact absurd ⟨b, h1, hbk⟩ hex
              subst hba
              rw [(hnd k).1 ((hD _ _).mpr hbk)]
              unfold filled
              rw [hru, hu₀ b List.mem_cons_self k hbk]
          · intro hex
            rw [(hN k).2 (fun ⟨b, hb, hbk⟩ => hex ⟨b, List.mem_cons_of_mem _ hb, hbk⟩)]
            exact (hnd k).2 (fun hk => hex ⟨a, List.mem_cons_self, (hD _ _).mp hk⟩)
      have hnodup : (nd h i).children.Nodup := by
        have : (itemsOf h i).Nodup := (hI.sorted i).imp fun h => ne_of_lt h
        unfold itemsOf at this
        exact List.Nodup.of_map _ this
      obtain ⟨hL, hN⟩ := key (nd (fill h i) i).children (fill h i) hIf hlf
        (fun k => ⟨(hsame k).1, (hsame k).2.1, (hsame k).2.2.2⟩)
        (by rw [(hsame i).2.2.1]; intro a ha; exact ((hI.mem i a).mp ha).2)
        (by rw [(hsame i).2.2.1]; exact hnodup)
        (by
          rw [(hsame i).2.2.1]
          intro a ha k hk
          have h1 := hk.le hI
          have h2 := hI.child_gt ha
          rw [fill_nd h i hi, if_neg (by omega)])
      rw [(hsame i).2.2.1] at hL hN ⊢
      refine ⟨hL, ?_⟩
      intro k
      constructor
      · intro hD
        by_cases hex : ∃ a ∈ (nd h i).children, Desc h a k
        · exact (hN k).1 hex
        · rw [(hN k).2 hex]
          rcases hD.via with rfl | ⟨a, ha, had⟩
          · rw [fill_nd h k hi, if_pos rfl]
          · exact absurd ⟨a, (hI.mem i a).mpr ⟨(hI.parent_lt ha).1, ha⟩, had⟩ hex
      · intro hD
        rw [(hN k).2 (fun ⟨a, ha, had⟩ => hD ((Desc.child ((hI.mem i a).mp ha).2).trans had)), fill_nd h i hi,
          if_neg (fun hk : k = i => hD (hk ▸ .refl))]

end TrieHeap

end Verif
