/-
Facts about node objects on a heap: what the calls keep true.
-/
import Verif.Model.TrieHeap
import Verif.Lemmas.Assign

namespace Verif

namespace TrieHeap

/-! ### Reading after writing -/

theorem nd_new (h : Heap) (it : Option ℤ) (l : Bool) (p : Option ℕ) (k : ℕ) :
    nd (new h it l p) k = if k = h.length then blank it l p else nd h k := by
  unfold nd new
  split
  · rename_i hk; subst hk; simp
  · rename_i hk
    rw [List.getD_eq_getElem?_getD, List.getD_eq_getElem?_getD]
    rcases Nat.lt_or_ge k h.length with h1 | h1
    · rw [List.getElem?_append_left h1]
    · rw [List.getElem?_eq_none (by simp; omega), List.getElem?_eq_none (by omega)]

theorem nd_upd (h : Heap) (i : ℕ) (f : Nd → Nd) (k : ℕ) :
    nd (upd h i f) k = if k = i ∧ i < h.length then f (nd h i) else nd h k := by
  unfold nd upd
  rw [List.getD_eq_getElem?_getD, List.getD_eq_getElem?_getD, List.getElem?_modify]
  by_cases hk : i = k
  · subst hk
    rcases Nat.lt_or_ge i h.length with h1 | h1
    · simp [h1]
    · simp [Nat.not_lt.mpr h1]
  · have : ¬ k = i := fun e => hk e.symm
    simp [hk, this]

@[simp] theorem length_new (h : Heap) (it : Option ℤ) (l : Bool) (p : Option ℕ) :
    (new h it l p).length = h.length + 1 := by simp [new]

@[simp] theorem length_upd (h : Heap) (i : ℕ) (f : Nd → Nd) : (upd h i f).length = h.length := by simp [upd]

theorem nd_out {h : Heap} {k : ℕ} (hk : h.length ≤ k) : nd h k = blank none false none := by
  unfold nd
  rw [List.getD_eq_getElem?_getD, List.getElem?_eq_none hk]; rfl

/-! ### Insertion at the position found by bisection -/

theorem bisect_le (l : List ℤ) (x : ℤ) : bisect l x ≤ l.length := by
  unfold bisect; exact (List.takeWhile_sublist _).length_le

theorem insertIdx_eq {α : Type} (l : List α) (n : ℕ) (a : α) (h : n ≤ l.length) :
    l.insertIdx n a = l.take n ++ a :: l.drop n := by
  induction l generalizing n with
  | nil => simp at h; subst h; simp
  | cons b l ih =>
    cases n with
    | zero => simp
    | succ n => simp at h; simp [ih n h]

theorem sorted_insert {l : List ℤ} (hs : l.Pairwise (· < ·)) {x : ℤ} (hx : x ∉ l) :
    (l.insertIdx (bisect l x) x).Pairwise (· < ·) := by
  induction l with
  | nil => simp [bisect]
  | cons y l ih =>
    rw [List.pairwise_cons] at hs
    unfold bisect
    rw [List.takeWhile_cons]
    by_cases hy : y < x
    · simp only [hy, decide_true, if_true, List.length_cons, List.insertIdx_succ_cons, List.pairwise_cons]
      refine ⟨?_, ih hs.2 (fun h => hx (List.mem_cons_of_mem _ h))⟩
      intro a ha
      rcases List.eq_or_mem_of_mem_insertIdx ha with rfl | ha
      · exact hy
      · exact hs.1 a ha
    · simp only [hy, decide_false, Bool.false_eq_true, if_false, List.length_nil, List.insertIdx_zero, List.pairwise_cons]
      have hxy : x < y := lt_of_le_of_ne (not_lt.mp hy) (fun h => hx (h ▸ List.mem_cons_self))
      refine ⟨?_, hs.1, hs.2⟩
      intro a ha
      rcases List.mem_cons.mp ha with rfl | ha
      · exact hxy
      · exact hxy.trans (hs.1 a ha)

theorem zip_insertIdx {α β : Type} (l : List α) (m : List β) (h : l.length = m.length) (n : ℕ) (a : α) (b : β) :
    (l.insertIdx n a).zip (m.insertIdx n b) = (l.zip m).insertIdx n (a, b) := by
  induction l generalizing m n with
  | nil =>
    obtain rfl : m = [] := List.length_eq_zero_iff.mp h.symm
    cases n <;> simp
  | cons c l ih =>
    cases m with
    | nil => simp at h
    | cons d m =>
      simp at h
      cases n with
      | zero => simp
      | succ n => simp [ih m h]

/-! ### Binary search -/

theorem find_spec {l : List ℤ} (hs : l.Pairwise (· < ·)) (x : ℤ) :
    (x ∉ l → find l x = -1) ∧ (x ∈ l → 0 ≤ find l x ∧ l[(find l x).toNat]? = some x) := by
  obtain ⟨r, h1, h2⟩ := binarySearchAux_spec l hs x (l.length + 1) 0 ((l.length : ℤ) - 1) le_rfl (by omega)
    (by omega) (by omega) (by intro i hi _; omega)
  have hf : find l x = r := by
    unfold find binarySearch
    rw [h1]
  rw [hf]
  refine ⟨?_, ?_⟩
  · intro hx
    rcases h2 with ⟨h2, -⟩ | ⟨i, hi, -, h3⟩
    · exact h2
    · exact absurd (h3 ▸ List.getElem_mem hi) hx
  · intro hx
    rcases h2 with ⟨-, h2⟩ | ⟨i, hi, rfl, h3⟩
    · exact absurd hx h2
    · refine ⟨by omega, ?_⟩
      rw [Int.toNat_natCast, List.getElem?_eq_getElem hi, h3]

/-! ### The invariant -/

/-- What holds of the objects after any history of calls. -/
structure Inv (c : Cls) (h : Heap) : Prop where
  older : ∀ k p, (nd h k).parent = some p → p < k
  mem : ∀ i k, k ∈ (nd h i).children ↔ k < h.length ∧ (nd h k).parent = some i
  item : ∀ k p, (nd h k).parent = some p → ∃ x, (nd h k).item = some x
  items : ∀ i, (nd h i).childrenItems = itemsOf h i
  sorted : ∀ i, (itemsOf h i).Pairwise (· < ·)
  above : ∀ k p x y, (nd h k).parent = some p → (nd h k).item = some x → (nd h p).item = some y → y < x
  dict : c = .nodeV2 → ∀ i, ((nd h i).item2child).Perm ((itemsOf h i).zip (nd h i).children)
  cache : ∀ i s, (nd h i).cache = some s → (nd h i).isLast = true ∧ s = recurseUp h i

theorem Inv.parent_lt {c : Cls} {h : Heap} (hI : Inv c h) {k p : ℕ} (hp : (nd h k).parent = some p) :
    k < h.length ∧ p < h.length := by
  have hk : k < h.length := by
    by_contra hc
    rw [nd_out (by omega)] at hp
    simp [blank] at hp
  exact ⟨hk, (hI.older k p hp).trans hk⟩

theorem Inv.mem_items {c : Cls} {h : Heap} (hI : Inv c h) (i : ℕ) (x : ℤ) :
    x ∈ itemsOf h i ↔ ∃ k, k < h.length ∧ (nd h k).parent = some i ∧ (nd h k).item = some x := by
  unfold itemsOf
  rw [List.mem_map]
  constructor
  · rintro ⟨k, hk, rfl⟩
    rw [hI.mem] at hk
    obtain ⟨x, hx⟩ := hI.item k i hk.2
    exact ⟨k, hk.1, hk.2, by simp [hx]⟩
  · rintro ⟨k, h1, h2, h3⟩
    exact ⟨k, (hI.mem i k).mpr ⟨h1, h2⟩, by simp [h3]⟩

theorem Inv.child_unique {c : Cls} {h : Heap} (hI : Inv c h) {i k k' : ℕ} {x : ℤ}
    (h1 : (nd h k).parent = some i) (h2 : (nd h k').parent = some i) (h3 : (nd h k).item = some x)
    (h4 : (nd h k').item = some x) : k = k' := by
  have hnd : (itemsOf h i).Nodup := (hI.sorted i).imp fun h => ne_of_lt h
  unfold itemsOf at hnd
  exact List.inj_on_of_nodup_map hnd ((hI.mem i k).mpr ⟨(hI.parent_lt h1).1, h1⟩)
    ((hI.mem i k').mpr ⟨(hI.parent_lt h2).1, h2⟩) (by rw [h3, h4])

theorem Inv.lookup {h : Heap} (hI : Inv .nodeV2 h) (i k : ℕ) (x : ℤ) :
    (nd h i).item2child.lookup x = some k ↔ (nd h k).parent = some i ∧ (nd h k).item = some x := by
  have hp := hI.dict rfl i
  have hkeys : ((nd h i).item2child.map Prod.fst).Nodup := by
    rw [(hp.map Prod.fst).nodup_iff, List.map_fst_zip (by simp [itemsOf])]
    exact (hI.sorted i).imp fun h => ne_of_lt h
  have hm : (x, k) ∈ (nd h i).item2child ↔ (nd h k).parent = some i ∧ (nd h k).item = some x := by
    rw [hp.mem_iff]
    have hz : (itemsOf h i).zip (nd h i).children = (nd h i).children.map fun c => ((nd h c).item.getD 0, c) := by
      unfold itemsOf
      generalize (nd h i).children = l
      induction l with
      | nil => rfl
      | cons a l ih => simp [ih]
    rw [hz, List.mem_map]
    constructor
    · rintro ⟨k', hk', he⟩
      simp only [Prod.mk.injEq] at he
      obtain ⟨he, rfl⟩ := he
      rw [hI.mem] at hk'
      obtain ⟨y, hy⟩ := hI.item k' i hk'.2
      refine ⟨hk'.2, ?_⟩
      rw [hy] at he ⊢
      simp at he
      rw [he]
    · rintro ⟨h1, h2⟩
      exact ⟨k, (hI.mem i k).mpr ⟨(hI.parent_lt h1).1, h1⟩, by simp [h2]⟩
  rw [← hm]
  clear hm hp
  generalize (nd h i).item2child = l at hkeys
  induction l with
  | nil => simp
  | cons a l ih =>
    obtain ⟨y, j⟩ := a
    simp only [List.map_cons, List.nodup_cons] at hkeys
    rw [List.lookup_cons]
    by_cases hxy : x = y
    · subst hxy
      simp only [beq_self_eq_true]
      constructor
      · intro he; simp at he; subst he; exact List.mem_cons_self
      · intro he
        rcases List.mem_cons.mp he with he | he
        · simp at he; subst he; rfl
        · exact absurd (List.mem_map_of_mem (f := Prod.fst) he) hkeys.1
    · have : (x == y) = false := by simp [hxy]
      simp only [this]
      refine Iff.trans (ih hkeys.2) ?_
      constructor
      · exact List.mem_cons_of_mem _
      · intro he
        rcases List.mem_cons.mp he with he | he
        · simp at he; exact absurd he.1 hxy
        · exact he

theorem Inv.hasChild_iff {c : Cls} {h : Heap} (hI : Inv c h) (i : ℕ) (x : ℤ) :
    hasChild c h i x = true ↔ ∃ k, (nd h k).parent = some i ∧ (nd h k).item = some x := by
  cases c with
  | node =>
    unfold hasChild
    have hf := find_spec (hI.sorted i) x
    have hx : x ∈ itemsOf h i ↔ ∃ k, (nd h k).parent = some i ∧ (nd h k).item = some x := by
      rw [hI.mem_items]
      exact ⟨fun ⟨k, h1, h2⟩ => ⟨k, h2⟩, fun ⟨k, h2⟩ => ⟨k, (hI.parent_lt h2.1).1, h2⟩⟩
    rw [← hx]
    simp only [ne_eq, decide_eq_true_eq]
    constructor
    · intro h1; by_contra h2; exact h1 (hf.1 h2)
    · intro h1 h2; have := (hf.2 h1).1; omega
  | nodeV2 =>
    unfold hasChild
    simp only [Option.isSome_iff_exists, hI.lookup]

theorem Inv.getChild_ok {c : Cls} {h : Heap} (hI : Inv c h) (i k : ℕ) (x : ℤ) :
    getChild c h i x = .ok k ↔ (nd h k).parent = some i ∧ (nd h k).item = some x := by
  cases c with
  | node =>
    unfold getChild
    have hf := find_spec (hI.sorted i) x
    simp only [ne_eq, ite_not]
    have key : x ∈ itemsOf h i → ∃ j, pyGet (nd h i).children (find (itemsOf h i) x) = .ok j ∧ (nd h j).parent = some i ∧
        (nd h j).item = some x := by
      intro hx
      obtain ⟨h0, h1⟩ := hf.2 hx
      have hlt : (find (itemsOf h i) x).toNat < (itemsOf h i).length := by
        by_contra hc
        rw [List.getElem?_eq_none (by omega)] at h1
        cases h1
      have hlen : (itemsOf h i).length = (nd h i).children.length := by simp [itemsOf]
      obtain ⟨h2, h3⟩ := pyGet_ok (l := (nd h i).children) h0 (by omega)
      refine ⟨_, h3, ?_⟩
      have hm := (hI.mem i _).mp (List.getElem_mem h2)
      refine ⟨hm.2, ?_⟩
      obtain ⟨y, hy⟩ := hI.item _ _ hm.2
      rw [hy]
      replace h1 : ((nd h i).children.map fun c => (nd h c).item.getD 0)[(find (itemsOf h i) x).toNat]? = some x := h1
      rw [List.getElem?_map, List.getElem?_eq_getElem h2] at h1
      change some ((nd h ((nd h i).children[(find (itemsOf h i) x).toNat])).item.getD 0) = some x at h1
      rw [hy] at h1
      exact h1
    split
    · rename_i hm
      constructor
      · intro he; cases he
      · rintro ⟨h1, h2⟩
        have := (hf.2 ((hI.mem_items i x).mpr ⟨k, (hI.parent_lt h1).1, h1, h2⟩)).1
        omega
    · rename_i hm
      have hx : x ∈ itemsOf h i := by by_contra h2; exact hm (hf.1 h2)
      obtain ⟨j, h1, h2, h3⟩ := key hx
      rw [h1]
      constructor
      · intro he; cases he; exact ⟨h2, h3⟩
      · rintro ⟨h4, h5⟩
        rw [hI.child_unique h2 h4 h3 h5]
  | nodeV2 =>
    unfold getChild
    simp only
    rw [← hI.lookup]
    split
    · rename_i k' hk; rw [hk]; simp
    · rename_i hk; rw [hk]; simp

theorem Inv.getChild_error {c : Cls} {h : Heap} (hI : Inv c h) (i : ℕ) (x : ℤ) :
    (∃ k, getChild c h i x = .ok k) ∨ getChild c h i x = .error .keyError := by
  cases c with
  | node =>
    unfold getChild
    simp only [ne_eq, ite_not]
    split
    · exact Or.inr rfl
    · rename_i hm
      have hf := find_spec (hI.sorted i) x
      have hx : x ∈ itemsOf h i := by by_contra h2; exact hm (hf.1 h2)
      obtain ⟨h0, h1⟩ := hf.2 hx
      have hlt : (find (itemsOf h i) x).toNat < (itemsOf h i).length := by
        by_contra hc
        rw [List.getElem?_eq_none (by omega)] at h1
        cases h1
      have hlen : (itemsOf h i).length = (nd h i).children.length := by simp [itemsOf]
      obtain ⟨h2, h3⟩ := pyGet_ok (l := (nd h i).children) h0 (by omega)
      exact Or.inl ⟨_, h3⟩
  | nodeV2 =>
    unfold getChild
    simp only
    split
    · rename_i k' hk; exact Or.inl ⟨_, rfl⟩
    · exact Or.inr rfl

/-! ### The calls keep the invariant -/

theorem recurseUp_eq (h : Heap) (i : ℕ) : recurseUp h i = match (nd h i).parent with
    | none => []
    | some p => if p < i then recurseUp h p ++ (nd h i).item.toList else [] := by
  rw [recurseUp]
  rcases (nd h i).parent with _ | p <;> rfl

theorem recurseUp_congr {h h' : Heap} {n : ℕ} (hs : ∀ k < n, (nd h' k).parent = (nd h k).parent ∧ (nd h' k).item = (nd h k).item)
    (i : ℕ) (hi : i < n) : recurseUp h' i = recurseUp h i := by
  induction i using Nat.strong_induction_on with
  | _ i ih =>
    rw [recurseUp_eq, recurseUp_eq, (hs i hi).1, (hs i hi).2]
    split
    · rfl
    · split
      · rename_i p _ hp
        rw [ih p hp (hp.trans hi)]
      · rfl

theorem inv_nil (c : Cls) : Inv c [] := by
  have h0 : ∀ k, nd [] k = blank none false none := fun k => nd_out (by simp)
  constructor <;> simp [h0, blank, itemsOf]

theorem Inv.new {c : Cls} {h : Heap} (hI : Inv c h) (it : Option ℤ) (l : Bool) :
    Inv c (new h it l none) := by
  have hout : nd h h.length = blank none false none := nd_out le_rfl
  have hnd := nd_new h it l none
  have hpar : ∀ k, (nd (TrieHeap.new h it l none) k).parent = (nd h k).parent := by
    intro k; rw [hnd]; split
    · rename_i hk; subst hk; rw [hout]; rfl
    · rfl
  have hch : ∀ k, (nd (TrieHeap.new h it l none) k).children = (nd h k).children := by
    intro k; rw [hnd]; split
    · rename_i hk; subst hk; rw [hout]; rfl
    · rfl
  have hold : ∀ k, k < h.length → nd (TrieHeap.new h it l none) k = nd h k := by
    intro k hk; rw [hnd, if_neg (by omega)]
  have hitems : ∀ i, itemsOf (TrieHeap.new h it l none) i = itemsOf h i := by
    intro i
    unfold itemsOf
    rw [hch]
    apply List.map_congr_left
    intro k hk
    rw [hold k ((hI.mem i k).mp hk).1]
  have hitem : ∀ k p, (nd h k).parent = some p → (nd (TrieHeap.new h it l none) k).item = (nd h k).item := by
    intro k p hp; rw [hold k (hI.parent_lt hp).1]
  refine ⟨?_, ?_, ?_, ?_, ?_, ?_, ?_, ?_⟩
  · intro k p hp; rw [hpar] at hp; exact hI.older k p hp
  · intro i k
    rw [hch, hpar, hI.mem, length_new]
    constructor
    · rintro ⟨h1, h2⟩; exact ⟨by omega, h2⟩
    · rintro ⟨h1, h2⟩; exact ⟨(hI.parent_lt h2).1, h2⟩
  · intro k p hp
    rw [hpar] at hp
    rw [hitem k p hp]; exact hI.item k p hp
  · intro i
    rw [hitems, hnd]
    split
    · rename_i hi; subst hi; simp [itemsOf, hout, blank]
    · exact hI.items i
  · intro i; rw [hitems]; exact hI.sorted i
  · intro k p x y hp hx hy
    rw [hpar] at hp
    rw [hitem k p hp] at hx
    rw [hold p (hI.parent_lt hp).2] at hy
    exact hI.above k p x y hp hx hy
  · intro hc i
    rw [hitems, hch, hnd]
    split
    · rename_i hi; subst hi; simp [itemsOf, hout, blank]
    · exact hI.dict hc i
  · intro i s hs
    rcases Nat.lt_or_ge i h.length with hi | hi
    · rw [hold i hi] at hs ⊢
      rw [recurseUp_congr (h := h) (n := h.length) (fun k hk => by rw [hold k hk]; simp) i hi]
      exact hI.cache i s hs
    · rw [hnd] at hs
      split at hs
      · simp [blank] at hs
      · rw [nd_out hi] at hs; simp [blank] at hs

theorem Inv.attach {c : Cls} {h : Heap} (hI : Inv c h) {i : ℕ} (hi : i < h.length) {x : ℤ} (l : Bool)
    (hx : ∀ y, (nd h i).item = some y → y < x) (hn : ¬ ∃ k, (nd h k).parent = some i ∧ (nd h k).item = some x) :
    Inv c (upd (TrieHeap.new h (some x) l (some i)) i (attach c x h.length)) := by
  set h' := upd (TrieHeap.new h (some x) l (some i)) i (TrieHeap.attach c x h.length) with hh'
  have hlen : h'.length = h.length + 1 := by simp [hh']
  have hi' : nd h' i = TrieHeap.attach c x h.length (nd h i) := by
    rw [hh', nd_upd, if_pos ⟨rfl, by simp; omega⟩, nd_new, if_neg (by omega)]
  have hnew : nd h' h.length = blank (some x) l (some i) := by
    rw [hh', nd_upd, if_neg (by omega), nd_new, if_pos rfl]
  have hold : ∀ k, k ≠ i → k ≠ h.length → nd h' k = nd h k := by
    intro k h1 h2
    rw [hh', nd_upd, if_neg (by tauto), nd_new, if_neg h2]
  have hpar : ∀ k, k ≠ h.length → (nd h' k).parent = (nd h k).parent := by
    intro k hk
    by_cases h1 : k = i
    · subst h1; rw [hi']; rfl
    · rw [hold k h1 hk]
  have hitem : ∀ k, k ≠ h.length → (nd h' k).item = (nd h k).item := by
    intro k hk
    by_cases h1 : k = i
    · subst h1; rw [hi']; rfl
    · rw [hold k h1 hk]
  have hxi : x ∉ itemsOf h i := by
    intro hm
    obtain ⟨k, -, hk⟩ := (hI.mem_items i x).mp hm
    exact hn ⟨k, hk⟩
  have hmapold : ∀ k', ((nd h k').children.map fun c => (nd h' c).item.getD 0) = itemsOf h k' := by
    intro k'
    unfold itemsOf
    apply List.map_congr_left
    intro k hk
    rw [hitem k (by have := ((hI.mem k' k).mp hk).1; omega)]
  have hitems_i : itemsOf h' i = (itemsOf h i).insertIdx (bisect (itemsOf h i) x) x := by
    unfold itemsOf
    rw [hi']
    change List.map _ (List.insertIdx _ _ _) = _
    rw [List.map_insertIdx, hmapold i, hI.items i, hnew]
    rfl
  have hitems_k : ∀ k, k ≠ i → itemsOf h' k = itemsOf h k := by
    intro k hk
    by_cases h1 : k = h.length
    · subst h1
      simp [itemsOf, hnew, nd_out (le_refl h.length), blank]
    · unfold itemsOf
      rw [hold k hk h1]
      exact hmapold k
  have hlen_i : (itemsOf h i).length = (nd h i).children.length := by simp [itemsOf]
  have hmemi : ∀ k, k ∈ (nd h' i).children ↔ k = h.length ∨ k ∈ (nd h i).children := by
    intro k
    rw [hi']
    change k ∈ List.insertIdx _ _ _ ↔ _
    rw [List.mem_insertIdx]
    rw [hI.items i, ← hlen_i]; exact bisect_le _ _
  refine ⟨?_, ?_, ?_, ?_, ?_, ?_, ?_, ?_⟩
  · intro k p hp
    by_cases hk : k = h.length
    · subst hk
      rw [hnew] at hp
      simp only [blank, Option.some.injEq] at hp
      omega
    · rw [hpar k hk] at hp
      exact hI.older k p hp
  · intro j k
    rw [hlen]
    by_cases hj : j = i
    · subst hj
      rw [hmemi, hI.mem]
      by_cases hk : k = h.length
      · subst hk; simp [hnew, blank]
      · rw [hpar k hk]
        constructor
        · rintro (h1 | ⟨h1, h2⟩)
          · exact absurd h1 hk
          · exact ⟨by omega, h2⟩
        · rintro ⟨h1, h2⟩; exact Or.inr ⟨by omega, h2⟩
    · by_cases hk : k = h.length
      · subst hk
        rw [hnew]
        simp only [blank, Option.some.injEq]
        constructor
        · intro hm
          exfalso
          by_cases hjl : j = h.length
          · subst hjl; rw [hnew] at hm; simp [blank] at hm
          · rw [hold j hj hjl, hI.mem] at hm; omega
        · rintro ⟨-, h1⟩; exact absurd h1.symm hj
      · rw [hpar k hk]
        by_cases hjl : j = h.length
        · subst hjl
          rw [hnew]
          simp only [blank, List.not_mem_nil, false_iff, not_and]
          intro _ hp
          have := (hI.parent_lt hp).2; omega
        · rw [hold j hj hjl, hI.mem]
          constructor
          · rintro ⟨h1, h2⟩; exact ⟨by omega, h2⟩
          · rintro ⟨h1, h2⟩; exact ⟨by omega, h2⟩
  · intro k p hp
    by_cases hk : k = h.length
    · subst hk; rw [hnew]; exact ⟨x, rfl⟩
    · rw [hpar k hk] at hp; rw [hitem k hk]; exact hI.item k p hp
  · intro j
    by_cases hj : j = i
    · subst hj
      rw [hitems_i, hi', ← hI.items j]
      rfl
    · rw [hitems_k j hj]
      by_cases hjl : j = h.length
      · subst hjl
        rw [hnew]; simp [itemsOf, nd_out (le_refl h.length), blank]
      · rw [hold j hj hjl]; exact hI.items j
  · intro j
    by_cases hj : j = i
    · subst hj
      rw [hitems_i]
      exact sorted_insert (hI.sorted j) hxi
    · rw [hitems_k j hj]; exact hI.sorted j
  · intro k p a b hp ha hb
    by_cases hk : k = h.length
    · subst hk
      rw [hnew] at hp ha
      simp only [blank, Option.some.injEq] at hp ha
      subst hp ha
      rw [hitem i (by omega)] at hb
      exact hx b hb
    · rw [hpar k hk] at hp
      rw [hitem k hk] at ha
      have := (hI.parent_lt hp).2
      rw [hitem p (by omega)] at hb
      exact hI.above k p a b hp ha hb
  · intro hc j
    by_cases hj : j = i
    · subst hj
      rw [hitems_i, hi']
      have hd := hI.dict hc j
      change (if c = .nodeV2 then _ else _ : List (ℤ × ℕ)).Perm ((itemsOf h j).insertIdx _ x |>.zip ((nd h j).children.insertIdx _ _))
      rw [if_pos hc, hI.items j, zip_insertIdx _ _ hlen_i]
      refine (List.perm_append_comm).trans ?_
      refine List.Perm.trans ?_ (List.perm_insertIdx _ _ ?_).symm
      · exact List.Perm.cons _ hd
      · rw [List.length_zip, ← hlen_i, min_self]; exact bisect_le _ _
    · rw [hitems_k j hj]
      by_cases hjl : j = h.length
      · subst hjl
        rw [hnew]; simp [itemsOf, nd_out (le_refl h.length), blank]
      · rw [hold j hj hjl]; exact hI.dict hc j
  · intro j s hs
    by_cases hjl : j = h.length
    · subst hjl; rw [hnew] at hs; simp [blank] at hs
    · rcases Nat.lt_or_ge j h.length with hlt | hge
      · rw [recurseUp_congr (h := h) (n := h.length) (fun k hk => ⟨hpar k (by omega), hitem k (by omega)⟩) j hlt]
        by_cases hj : j = i
        · subst hj
          rw [hi'] at hs ⊢
          exact hI.cache j s hs
        · rw [hold j hj hjl] at hs ⊢
          exact hI.cache j s hs
      · rw [nd_out (by omega)] at hs; simp [blank] at hs

/-- An assignment that leaves everything but `is_last` and `_set` alone. -/
theorem Inv.assign {c : Cls} {h : Heap} (hI : Inv c h) (i : ℕ) (f : Nd → Nd)
    (hf : ∀ n, (f n).item = n.item ∧ (f n).children = n.children ∧ (f n).childrenItems = n.childrenItems ∧
      (f n).parent = n.parent ∧ (f n).item2child = n.item2child)
    (hc : ∀ s, (f (nd h i)).cache = some s → (f (nd h i)).isLast = true ∧ s = recurseUp h i) :
    Inv c (upd h i f) := by
  have hk : ∀ k, (nd (upd h i f) k).item = (nd h k).item ∧ (nd (upd h i f) k).children = (nd h k).children ∧
      (nd (upd h i f) k).childrenItems = (nd h k).childrenItems ∧ (nd (upd h i f) k).parent = (nd h k).parent ∧
      (nd (upd h i f) k).item2child = (nd h k).item2child := by
    intro k
    rw [nd_upd]
    split
    · rename_i h1
      rw [h1.1]; exact hf _
    · simp
  have hit : ∀ k, itemsOf (upd h i f) k = itemsOf h k := by
    intro k
    unfold itemsOf
    rw [(hk k).2.1]
    apply List.map_congr_left
    intro a _
    rw [(hk a).1]
  refine ⟨?_, ?_, ?_, ?_, ?_, ?_, ?_, ?_⟩
  · intro k p hp; rw [(hk k).2.2.2.1] at hp; exact hI.older k p hp
  · intro j k; rw [(hk j).2.1, (hk k).2.2.2.1, length_upd]; exact hI.mem j k
  · intro k p hp; rw [(hk k).2.2.2.1] at hp; rw [(hk k).1]; exact hI.item k p hp
  · intro k; rw [(hk k).2.2.1, hit]; exact hI.items k
  · intro k; rw [hit]; exact hI.sorted k
  · intro k p x y hp hx hy
    rw [(hk k).2.2.2.1] at hp
    rw [(hk k).1] at hx
    rw [(hk p).1] at hy
    exact hI.above k p x y hp hx hy
  · intro hc k; rw [(hk k).2.2.2.2, hit, (hk k).2.1]; exact hI.dict hc k
  · intro k s hs
    have hr : recurseUp (upd h i f) k = recurseUp h k :=
      recurseUp_congr (n := k + 1) (fun a _ => ⟨(hk a).2.2.2.1, (hk a).1⟩) k (by omega)
    rw [hr]
    rw [nd_upd] at hs ⊢
    split at hs
    · rename_i h1
      rw [h1.1]
      rw [if_pos ⟨rfl, h1.2⟩]
      exact hc s hs
    · rename_i h1
      rw [if_neg h1]
      exact hI.cache k s hs

theorem Inv.setLast {c : Cls} {h : Heap} (hI : Inv c h) (i : ℕ) : Inv c (setLast h i) :=
  hI.assign i _ (fun n => ⟨rfl, rfl, rfl, rfl, rfl⟩) (fun s hs => ⟨rfl, (hI.cache i s hs).2⟩)

theorem Inv.fill {c : Cls} {h : Heap} (hI : Inv c h) (i : ℕ) : Inv c (fill h i) := by
  unfold TrieHeap.fill
  split
  · refine hI.assign i _ (fun n => ⟨rfl, rfl, rfl, rfl, rfl⟩) ?_
    intro s hs
    change getSetUp h i = some s at hs
    unfold getSetUp at hs
    split at hs
    · rename_i h1; simp at hs; exact ⟨h1, hs.symm⟩
    · cases hs
  · exact hI

theorem Inv.populate {c : Cls} (d : ℕ) : ∀ {h : Heap} (_ : Inv c h) (i : ℕ), Inv c (populate d h i) := by
  induction d with
  | zero => intro h hI i; exact hI
  | succ d ih =>
    intro h hI i
    rw [TrieHeap.populate]
    split
    · exact hI.fill i
    · generalize (nd (TrieHeap.fill h i) i).children = l
      have := hI.fill i
      revert this
      generalize TrieHeap.fill h i = h₁
      intro hI₁
      induction l generalizing h₁ with
      | nil => exact hI₁
      | cons a l ihl => exact ihl _ (ih hI₁ a)

theorem Inv.addChild {c : Cls} {h : Heap} (hI : Inv c h) {i : ℕ} (hi : i < h.length) (x : ℤ) (l : Bool) :
    Inv c (addChild c h i x l).2 := by
  unfold TrieHeap.addChild
  have hn : ¬ hasChild c h i x = true → ¬ ∃ k, (nd h k).parent = some i ∧ (nd h k).item = some x :=
    fun h1 h2 => h1 ((hI.hasChild_iff i x).mpr h2)
  split
  · rename_i it hit
    split
    · exact hI
    · rename_i hle
      split
      · exact hI
      · rename_i hc
        exact hI.attach hi l (fun y hy => by rw [hit] at hy; cases hy; omega) (hn hc)
  · rename_i hit
    split
    · exact hI
    · rename_i hc
      exact hI.attach hi l (fun y hy => by rw [hit] at hy; cases hy) (hn hc)

end TrieHeap

end Verif
