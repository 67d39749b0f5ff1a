/-
Histories of a set trie, the PRETTI trie and the sample assignment procedures.
-/
import Verif.Lemmas.Trie
import Verif.Lemmas.Sparse
import Verif.Lemmas.Predict
import Verif.Lemmas.Rand
import Verif.Spec.Trie

namespace Verif
open TNode

theorem sort_inj {s t : Finset ℤ} (h : s.sort (· ≤ ·) = t.sort (· ≤ ·)) : s = t := by
  have := congrArg List.toFinset h
  simpa using this

theorem sort_lt {α : Type} [LinearOrder α] (s : Finset α) : (s.sort (· ≤ ·)).Pairwise (· < ·) := by
  have h1 := Finset.pairwise_sort s (· ≤ ·)
  have h2 := Finset.sort_nodup s (· ≤ ·)
  have := h1.and h2
  exact this.imp fun h => lt_of_le_of_ne h.1 h.2

theorem sort_eq_nil {s : Finset ℤ} : s.sort (· ≤ ·) = [] ↔ s = ∅ := by
  constructor
  · intro h; exact sort_inj (by rw [h]; simp)
  · rintro rfl; simp

theorem sort_sublist {s t : Finset ℤ} :
    (s.sort (· ≤ ·)).Sublist (t.sort (· ≤ ·)) ↔ s ⊆ t := by
  constructor
  · intro h x hx
    have : x ∈ s.sort (· ≤ ·) := (Finset.mem_sort _).mpr hx
    exact (Finset.mem_sort _).mp (h.subset this)
  · intro h
    have : s.sort (· ≤ ·) = (t.sort (· ≤ ·)).filter fun x => decide (x ∈ s) := by
      apply List.Perm.eq_of_pairwise (le := (· < ·))
      · intro a b _ _ h1 h2; exact absurd h1 (not_lt.mpr h2.le)
      · exact sort_lt s
      · exact (sort_lt t).filter _
      · rw [List.perm_ext_iff_of_nodup (Finset.sort_nodup s _) ((Finset.sort_nodup t _).filter _)]
        intro a
        simp only [Finset.mem_sort, List.mem_filter, decide_eq_true_eq]
        exact ⟨fun ha => ⟨h ha, ha⟩, fun ha => ha.2⟩
    rw [this]
    exact List.filter_sublist

/-- The trie holds exactly the non-empty sets of `L`. -/
structure Holds (t : TNode) (L : List (Finset ℤ)) : Prop where
  inv : Inv [] t
  root : t.item = none
  has : ∀ p, Has t p ↔ ∃ s ∈ L, s ≠ ∅ ∧ p = s.sort (· ≤ ·)

theorem holds_empty : Holds emptyTrie [] :=
  ⟨leaf_inv _ _ _, rfl, fun p => ⟨fun h => absurd h (leaf_has _ _), by simp⟩⟩

theorem holds_insert {t : TNode} {L : List (Finset ℤ)} (h : Holds t L) (s : Finset ℤ) :
    ∃ t', trieInsert t s = .ok t' ∧ Holds t' (L ++ [s]) ∧ (Bare t → Bare t') := by
  obtain ⟨t', h1, h2, h3, h4, h5⟩ := insert_spec (s.sort (· ≤ ·)) [] t h.inv (sort_lt s)
    (by intro a _ i hi; rw [h.root] at hi; cases hi)
  refine ⟨t', h1, ⟨h2, by rw [h3, h.root], ?_⟩, h5⟩
  intro p
  rw [h4, h.has, ne_eq, sort_eq_nil]
  simp only [List.mem_append, List.mem_singleton, ne_eq]
  constructor
  · rintro (⟨u, hu, h6, h7⟩ | ⟨h6, h7⟩)
    · exact ⟨u, Or.inl hu, h6, h7⟩
    · exact ⟨s, Or.inr rfl, h7, h6⟩
  · rintro ⟨u, hu | rfl, h6, h7⟩
    · exact Or.inl ⟨u, hu, h6, h7⟩
    · exact Or.inr ⟨h7, h6⟩

theorem holds_inserts (sets : List (Finset ℤ)) : ∀ {t : TNode} {L : List (Finset ℤ)}, Holds t L →
    ∃ t', sets.foldlM trieInsert t = .ok t' ∧ Holds t' (L ++ sets) ∧ (Bare t → Bare t') := by
  induction sets with
  | nil => intro t L h; exact ⟨t, rfl, by simpa using h, id⟩
  | cons s sets ih =>
    intro t L h
    obtain ⟨t1, h1, h2, h3⟩ := holds_insert h s
    obtain ⟨t2, h4, h5, h6⟩ := ih h2
    refine ⟨t2, ?_, by simpa using h5, h6 ∘ h3⟩
    rw [List.foldlM_cons, h1]; exact h4

theorem holds_batch {t : TNode} {L : List (Finset ℤ)} (h : Holds t L) (sets : List (Finset ℤ)) :
    ∃ t', trieInsertBatch t sets = .ok t' ∧ Holds t' (L ++ sets) ∧ Full [] t' := by
  obtain ⟨t1, h1, h2, -⟩ := holds_inserts sets h
  refine ⟨t1.populate [], by rw [trieInsertBatch, h1]; rfl, ?_, (populate_spec h2.inv).2⟩
  exact ⟨(populate_spec h2.inv).1, by rw [populate_item, h2.root], fun p => by
    rw [populate_has, h2.has]⟩

theorem holds_run (ops : List TrieOp) : ∀ {t : TNode} {L : List (Finset ℤ)}, Holds t L →
    ∃ t', ops.foldlM TrieOp.apply t = .ok t' ∧ Holds t' (L ++ inserted ops) := by
  induction ops with
  | nil => intro t L h; exact ⟨t, rfl, by simpa [inserted] using h⟩
  | cons op ops ih =>
    intro t L h
    have hstep : ∃ t', TrieOp.apply t op = .ok t' ∧ Holds t' (L ++ op.sets) := by
      cases op with
      | insert s => obtain ⟨t', h1, h2, -⟩ := holds_insert h s; exact ⟨t', h1, h2⟩
      | insertBatch sets => obtain ⟨t', h1, h2, -⟩ := holds_batch h sets; exact ⟨t', h1, h2⟩
    obtain ⟨t1, h1, h2⟩ := hstep
    obtain ⟨t2, h4, h5⟩ := ih h2
    refine ⟨t2, ?_, ?_⟩
    · rw [List.foldlM_cons, h1]; exact h4
    · simpa [inserted, List.flatMap_cons] using h5

theorem run_holds {ops : List TrieOp} {t : TNode} (h : runTrie ops = .ok t) :
    Holds t (inserted ops) := by
  obtain ⟨t', h1, h2⟩ := holds_run ops holds_empty
  have : t' = t := Except.ok.inj (h1.symm.trans h)
  rw [← this]; simpa using h2

theorem run_batch_full {ops : List TrieOp} {sets : List (Finset ℤ)} {t : TNode}
    (h : runTrie (ops ++ [.insertBatch sets]) = .ok t) : Full [] t := by
  obtain ⟨t1, h1, h2⟩ := holds_run ops holds_empty
  obtain ⟨t2, h3, -, h4⟩ := holds_batch h2 sets
  have : runTrie (ops ++ [.insertBatch sets]) = .ok t2 := by
    rw [runTrie, List.foldlM_append, h1]
    change ([TrieOp.insertBatch sets].foldlM TrieOp.apply t1) = _
    rw [List.foldlM_cons]
    change (trieInsertBatch t1 sets >>= fun t => pure t) = _
    rw [h3]; rfl
  rw [Except.ok.inj (this.symm.trans h)] at h4
  exact h4

theorem run_inserts_bare {sets : List (Finset ℤ)} {t : TNode}
    (h : runTrie (sets.map .insert) = .ok t) : Bare t := by
  obtain ⟨t1, h1, -, h3⟩ := holds_inserts sets holds_empty
  have : ∀ (l : List (Finset ℤ)) (n : TNode),
      (l.map TrieOp.insert).foldlM TrieOp.apply n = l.foldlM trieInsert n := by
    intro l
    induction l with
    | nil => intro n; rfl
    | cons a l ih =>
      intro n
      rw [List.map_cons, List.foldlM_cons, List.foldlM_cons]
      change (trieInsert n a >>= _) = _
      congr 1
      funext m
      exact ih m
  rw [runTrie, this, h1] at h
  rw [← Except.ok.inj h]
  exact h3 (.mk (by simp))

theorem holds_subsets {t : TNode} {L : List (Finset ℤ)} (h : Holds t L) (hf : Full [] t)
    (q : Finset ℤ) (x : Option (List ℤ)) :
    x ∈ trieSearchSubsets t q ↔ ∃ s ∈ L, s ≠ ∅ ∧ s ⊆ q ∧ x = tupleOf s := by
  have key : x ∈ t.searchSubsetsList (q.sort (· ≤ ·)) ↔
      ∃ s ∈ L, s ≠ ∅ ∧ s ⊆ q ∧ x = tupleOf s := by
    rw [subsets_spec _ _ _ h.inv hf]
    simp only [h.has, List.nil_append]
    constructor
    · rintro ⟨p, -, ⟨s, hs, hne, rfl⟩, hsub, rfl⟩
      exact ⟨s, hs, hne, sort_sublist.mp hsub, rfl⟩
    · rintro ⟨s, hs, hne, hsub, rfl⟩
      exact ⟨_, by rw [ne_eq, sort_eq_nil]; exact hne, ⟨s, hs, hne, rfl⟩, sort_sublist.mpr hsub, rfl⟩
  unfold trieSearchSubsets
  split
  · exact key
  · rename_i hq
    have : q = ∅ := by rw [← Finset.card_eq_zero]; omega
    subst this
    simp only [Finset.notMem_empty, Finset.subset_empty, false_iff]
    rintro ⟨s, -, h1, h2, -⟩
    exact h1 h2

/-! ### Binary search -/

theorem pyGet_ok {α : Type} {l : List α} {k : ℤ} (h0 : 0 ≤ k) (h1 : k < l.length) :
    ∃ h : k.toNat < l.length, pyGet l k = .ok l[k.toNat] := by
  have h : k.toNat < l.length := by omega
  refine ⟨h, ?_⟩
  unfold pyGet pyIndex
  simp [h0, h1, h]

theorem binarySearchAux_spec (arr : List ℤ) (hs : arr.Pairwise (· < ·)) (x : ℤ) :
    ∀ (fuel : ℕ) (low high : ℤ), 0 ≤ low → high < arr.length → low ≤ high + 1 →
      (high - low + 1).toNat < fuel →
      (∀ i (hi : i < arr.length), arr[i] = x → low ≤ i ∧ (i : ℤ) ≤ high) →
      ∃ r, binarySearchAux arr fuel low high x = some (.ok r) ∧
        ((r = -1 ∧ x ∉ arr) ∨ ∃ i, ∃ hi : i < arr.length, r = i ∧ arr[i] = x) := by
  intro fuel
  induction fuel with
  | zero => intro low high _ _ _ h; omega
  | succ fuel ih =>
    intro low high h0 h1 h2 h3 hin
    rw [binarySearchAux]
    by_cases hc : high ≥ low
    · rw [if_pos hc]
      have hmid0 : 0 ≤ (high + low) / 2 := by omega
      have hmid1 : (high + low) / 2 < arr.length := by omega
      obtain ⟨hm, hget⟩ := pyGet_ok hmid0 hmid1
      simp only [hget]
      have hmono : ∀ i j (hi : i < arr.length) (hj : j < arr.length), i < j → arr[i] < arr[j] :=
        fun i j hi hj hij => List.pairwise_iff_getElem.mp hs i j hi hj hij
      split
      · rename_i heq
        exact ⟨_, rfl, Or.inr ⟨_, hm, by omega, heq⟩⟩
      · rename_i hne
        split
        · rename_i hgt
          apply ih low _ h0 (by omega) (by omega) (by omega)
          intro i hi hix
          obtain ⟨k1, k2⟩ := hin i hi hix
          refine ⟨k1, ?_⟩
          by_contra hcon
          rcases Nat.lt_or_ge ((high + low) / 2).toNat i with hlt | hge
          · have := hmono _ _ hm hi hlt
            omega
          · have : i = ((high + low) / 2).toNat := by omega
            subst this
            exact hne hix
        · rename_i hgt
          apply ih _ high (by omega) h1 (by omega) (by omega)
          intro i hi hix
          obtain ⟨k1, k2⟩ := hin i hi hix
          refine ⟨?_, k2⟩
          by_contra hcon
          rcases Nat.lt_or_ge i ((high + low) / 2).toNat with hlt | hge
          · have := hmono _ _ hi hm hlt
            omega
          · have : i = ((high + low) / 2).toNat := by omega
            subst this
            exact hne hix
    · rw [if_neg hc]
      refine ⟨-1, rfl, Or.inl ⟨rfl, ?_⟩⟩
      intro hx
      obtain ⟨i, hi, hix⟩ := List.getElem_of_mem hx
      have := hin i hi hix
      omega

/-! ### PRETTI -/

namespace PNode

/-- Every child's row set is its parent's restricted to the rows containing the child's item. -/
inductive PInv (inv : List (Finset ℕ)) : PNode → Prop
  | mk {v : Finset ℕ} {cs : List (ℤ × PNode)}
      (hv : ∀ a c, cs.lookup a = some c → ∃ rows, pyGet inv a = .ok rows ∧ c.vList = rows ∩ v)
      (hrec : ∀ a c, cs.lookup a = some c → PInv inv c) : PInv inv (.mk v cs)

theorem lookup_filter_ne (cs : List (ℤ × PNode)) (a b : ℤ) (h : b ≠ a) :
    (cs.filter fun p => p.1 ≠ a).lookup b = cs.lookup b := by
  induction cs with
  | nil => rfl
  | cons p cs ih =>
    by_cases hp : p.1 = a
    · rw [List.filter_cons_of_neg (by simp [hp]), ih]
      obtain ⟨k, v⟩ := p
      have : (b == k) = false := by simp at hp ⊢; omega
      rw [List.lookup_cons, this]
    · rw [List.filter_cons_of_pos (by simp [hp])]
      obtain ⟨k, v⟩ := p
      rw [List.lookup_cons, List.lookup_cons, ih]

theorem setChild_inv {inv : List (Finset ℕ)} {n : PNode} (h : PInv inv n) {a : ℤ} {c : PNode}
    {rows : Finset ℕ} (ha : pyGet inv a = .ok rows) (hc : c.vList = rows ∩ n.vList)
    (hci : PInv inv c) : PInv inv (n.setChild a c) := by
  cases h with
  | @mk v cs hv hrec =>
    have hl : ∀ b d, ((a, c) :: cs.filter fun p => p.1 ≠ a).lookup b = some d →
        (b = a ∧ d = c) ∨ cs.lookup b = some d := by
      intro b d hd
      by_cases hb : b = a
      · subst hb
        rw [List.lookup_cons, beq_self_eq_true] at hd
        exact Or.inl ⟨rfl, (Option.some.inj hd).symm⟩
      · rw [List.lookup_cons, beq_false_of_ne hb, lookup_filter_ne cs a b hb] at hd
        exact Or.inr hd
    refine .mk ?_ ?_
    · intro b d hd
      rcases hl b d hd with ⟨rfl, rfl⟩ | hd
      · exact ⟨rows, ha, hc⟩
      · exact hv b d hd
    · intro b d hd
      rcases hl b d hd with ⟨rfl, rfl⟩ | hd
      · exact hci
      · exact hrec b d hd

theorem setChild_vList (n : PNode) (a : ℤ) (c : PNode) : (n.setChild a c).vList = n.vList := by
  cases n; rfl

theorem walk_spec (inv : List (Finset ℕ)) : ∀ (as : List ℤ) (n : PNode), PInv inv n →
    (∀ a ∈ as, 0 ≤ a ∧ a < inv.length) →
    ∃ n' v, n.walk inv as = .ok (n', v) ∧ PInv inv n' ∧ n'.vList = n.vList ∧
      ∀ i, i ∈ v ↔ i ∈ n.vList ∧ ∀ a ∈ as, i ∈ inv.getD a.toNat ∅
  | [], n, h, _ => ⟨n, n.vList, rfl, h, rfl, by simp⟩
  | a :: as, n, h, hv => by
    obtain ⟨ha0, ha1⟩ := hv a (by simp)
    obtain ⟨hal, hget⟩ := pyGet_ok ha0 ha1
    have hrows : inv[a.toNat] = inv.getD a.toNat ∅ := (getD_lt hal ∅).symm
    rw [hrows] at hget
    rw [walk]
    rcases hl : n.children.lookup a with _ | c
    · simp only [hget]
      obtain ⟨c', v, h1, h2, h3, h4⟩ := walk_spec inv as (.mk (inv.getD a.toNat ∅ ∩ n.vList) [])
        (.mk (by simp) (by simp)) (fun b hb => hv b (by simp [hb]))
      refine ⟨n.setChild a c', v, ?_, setChild_inv h hget h3 h2, setChild_vList _ _ _, ?_⟩
      · simp only [bind, Except.bind, h1]; rfl
      · intro i
        rw [h4]
        simp only [vList, Finset.mem_inter, List.mem_cons, forall_eq_or_imp]
        tauto
    · simp only
      have hc : ∃ rows, pyGet inv a = .ok rows ∧ c.vList = rows ∩ n.vList := by
        cases h with | mk h1 h2 => exact h1 a c hl
      have hci : PInv inv c := by
        cases h with | mk h1 h2 => exact h2 a c hl
      obtain ⟨rows, hr, hcv⟩ := hc
      have hr' : rows = inv.getD a.toNat ∅ := Except.ok.inj (hr.symm.trans hget)
      obtain ⟨c', v, h1, h2, h3, h4⟩ := walk_spec inv as c hci (fun b hb => hv b (by simp [hb]))
      refine ⟨n.setChild a c', v, ?_, setChild_inv h hr (h3.trans hcv) h2, setChild_vList _ _ _, ?_⟩
      · simp only [bind, Except.bind, h1]; rfl
      · intro i
        rw [h4, hcv, hr']
        simp only [Finset.mem_inter, List.mem_cons, forall_eq_or_imp]
        tauto

/-- What `pyGet` does, by the position it reads. -/
theorem pyGet_cases {α : Type} (l : List α) (k : ℤ) :
    (∃ x, pyGet l k = .ok x ∧ -(l.length : ℤ) ≤ k ∧ k < l.length) ∨
      (pyGet l k = .error .indexError ∧ ¬ (-(l.length : ℤ) ≤ k ∧ k < l.length)) := by
  unfold pyGet pyIndex
  by_cases h0 : 0 ≤ k
  · rw [if_pos h0]
    by_cases h1 : k < l.length
    · rw [if_pos h1, Option.bind_some, List.getElem?_eq_getElem (by omega)]
      exact Or.inl ⟨_, rfl, by omega, h1⟩
    · rw [if_neg h1]
      exact Or.inr ⟨rfl, by omega⟩
  · rw [if_neg h0]
    by_cases h1 : 0 ≤ (l.length : ℤ) + k
    · rw [if_pos h1, Option.bind_some, List.getElem?_eq_getElem (by omega)]
      exact Or.inl ⟨_, rfl, by omega, by omega⟩
    · rw [if_neg h1]
      exact Or.inr ⟨rfl, by omega⟩

theorem walk_general (inv : List (Finset ℕ)) : ∀ (as : List ℤ) (n : PNode), PInv inv n →
    (∀ a ∈ as, ∃ rows, pyGet inv a = .ok rows) →
    ∃ n' v, n.walk inv as = .ok (n', v) ∧ PInv inv n' ∧ n'.vList = n.vList ∧
      ∀ i, i ∈ v ↔ i ∈ n.vList ∧ ∀ a ∈ as, ∃ rows, pyGet inv a = .ok rows ∧ i ∈ rows
  | [], n, h, _ => ⟨n, n.vList, rfl, h, rfl, by simp⟩
  | a :: as, n, h, hv => by
    obtain ⟨rows, hget⟩ := hv a (by simp)
    have hmem : ∀ i, (∃ r, pyGet inv a = .ok r ∧ i ∈ r) ↔ i ∈ rows := by
      intro i
      constructor
      · rintro ⟨r, hr, hi⟩; rw [hget] at hr; cases hr; exact hi
      · intro hi; exact ⟨rows, hget, hi⟩
    rw [walk]
    rcases hl : n.children.lookup a with _ | c
    · simp only [hget]
      obtain ⟨c', v, h1, h2, h3, h4⟩ := walk_general inv as (.mk (rows ∩ n.vList) [])
        (.mk (by simp) (by simp)) (fun b hb => hv b (by simp [hb]))
      refine ⟨n.setChild a c', v, ?_, setChild_inv h hget h3 h2, setChild_vList _ _ _, ?_⟩
      · simp only [bind, Except.bind, h1]; rfl
      · intro i
        rw [h4, List.forall_mem_cons, hmem]
        simp only [vList, Finset.mem_inter]
        tauto
    · simp only
      have hc : ∃ rows, pyGet inv a = .ok rows ∧ c.vList = rows ∩ n.vList := by
        cases h with | mk h1 h2 => exact h1 a c hl
      have hci : PInv inv c := by
        cases h with | mk h1 h2 => exact h2 a c hl
      obtain ⟨rows', hr, hcv⟩ := hc
      have hr' : rows' = rows := Except.ok.inj (hr.symm.trans hget)
      subst hr'
      obtain ⟨c', v, h1, h2, h3, h4⟩ := walk_general inv as c hci (fun b hb => hv b (by simp [hb]))
      refine ⟨n.setChild a c', v, ?_, setChild_inv h hr (h3.trans hcv) h2, setChild_vList _ _ _, ?_⟩
      · simp only [bind, Except.bind, h1]; rfl
      · intro i
        rw [h4, hcv, List.forall_mem_cons, hmem]
        simp only [Finset.mem_inter]
        tauto

theorem walk_error (inv : List (Finset ℕ)) : ∀ (as : List ℤ) (n : PNode), PInv inv n →
    (∃ a ∈ as, pyGet inv a = .error .indexError) → n.walk inv as = .error .indexError
  | [], _, _, h => by simp at h
  | a :: as, n, h, he => by
    rw [walk]
    rcases hl : n.children.lookup a with _ | c
    · rcases pyGet_cases inv a with ⟨rows, hr, -⟩ | ⟨hr, -⟩
      · have he' : ∃ b ∈ as, pyGet inv b = .error .indexError := by
          obtain ⟨b, hb, e⟩ := he
          rcases List.mem_cons.mp hb with rfl | hb
          · rw [hr] at e; cases e
          · exact ⟨b, hb, e⟩
        simp only [bind, Except.bind, hr]
        rw [walk_error inv as _ (.mk (by simp) (by simp)) he']
      · simp only [bind, Except.bind, hr]
    · have hc : ∃ rows, pyGet inv a = .ok rows ∧ c.vList = rows ∩ n.vList := by
        cases h with | mk h1 h2 => exact h1 a c hl
      have hci : PInv inv c := by
        cases h with | mk h1 h2 => exact h2 a c hl
      obtain ⟨rows, hr, -⟩ := hc
      have he' : ∃ b ∈ as, pyGet inv b = .error .indexError := by
        obtain ⟨b, hb, e⟩ := he
        rcases List.mem_cons.mp hb with rfl | hb
        · rw [hr] at e; cases e
        · exact ⟨b, hb, e⟩
      simp only [bind, Except.bind]
      rw [walk_error inv as c hci he']

end PNode

open PNode Classical in
theorem processRecord_general (inv : List (Finset ℕ)) (ordering : List ℤ) (t : PTrie) (rid : ℕ)
    (s : Finset ℤ) (nRows : ℕ) (h : PInv inv t.root) (hroot : t.root.vList = Finset.range nRows)
    (hs : ∀ x ∈ s, x ∈ ordering) (hv : ∀ x ∈ s, ∃ rows, pyGet inv x = .ok rows)
    (hl : t.newRows.length = nRows) :
    ∃ t', processRecord inv ordering t rid s = .ok t' ∧ PInv inv t'.root ∧
      t'.root.vList = Finset.range nRows ∧ t'.newRows.length = nRows ∧
      ∀ i < nRows, t'.newRows.getD i [] = t.newRows.getD i [] ++
        if ∀ x ∈ s, ∃ rows, pyGet inv x = .ok rows ∧ i ∈ rows then [rid] else [] := by
  obtain ⟨n', v, h1, h2, h3, h4⟩ := walk_general inv (ordering.filter fun x => decide (x ∈ s)) t.root h
    (by intro a ha; rw [List.mem_filter] at ha; exact hv a (by simpa using ha.2))
  refine ⟨{ root := n'
            newRows := t.newRows.mapIdx fun i row => if i ∈ v then row ++ [rid] else row }, ?_, h2,
    h3.trans hroot, by simpa using hl, ?_⟩
  · unfold processRecord
    simp only [bind, Except.bind, h1]; rfl
  · intro i hi
    have : i ∈ v ↔ ∀ x ∈ s, ∃ rows, pyGet inv x = .ok rows ∧ i ∈ rows := by
      rw [h4, hroot, Finset.mem_range]
      simp only [List.mem_filter, decide_eq_true_eq]
      constructor
      · rintro ⟨-, k⟩ x hx; exact k x ⟨hs x hx, hx⟩
      · intro k; exact ⟨by omega, fun a ha => k a ha.2⟩
    rw [getD_lt (by simpa [hl] using hi), getD_lt (by omega), List.getElem_mapIdx]
    by_cases hc : ∀ x ∈ s, ∃ rows, pyGet inv x = .ok rows ∧ i ∈ rows
    · rw [if_pos (this.mpr hc), if_pos hc]
    · rw [if_neg (fun k => hc (this.mp k)), if_neg hc, List.append_nil]

open PNode Classical in
theorem processAll_general (inv : List (Finset ℕ)) (ordering : List ℤ) (nRows : ℕ) :
    ∀ (ss : List (Finset ℤ)) (t : PTrie) (k : ℕ), PInv inv t.root →
      t.root.vList = Finset.range nRows → t.newRows.length = nRows →
      (∀ s ∈ ss, ∀ x ∈ s, x ∈ ordering ∧ ∃ rows, pyGet inv x = .ok rows) →
      ∃ t', processAll inv ordering t k ss = .ok t' ∧ t'.newRows.length = nRows ∧
        ∀ i < nRows, ∃ l, t'.newRows.getD i [] = t.newRows.getD i [] ++ l ∧ l.Pairwise (· < ·) ∧
          ∀ id, id ∈ l ↔ ∃ j, id = j + k ∧ ∃ s, ss[j]? = some s ∧
            ∀ x ∈ s, ∃ rows, pyGet inv x = .ok rows ∧ i ∈ rows
  | [], t, k, _, _, hl, _ => by
    refine ⟨t, rfl, hl, fun i _ => ⟨[], by simp, .nil, by simp⟩⟩
  | s :: ss, t, k, h, hroot, hl, hall => by
    obtain ⟨t1, h1, h2, h3, h4, h4'⟩ := processRecord_general inv ordering t k s nRows h hroot
      (fun x hx => (hall s (by simp) x hx).1) (fun x hx => (hall s (by simp) x hx).2) hl
    obtain ⟨t2, h5, h6, h7⟩ := processAll_general inv ordering nRows ss t1 (k + 1) h2 h3 h4
      (fun u hu => hall u (by simp [hu]))
    refine ⟨t2, ?_, h6, ?_⟩
    · rw [processAll, h1]; exact h5
    · intro i hi
      obtain ⟨l, hl1, hl2, hl3⟩ := h7 i hi
      rw [h4' i hi, List.append_assoc] at hl1
      refine ⟨_, hl1, ?_, ?_⟩
      · split_ifs
        · refine List.pairwise_cons.mpr ⟨?_, hl2⟩
          intro id hid
          obtain ⟨j, hj, -⟩ := (hl3 id).mp hid
          omega
        · exact hl2
      · intro id
        rw [List.mem_append, hl3]
        constructor
        · rintro (hid | ⟨j, rfl, u, hu, hx⟩)
          · split_ifs at hid with hc
            · rw [List.mem_singleton] at hid
              exact ⟨0, by omega, s, rfl, hc⟩
            · simp at hid
          · exact ⟨j + 1, by omega, u, by simpa using hu, hx⟩
        · rintro ⟨j, rfl, u, hu, hx⟩
          rcases j with _ | j
          · left
            have : s = u := by simpa using hu
            subst this
            rw [if_pos hx]
            simp
          · right
            exact ⟨j, by omega, u, by simpa using hu, hx⟩

open PNode in
theorem processAll_error (inv : List (Finset ℕ)) (ordering : List ℤ) (nRows : ℕ) :
    ∀ (ss : List (Finset ℤ)) (t : PTrie) (k : ℕ), PInv inv t.root →
      t.root.vList = Finset.range nRows → t.newRows.length = nRows →
      (∀ s ∈ ss, ∀ x ∈ s, x ∈ ordering) → (∃ s ∈ ss, ∃ x ∈ s, pyGet inv x = .error .indexError) →
      processAll inv ordering t k ss = .error .indexError
  | [], _, _, _, _, _, _, he => by simp at he
  | s :: ss, t, k, h, hroot, hl, ho, he => by
    by_cases hs : ∃ x ∈ s, pyGet inv x = .error .indexError
    · obtain ⟨x, hx, e⟩ := hs
      rw [processAll, processRecord, walk_error inv _ _ h ⟨x, by
        rw [List.mem_filter]; exact ⟨ho s (by simp) x hx, by simpa using hx⟩, e⟩]
      rfl
    · have hv : ∀ x ∈ s, ∃ rows, pyGet inv x = .ok rows := by
        intro x hx
        rcases pyGet_cases inv x with ⟨rows, hr, -⟩ | ⟨hr, -⟩
        · exact ⟨rows, hr⟩
        · exact absurd ⟨x, hx, hr⟩ hs
      obtain ⟨t1, h1, h2, h3, h4, -⟩ := processRecord_general inv ordering t k s nRows h hroot
        (fun x hx => ho s (by simp) x hx) hv hl
      rw [processAll, h1]
      refine processAll_error inv ordering nRows ss t1 (k + 1) h2 h3 h4
        (fun u hu => ho u (by simp [hu])) ?_
      obtain ⟨u, hu, hx⟩ := he
      rcases List.mem_cons.mp hu with rfl | hu
      · exact absurd hx hs
      · exact ⟨u, hu, hx⟩

open PNode in
theorem processRecord_spec (inv : List (Finset ℕ)) (ordering : List ℤ) (t : PTrie) (rid : ℕ)
    (s : Finset ℤ) (nRows : ℕ) (h : PInv inv t.root) (hroot : t.root.vList = Finset.range nRows)
    (hs : ∀ x ∈ s, x ∈ ordering) (hv : ∀ x ∈ s, 0 ≤ x ∧ x < inv.length)
    (hl : t.newRows.length = nRows) :
    ∃ t', processRecord inv ordering t rid s = .ok t' ∧ PInv inv t'.root ∧
      t'.root.vList = Finset.range nRows ∧
      t'.newRows = t.newRows.mapIdx fun i row =>
        if ∀ x ∈ s, i ∈ inv.getD x.toNat ∅ then row ++ [rid] else row := by
  obtain ⟨n', v, h1, h2, h3, h4⟩ := walk_spec inv (ordering.filter fun x => decide (x ∈ s)) t.root h
    (by intro a ha; rw [List.mem_filter] at ha; exact hv a (by simpa using ha.2))
  refine ⟨{ root := n'
            newRows := t.newRows.mapIdx fun i row => if i ∈ v then row ++ [rid] else row }, ?_, h2,
    h3.trans hroot, ?_⟩
  · unfold processRecord
    simp only [bind, Except.bind, h1]; rfl
  · apply List.ext_getElem
    · simp
    · intro i hi1 hi2
      simp only [List.length_mapIdx] at hi1
      simp only [List.getElem_mapIdx]
      have : i ∈ v ↔ ∀ x ∈ s, i ∈ inv.getD x.toNat ∅ := by
        rw [h4, hroot, Finset.mem_range]
        simp only [List.mem_filter, decide_eq_true_eq]
        constructor
        · rintro ⟨-, k⟩ x hx; exact k x ⟨hs x hx, hx⟩
        · intro k; exact ⟨by omega, fun a ha => k a ha.2⟩
      simp only [this]

open PNode in
theorem processAll_spec (inv : List (Finset ℕ)) (ordering : List ℤ) (nRows : ℕ) :
    ∀ (ss : List (Finset ℤ)) (t : PTrie) (k : ℕ), PInv inv t.root →
      t.root.vList = Finset.range nRows → t.newRows.length = nRows →
      (∀ s ∈ ss, ∀ x ∈ s, x ∈ ordering ∧ 0 ≤ x ∧ x < inv.length) →
      ∃ t', processAll inv ordering t k ss = .ok t' ∧
        t'.newRows = t.newRows.mapIdx fun i row => row ++
          ((List.range ss.length).filter fun id =>
            decide (∀ x ∈ ss.getD id ∅, i ∈ inv.getD x.toNat ∅)).map (· + k)
  | [], t, k, _, _, _, _ => by
    refine ⟨t, rfl, ?_⟩
    apply List.ext_getElem <;> simp
  | s :: ss, t, k, h, hroot, hl, hall => by
    obtain ⟨t1, h1, h2, h3, h4⟩ := processRecord_spec inv ordering t k s nRows h hroot
      (fun x hx => (hall s (by simp) x hx).1) (fun x hx => (hall s (by simp) x hx).2) hl
    obtain ⟨t2, h5, h6⟩ := processAll_spec inv ordering nRows ss t1 (k + 1) h2 h3
      (by rw [h4]; simpa using hl) (fun u hu => hall u (by simp [hu]))
    refine ⟨t2, ?_, ?_⟩
    · rw [processAll, h1]; exact h5
    · rw [h6, h4, List.mapIdx_mapIdx]
      congr 1
      funext i row
      simp only [Function.comp]
      rw [List.length_cons, List.range_succ_eq_map, List.filter_cons]
      simp only [List.getD_cons_zero]
      have hmap : ((List.map Nat.succ (List.range ss.length)).filter fun id =>
            decide (∀ x ∈ (s :: ss).getD id ∅, i ∈ inv.getD x.toNat ∅)).map (· + k) =
          ((List.range ss.length).filter fun id =>
            decide (∀ x ∈ ss.getD id ∅, i ∈ inv.getD x.toNat ∅)).map (· + (k + 1)) := by
        rw [List.filter_map, List.map_map]
        have : (fun x => x + k) ∘ Nat.succ = fun x => x + (k + 1) := by
          funext x; simp only [Function.comp]; omega
        rw [this]
        congr 1
      by_cases hc : ∀ x ∈ s, i ∈ inv.getD x.toNat ∅
      · rw [if_pos hc, if_pos (by simpa using hc), List.map_cons, hmap]
        simp
      · rw [if_neg hc, if_neg (by simpa using hc), hmap]

theorem mem_buildIndex {Y : Cmp} (h : Y.WF) (hz : Y.NoStoredZero) {i j : ℕ} (hj : j < Y.nMinor) :
    i ∈ (buildIndex Y).getD j ∅ ↔ Y.Stored i j := by
  have hl : j < (buildIndex Y).length := by simp [buildIndex, hj]
  rw [getD_lt hl]
  simp only [buildIndex, List.getElem_map, List.getElem_range, Finset.mem_filter, Finset.mem_range]
  rw [Cmp.stored_iff_entries h]
  constructor
  · rintro ⟨-, e, he, h1, -⟩
    exact ⟨e.2, by rw [← h1]; exact he⟩
  · rintro ⟨d, hd⟩
    exact ⟨((Cmp.stored_iff_entries h i j).mpr ⟨d, hd⟩).major_lt h, (j, d), hd, rfl,
      hz d (Cmp.mem_entries_snd hd)⟩

/-! ### Trie-based assignment -/

theorem mem_intSet {s : Finset ℕ} {x : ℤ} : x ∈ intSet s ↔ ∃ j ∈ s, x = (j : ℤ) := by
  unfold intSet
  rw [Finset.mem_image]
  constructor
  · rintro ⟨j, hj, rfl⟩; exact ⟨j, hj, rfl⟩
  · rintro ⟨j, hj, rfl⟩; exact ⟨j, hj, rfl⟩

theorem subset_row_iff (Y : Cmp) (i : ℕ) (s : Finset ℤ) :
    s ⊆ intSet (pySlice Y.indices (Y.ptr i) (Y.ptr (i + 1))).toFinset ↔ RowContains Y i s := by
  constructor
  · intro h x hx
    obtain ⟨j, hj, rfl⟩ := mem_intSet.mp (h hx)
    exact ⟨j, rfl, (Cmp.mem_segIdx Y i j).mp (List.mem_toFinset.mp hj)⟩
  · intro h x hx
    obtain ⟨j, rfl, hj⟩ := h x hx
    exact mem_intSet.mpr ⟨j, List.mem_toFinset.mpr ((Cmp.mem_segIdx Y i j).mpr hj), rfl⟩

/-- `id` is the last position of its sample. -/
def LastId (space : List (Finset ℤ)) (id : ℕ) : Prop :=
  id < space.length ∧ ∀ id', id < id' → id' < space.length → space.getD id' ∅ ≠ space.getD id ∅

theorem find_reverse_range {n : ℕ} {p : ℕ → Bool} {k : ℕ} (h : k < n) (hp : p k = true)
    (hl : ∀ j, k < j → j < n → p j = false) : (List.range n).reverse.find? p = some k := by
  induction n with
  | zero => omega
  | succ n ih =>
    rw [List.range_succ, List.reverse_append, List.reverse_singleton, List.singleton_append,
      List.find?_cons]
    by_cases hk : k = n
    · subst hk; rw [hp]
    · rw [hl n (by omega) (by omega)]
      exact ih (by omega) (fun j h1 h2 => hl j h1 (by omega))

theorem sample2id_last {space : List (Finset ℤ)} {id : ℕ} (h : LastId space id) :
    sample2id space (tupleOf (space.getD id ∅)) = .ok id := by
  unfold sample2id
  rw [find_reverse_range (k := id) h.1]
  · simp [tupleOf]
  · intro j h1 h2
    simp only [tupleOf, Option.some.injEq, decide_eq_false_iff_not]
    intro hc
    exact h.2 j h1 h2 (sort_inj hc)

theorem exists_lastId {space : List (Finset ℤ)} {s : Finset ℤ} (h : s ∈ space) :
    ∃ id, LastId space id ∧ space.getD id ∅ = s := by
  obtain ⟨i, hi, rfl⟩ := List.getElem_of_mem h
  let S := (Finset.range space.length).filter fun k => space.getD k ∅ = space[i]
  have hne : S.Nonempty := ⟨i, by
    simp only [S, Finset.mem_filter, Finset.mem_range]; exact ⟨hi, getD_lt hi ∅⟩⟩
  have hm := S.max'_mem hne
  have hm' : S.max' hne < space.length ∧ space.getD (S.max' hne) ∅ = space[i] := by
    simpa only [S, Finset.mem_filter, Finset.mem_range] using hm
  refine ⟨S.max' hne, ⟨hm'.1, ?_⟩, hm'.2⟩
  intro j hj hjl hc
  have : j ∈ S := by
    simp only [S, Finset.mem_filter, Finset.mem_range]
    exact ⟨hjl, hc.trans hm'.2⟩
  exact absurd (S.le_max' j this) (by omega)

/-- The ids computed for one row. -/
theorem row_ids {space : List (Finset ℤ)} {t : TNode} (h : Holds t space) (hf : Full [] t)
    {f : Finset (Option (List ℤ)) → List (Option (List ℤ))} (hord : Traverses f) (q : Finset ℤ) :
    ∃ ids, (f (trieSearchSubsets t q)).mapM (sample2id space) = .ok ids ∧ ids.Nodup ∧
      ∀ id, id ∈ ids ↔ LastId space id ∧ space.getD id ∅ ≠ ∅ ∧ space.getD id ∅ ⊆ q := by
  have hex : ∀ x ∈ f (trieSearchSubsets t q), ∃ id, LastId space id ∧ space.getD id ∅ ≠ ∅ ∧
      space.getD id ∅ ⊆ q ∧ x = tupleOf (space.getD id ∅) := by
    intro x hx
    rw [(hord _).2, holds_subsets h hf] at hx
    obtain ⟨s, hs, h1, h2, h3⟩ := hx
    obtain ⟨id, h4, h5⟩ := exists_lastId hs
    exact ⟨id, h4, by rw [h5]; exact h1, by rw [h5]; exact h2, by rw [h5]; exact h3⟩
  choose! g hg using hex
  refine ⟨(f (trieSearchSubsets t q)).map g, ?_, ?_, ?_⟩
  · rw [mapM_eq_ok_iff, List.forall₂_map_right_iff, List.forall₂_same]
    intro x hx
    obtain ⟨h1, -, -, h2⟩ := hg x hx
    have := sample2id_last h1
    rwa [← h2] at this
  · apply List.Nodup.map_on _ (hord _).1
    intro x hx y hy hxy
    rw [(hg x hx).2.2.2, (hg y hy).2.2.2, hxy]
  · intro id
    rw [List.mem_map]
    constructor
    · rintro ⟨x, hx, rfl⟩
      exact ⟨(hg x hx).1, (hg x hx).2.1, (hg x hx).2.2.1⟩
    · rintro ⟨h1, h2, h3⟩
      have hmem : space.getD id ∅ ∈ space := by
        rw [getD_lt h1.1]; exact List.getElem_mem _
      have hx : tupleOf (space.getD id ∅) ∈ f (trieSearchSubsets t q) := by
        rw [(hord _).2, holds_subsets h hf]
        exact ⟨_, hmem, h2, h3, rfl⟩
      refine ⟨_, hx, ?_⟩
      obtain ⟨k1, -, -, k2⟩ := hg _ hx
      have hs : space.getD id ∅ = space.getD (g (tupleOf (space.getD id ∅))) ∅ := by
        simp only [tupleOf, Option.some.injEq] at k2
        exact sort_inj k2
      by_contra hne
      rcases Nat.lt_or_gt_of_ne hne with hlt | hgt
      · exact k1.2 _ hlt h1.1 hs
      · exact h1.2 _ hgt k1.1 hs.symm

end Verif
