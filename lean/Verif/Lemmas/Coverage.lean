import Verif.Lemmas.Predict

namespace Verif
open Cmp

theorem mem_labelCells {Y : Cmp} (hY : Y.WF) (c : ℕ × ℤ) :
    c ∈ labelCells Y ↔ 0 ≤ c.2 ∧ Y.Stored c.1 c.2.toNat := by
  obtain ⟨i, l⟩ := c
  simp only [labelCells, Finset.mem_biUnion, Finset.mem_range, Finset.mem_image, List.mem_toFinset,
    mem_segIdx, Prod.mk.injEq]
  constructor
  · rintro ⟨i', _, j, hs, rfl, rfl⟩
    exact ⟨by omega, by simpa using hs⟩
  · rintro ⟨h0, hs⟩
    exact ⟨i, hs.major_lt hY, l.toNat, hs, rfl, by simp [h0]⟩

theorem sum_ptr {m : Cmp} (h : m.WF) : ∀ n ≤ m.nMajor,
    ∑ i ∈ Finset.range n, (m.segIdx i).length = m.ptr n := by
  intro n
  induction n with
  | zero => intro _; simp [h.ptr_zero]
  | succ n ih =>
    intro hn
    rw [Finset.sum_range_succ, ih (by omega)]
    have h1 := h.ptr_mono n (by omega)
    have h2 := h.ptr_le (i := n + 1) hn
    simp only [segIdx, pySlice, List.length_take, List.length_drop]
    omega

theorem card_labelCells {Y : Cmp} (hY : Y.Binary) : (labelCells Y).card = Y.nnz := by
  rw [labelCells, Finset.card_biUnion]
  · rw [nnz, ← sum_ptr hY.toWF Y.nMajor le_rfl]
    apply Finset.sum_congr rfl
    intro i _
    rw [Finset.card_image_of_injective, List.toFinset_card_of_nodup (hY.segIdx_nodup i)]
    intro a b hab
    simpa using hab
  · intro i _ j _ hij
    simp only [Function.onFun, Finset.disjoint_left, Finset.mem_image, not_exists, not_and]
    rintro c ⟨a, _, rfl⟩ b _ hc
    exact hij (by simpa using (congrArg Prod.fst hc).symm)

/-- What binding gives, in terms of the CSR training matrices. -/
theorem BoundTo.spec {X Y : Cmp} (hX : X.WF) (hY : Y.WF) (hn : X.nMajor = Y.nMajor) {b : BRule}
    (hb : BoundTo X Y b) :
    b.head ≠ [] ∧ b.tail ≠ [] ∧ (∀ f ∈ b.head, 0 ≤ f ∧ f < X.nMinor) ∧
      (∀ l ∈ b.tail, 0 ≤ l ∧ l < Y.nMinor) ∧
      (∀ i, i ∈ b.support ↔ Fires X b.toRule i ∧ ∀ l ∈ b.tail, 0 ≤ l ∧ Y.Stored i l.toNat) ∧
      (∀ i, i ∈ b.headSupport ↔ Fires X b.toRule i) ∧ b.headSupport.Nonempty := by
  obtain ⟨⟨head, tail, hbind⟩, h0, -⟩ := hb
  have ht := bindDataset_toRule hbind
  have h0' : ∀ l ∈ (Rule.new head tail).tail, 0 ≤ l := by rw [← ht]; exact h0
  have hN : X.flip.nMinor = Y.flip.nMinor := by simpa using hn
  have hX' := wf_flip X
  have hY' := wf_flip Y
  obtain ⟨h1, h2, h3, h4, h5⟩ := bindDataset_inv hX' hY' h0' hbind
  have he := bindDataset_eq hX' hY' hN h0' hbind
  have rowX : ∀ (items : List ℤ) i, RowHas X.flip items i ↔ ∀ f ∈ items, 0 ≤ f ∧ X.Stored i f.toNat := by
    intro items i; simp only [RowHas, stored_flip hX]
  have rowY : ∀ (items : List ℤ) i, RowHas Y.flip items i ↔ ∀ f ∈ items, 0 ≤ f ∧ Y.Stored i f.toNat := by
    intro items i; simp only [RowHas, stored_flip hY]
  have hsup : ∀ i, i ∈ b.support ↔ Fires X b.toRule i ∧ ∀ l ∈ b.tail, 0 ≤ l ∧ Y.Stored i l.toNat := by
    intro i
    conv_lhs => rw [he]
    rw [boundRule_mem_support hX' h1, rowX, rowY, ← ht, Fires]
  have hhs : ∀ i, i ∈ b.headSupport ↔ Fires X b.toRule i := by
    intro i
    conv_lhs => rw [he]
    rw [boundRule_mem_headSupport hX' h1, rowX, ← ht, Fires]
  rw [← ht] at h1 h2 h3 h4 h5
  refine ⟨h1, h2, by simpa using h3, by simpa using h4, hsup, hhs, ?_⟩
  obtain ⟨i, hi⟩ := h5
  exact ⟨i, (hhs i).mpr ((rowX _ _).mp hi)⟩

theorem BoundTo.area_subset {X Y : Cmp} (hX : X.WF) (hY : Y.WF) (hn : X.nMajor = Y.nMajor) {b : BRule}
    (hb : BoundTo X Y b) : area b ⊆ labelCells Y := by
  intro c hc
  rw [area, Finset.mem_product, List.mem_toFinset] at hc
  rw [mem_labelCells hY]
  exact (((hb.spec hX hY hn).2.2.2.2.1 c.1).mp hc.1).2 c.2 hc.2

theorem covered_subset {X Y : Cmp} (hX : X.WF) (hY : Y.WF) (hn : X.nMajor = Y.nMajor)
    {rs : List BRule} (hb : ∀ b ∈ rs, BoundTo X Y b) : covered rs ⊆ labelCells Y := by
  intro c hc
  rw [mem_covered] at hc
  obtain ⟨r, hr, hc⟩ := hc
  exact (hb r hr).area_subset hX hY hn hc

theorem mem_cellsOf (r : BRule) (c : ℕ × ℤ) : c ∈ cellsOf r ↔ c ∈ area r := by
  obtain ⟨i, l⟩ := c
  simp [cellsOf, area, List.product]

theorem mem_flatMap_cellsOf (rs : List BRule) (c : ℕ × ℤ) :
    c ∈ rs.flatMap cellsOf ↔ c ∈ covered rs := by
  simp [List.mem_flatMap, mem_cellsOf, mem_covered]

theorem zeroCells_ok (n L : ℕ) : ∀ (cells : List (ℕ × ℤ)) (Z : ℕ → ℕ → ℤ),
    (∀ c ∈ cells, c.1 < n ∧ 0 ≤ c.2 ∧ c.2 < L) →
    cells.foldlM (zeroCell n L) Z =
      .ok (fun a b => if (a, (b : ℤ)) ∈ cells then 0 else Z a b)
  | [], Z, _ => by simp [pure, Except.pure]
  | c :: cells, Z, h => by
    obtain ⟨i, l⟩ := c
    obtain ⟨h1, h2, h3⟩ := h (i, l) (by simp)
    simp only at h1 h2 h3
    have e1 : pyIndex n (i : ℤ) = some i := pyIndex_some_iff.mpr ⟨h1, Or.inl rfl⟩
    have e2 : pyIndex L l = some l.toNat := pyIndex_some_iff.mpr ⟨by omega, Or.inl (by omega)⟩
    rw [List.foldlM_cons, zeroCell]
    simp only [e1, e2, bind, Except.bind]
    rw [zeroCells_ok n L cells _ (fun c hc => h c (by simp [hc]))]
    congr 1
    funext a b
    simp only [List.mem_cons, Prod.mk.injEq]
    by_cases hm : (a, (b : ℤ)) ∈ cells
    · simp [hm]
    · simp only [hm, if_false, or_false]
      by_cases ha : a = i ∧ b = l.toNat
      · rw [if_pos ha, if_pos ⟨ha.1, by omega⟩]
      · rw [if_neg ha, if_neg (by rintro ⟨rfl, rfl⟩; exact ha ⟨rfl, by simp⟩)]

theorem csrCell_eq {Y : Cmp} (hY : Y.Binary) {i j : ℕ} (hi : i < Y.nMajor) :
    csrCell Y i j = if Y.Stored i j then 1 else 0 := by
  rw [csrCell, ← val_eq_sum_entries hY.toWF i j hi, hY.val_eq i j hi]

theorem list_range_sum (n : ℕ) (f : ℕ → ℤ) : ((List.range n).map f).sum = ∑ i ∈ Finset.range n, f i := by
  rw [Finset.sum_range]
  rw [← List.sum_ofFn, List.ofFn_eq_map]
  congr 1
  apply List.ext_getElem <;> simp

/-- Cells not covered, counted by the double loop. -/
theorem total_uncovered {Y : Cmp} (hY : Y.Binary) (S : Finset (ℕ × ℤ)) :
    ((List.range Y.nMajor).map fun i => ((List.range Y.nMinor).map fun j : ℕ =>
      if (i, (j : ℤ)) ∈ S then 0 else csrCell Y i j).sum).sum = ((labelCells Y \ S).card : ℤ) := by
  have hinj : Set.InjOn (fun p : ℕ × ℕ => (p.1, (p.2 : ℤ)))
      ((Finset.range Y.nMajor ×ˢ Finset.range Y.nMinor).filter
        fun p => Y.Stored p.1 p.2 ∧ (p.1, (p.2 : ℤ)) ∉ S : Finset (ℕ × ℕ)) := by
    rintro ⟨a, b⟩ _ ⟨c, d⟩ _ h
    simpa using h
  have himg : labelCells Y \ S = ((Finset.range Y.nMajor ×ˢ Finset.range Y.nMinor).filter
        fun p => Y.Stored p.1 p.2 ∧ (p.1, (p.2 : ℤ)) ∉ S).image (fun p : ℕ × ℕ => (p.1, (p.2 : ℤ))) := by
    ext ⟨i, l⟩
    simp only [Finset.mem_sdiff, mem_labelCells hY.toWF, Finset.mem_image, Finset.mem_filter,
      Finset.mem_product, Finset.mem_range, Prod.exists, Prod.mk.injEq]
    constructor
    · rintro ⟨⟨h0, hs⟩, hS⟩
      refine ⟨i, l.toNat, ⟨⟨hs.major_lt hY.toWF, hs.minor_lt hY.toWF⟩, hs, ?_⟩, rfl, by omega⟩
      rwa [Int.toNat_of_nonneg h0]
    · rintro ⟨a, b, ⟨_, hs, hS⟩, rfl, rfl⟩
      exact ⟨⟨by omega, by simpa using hs⟩, hS⟩
  rw [himg, Finset.card_image_of_injOn hinj, list_range_sum, Finset.card_filter, Finset.sum_product]
  push_cast
  apply Finset.sum_congr rfl
  intro i hi
  rw [list_range_sum]
  apply Finset.sum_congr rfl
  intro j hj
  rw [csrCell_eq hY (Finset.mem_range.mp hi)]
  by_cases h1 : (i, (j : ℤ)) ∈ S <;> by_cases h2 : Y.Stored i j <;> simp [h1, h2]

theorem coverageRatio_eq {Y : Cmp} (hY : Y.Binary) (h0 : 0 < Y.nnz) {rs : List BRule}
    (hs : covered rs ⊆ labelCells Y) :
    coverageRatio Y rs = .ok (((covered rs).card : ℚ) / (Y.nnz : ℚ)) := by
  have hr : ∀ c ∈ rs.flatMap cellsOf, c.1 < Y.nMajor ∧ 0 ≤ c.2 ∧ c.2 < Y.nMinor := by
    intro c hc
    rw [mem_flatMap_cellsOf] at hc
    have := (mem_labelCells hY.toWF c).mp (hs hc)
    have h1 := this.2.minor_lt hY.toWF
    exact ⟨this.2.major_lt hY.toWF, this.1, by omega⟩
  have hz := zeroCells_ok Y.nMajor Y.nMinor (rs.flatMap cellsOf) (csrCell Y) hr
  simp only [mem_flatMap_cellsOf] at hz
  have ht := total_uncovered hY (covered rs)
  simp only [coverageRatio, hz, bind, Except.bind]
  rw [ht, pyDiv, if_neg (by exact_mod_cast h0.ne')]
  simp only [pure, Except.pure]
  congr 1
  rw [Finset.card_sdiff_of_subset hs, card_labelCells hY]
  have hle : (covered rs).card ≤ Y.nnz := card_labelCells hY ▸ Finset.card_le_card hs
  have : (Y.nnz : ℚ) ≠ 0 := by exact_mod_cast h0.ne'
  push_cast [Nat.cast_sub hle]
  field_simp
  ring

theorem covered_append (rs rs' : List BRule) : covered (rs ++ rs') = covered rs ∪ covered rs' := by
  ext c
  simp only [Finset.mem_union, mem_covered, List.mem_append]
  constructor
  · rintro ⟨r, h | h, hc⟩
    · exact Or.inl ⟨r, h, hc⟩
    · exact Or.inr ⟨r, h, hc⟩
  · rintro (⟨r, h, hc⟩ | ⟨r, h, hc⟩)
    · exact ⟨r, Or.inl h, hc⟩
    · exact ⟨r, Or.inr h, hc⟩

theorem covered_singleton (r : BRule) : covered [r] = area r := by simp [covered]

theorem card_covered_snoc (rs : List BRule) (r : BRule) :
    (covered (rs ++ [r])).card = (covered rs).card + r.marginalCoverage rs := by
  rw [covered_append, covered_singleton, marginalCoverage_eq, ← Finset.union_sdiff_self_eq_union,
    Finset.card_union_of_disjoint Finset.disjoint_sdiff]

theorem sum_marginal (rs : List BRule) : ∀ n ≤ rs.length,
    ∑ i ∈ Finset.range n, (if h : i < rs.length then (rs[i]).marginalCoverage (rs.take i) else 0)
      = (covered (rs.take n)).card := by
  intro n
  induction n with
  | zero => intro _; simp [covered]
  | succ n ih =>
    intro hn
    rw [Finset.sum_range_succ, ih (by omega), dif_pos (by omega), List.take_add_one,
      List.getElem?_eq_getElem (by omega)]
    simp only [Option.toList_some]
    rw [card_covered_snoc]

end Verif
