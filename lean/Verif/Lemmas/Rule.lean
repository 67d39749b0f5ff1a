import Verif.Lemmas.Sparse
import Verif.Spec.Rule
import Mathlib.Analysis.SpecialFunctions.Log.Basic

namespace Verif

instance (m : Cmp) (i j : ℕ) : Decidable (m.Stored i j) := decidable_of_iff _ (Cmp.mem_segIdx m i j)
instance (m : Cmp) (items : List ℤ) (i : ℕ) : Decidable (RowHas m items i) := by
  unfold RowHas; infer_instance

theorem Rule.new_head_ne_nil {head tail : List ℤ} : (Rule.new head tail).head ≠ [] ↔ head ≠ [] := by
  rw [ne_eq, ne_eq, not_iff_not, ← List.length_eq_zero_iff, ← List.length_eq_zero_iff]
  simp [Rule.new]

theorem Rule.new_tail_ne_nil {head tail : List ℤ} : (Rule.new head tail).tail ≠ [] ↔ tail ≠ [] := by
  rw [ne_eq, ne_eq, not_iff_not, ← List.length_eq_zero_iff, ← List.length_eq_zero_iff]
  simp [Rule.new]

theorem Rule.mem_new_head (head tail : List ℤ) (x : ℤ) : x ∈ (Rule.new head tail).head ↔ x ∈ head :=
  (List.mergeSort_perm _ _).mem_iff

theorem Rule.mem_new_tail (head tail : List ℤ) (x : ℤ) : x ∈ (Rule.new head tail).tail ↔ x ∈ tail :=
  (List.mergeSort_perm _ _).mem_iff

theorem checkHead_ok {D : ℕ} : ∀ {l : List ℤ}, (∀ h ∈ l, 0 ≤ h ∧ h < D) → checkHead D l = .ok ()
  | [], _ => rfl
  | a :: l, h => by
    have := h a (by simp)
    rw [checkHead, if_neg (by omega)]
    exact checkHead_ok (fun x hx => h x (by simp [hx]))

theorem checkHead_error {D : ℕ} : ∀ {l : List ℤ}, (∃ h ∈ l, h < 0 ∨ (D : ℤ) ≤ h) →
    checkHead D l = .error .valueError
  | [], h => by simp at h
  | a :: l, h => by
    rw [checkHead]
    split
    · rfl
    · rename_i hna
      obtain ⟨x, hx, hx'⟩ := h
      rcases List.mem_cons.mp hx with rfl | hx
      · exact absurd hx' hna
      · exact checkHead_error ⟨x, hx, hx'⟩

theorem map_toNat_cast {l : List ℤ} (h : ∀ x ∈ l, 0 ≤ x) :
    (l.map Int.toNat).map (fun c : ℕ => (c : ℤ)) = l := by
  rw [List.map_map]
  conv_rhs => rw [← List.map_id l]
  apply List.map_congr_left
  intro x hx
  simp [h x hx]

theorem rowHas_iff {m : Cmp} {items : List ℤ} (h0 : ∀ x ∈ items, 0 ≤ x) (i : ℕ) :
    RowHas m items i ↔ ∀ c ∈ items.map Int.toNat, i ∈ m.segIdx c := by
  simp only [RowHas, List.mem_map, forall_exists_index, and_imp, forall_apply_eq_imp_iff₂,
    Cmp.mem_segIdx]
  exact ⟨fun h c hc => (h c hc).2, fun h c hc => ⟨h0 c hc, h c hc⟩⟩

/-- Outcome of `conjunctive_collapse_v2` on non-negative in-range columns. -/
theorem collapse_int_ok {m : Cmp} (h : m.WF) {items : List ℤ} (hne : items ≠ [])
    (hr : ∀ x ∈ items, 0 ≤ x ∧ x < m.nMajor) :
    conjunctiveCollapseV2 m items =
      .ok ((List.range m.nMinor).map fun i => decide (RowHas m items i)) := by
  have h0 : ∀ x ∈ items, 0 ≤ x := fun x hx => (hr x hx).1
  conv_lhs => rw [← map_toNat_cast h0]
  rw [conjunctiveCollapseV2_ok h (by simpa using hne)]
  · congr 1
    apply List.map_congr_left
    intro i _
    rw [decide_eq_decide]
    exact (rowHas_iff h0 i).symm
  · intro c hc
    obtain ⟨x, hx, rfl⟩ := List.mem_map.mp hc
    have := hr x hx
    omega

theorem collapse_int_ge {m : Cmp} (h : m.WF) {items : List ℤ} (h0 : ∀ x ∈ items, 0 ≤ x)
    (hge : ∃ x ∈ items, (m.nMajor : ℤ) ≤ x) :
    conjunctiveCollapseV2 m items = .error .indexError := by
  conv_lhs => rw [← map_toNat_cast h0]
  apply conjunctiveCollapseV2_ge h
  obtain ⟨x, hx, hxge⟩ := hge
  exact ⟨x.toNat, List.mem_map_of_mem hx, by have := h0 x hx; omega⟩

theorem RowHas.lt {m : Cmp} (h : m.WF) {items : List ℤ} (hne : items ≠ []) {i : ℕ}
    (hi : RowHas m items i) : i < m.nMinor := by
  obtain ⟨x, hx⟩ := List.exists_mem_of_ne_nil items hne
  exact (hi x hx).2.minor_lt h

/-- The object `bind_dataset` builds when nothing is rejected. -/
def boundRule (r : Rule) (X Y : Cmp) : BRule where
  head := r.head
  tail := r.tail
  N := X.nMinor
  D := X.nMajor
  L := Y.nMajor
  tailVec := (List.range Y.nMinor).map fun i => decide (RowHas Y r.tail i)
  headVec := (List.range X.nMinor).map fun i => decide (RowHas X r.head i)
  numPositives := ((Finset.range Y.nMinor).filter (fun i => RowHas Y r.tail i)).card
  headSupport := (Finset.range X.nMinor).filter (fun i => RowHas X r.head i)
  tailSupport := (Finset.range Y.nMinor).filter (fun i => RowHas Y r.tail i)
  support := (Finset.range X.nMinor).filter (fun i => RowHas X r.head i ∧ RowHas Y r.tail i)

theorem countP_map_range (n : ℕ) (p : ℕ → Bool) :
    ((List.range n).map p).countP (· = true) =
      ((Finset.range n).filter (fun i => p i = true)).card := by
  rw [List.countP_map, List.countP_eq_length_filter, ← List.toFinset_card_of_nodup
    (List.nodup_range.filter _)]
  congr 1
  ext i
  simp

theorem bindDataset_ok {r : Rule} {X Y : Cmp} (hX : X.WF) (hY : Y.WF) (hN : X.nMinor = Y.nMinor)
    (hh : r.head ≠ []) (ht : r.tail ≠ []) (hhr : ∀ x ∈ r.head, 0 ≤ x ∧ x < X.nMajor)
    (htr : ∀ x ∈ r.tail, 0 ≤ x ∧ x < Y.nMajor) (hs : ∃ i, RowHas X r.head i) :
    bindDataset r X Y = .ok (boundRule r X Y) := by
  unfold bindDataset
  rw [checkHead_ok hhr, collapse_int_ok hY ht htr, collapse_int_ok hX hh hhr]
  simp only [bind, Except.bind, pure, Except.pure, binaryVectorToSet_map_range, decide_eq_true_eq]
  rw [if_neg]
  · simp only [logicalAnd, List.length_map, List.length_range, hN, if_true]
    have : List.zipWith (· && ·) ((List.range Y.nMinor).map fun i => decide (RowHas X r.head i))
        ((List.range Y.nMinor).map fun i => decide (RowHas Y r.tail i)) =
        (List.range Y.nMinor).map fun i => decide (RowHas X r.head i ∧ RowHas Y r.tail i) := by
      rw [List.zipWith_map, List.zipWith_self]
      simp
    rw [this, binaryVectorToSet_map_range, countP_map_range]
    simp [boundRule, hN]
  · rw [Finset.card_eq_zero, Finset.filter_eq_empty_iff]
    push Not
    obtain ⟨i, hi⟩ := hs
    exact ⟨i, by simpa using hi.lt hX hh, hi⟩

theorem bindDataset_no_support {r : Rule} {X Y : Cmp} (hX : X.WF) (hY : Y.WF)
    (hh : r.head ≠ []) (ht : r.tail ≠ []) (hhr : ∀ x ∈ r.head, 0 ≤ x ∧ x < X.nMajor)
    (htr : ∀ x ∈ r.tail, 0 ≤ x ∧ x < Y.nMajor) (hs : ¬ ∃ i, RowHas X r.head i) :
    bindDataset r X Y = .error .valueError := by
  unfold bindDataset
  rw [checkHead_ok hhr, collapse_int_ok hY ht htr, collapse_int_ok hX hh hhr]
  simp only [bind, Except.bind, binaryVectorToSet_map_range, decide_eq_true_eq]
  rw [if_pos]
  rw [Finset.card_eq_zero, Finset.filter_eq_empty_iff]
  intro i _ hi
  exact hs ⟨i, hi⟩

/-- Inversion: a successful `bind_dataset` met all the conditions. -/
theorem bindDataset_inv {r : Rule} {X Y : Cmp} (hX : X.WF) (hY : Y.WF)
    (h0 : ∀ x ∈ r.tail, 0 ≤ x) {b : BRule} (hb : bindDataset r X Y = .ok b) :
    r.head ≠ [] ∧ r.tail ≠ [] ∧ (∀ x ∈ r.head, 0 ≤ x ∧ x < X.nMajor) ∧
      (∀ x ∈ r.tail, 0 ≤ x ∧ x < Y.nMajor) ∧ ∃ i, RowHas X r.head i := by
  have hhr : ∀ x ∈ r.head, 0 ≤ x ∧ x < X.nMajor := by
    by_contra hc
    push Not at hc
    obtain ⟨x, hx, hx'⟩ := hc
    have : checkHead X.nMajor r.head = .error .valueError :=
      checkHead_error ⟨x, hx, by by_cases h : 0 ≤ x; exact Or.inr (hx' h); left; omega⟩
    simp [bindDataset, this, bind, Except.bind] at hb
  have ht : r.tail ≠ [] := by
    intro hc
    simp [bindDataset, checkHead_ok hhr, hc, conjunctiveCollapseV2, bind, Except.bind] at hb
  have htr : ∀ x ∈ r.tail, 0 ≤ x ∧ x < Y.nMajor := by
    by_contra hc
    push Not at hc
    obtain ⟨x, hx, hx'⟩ := hc
    have := collapse_int_ge hY h0 ⟨x, hx, hx' (h0 x hx)⟩
    simp [bindDataset, checkHead_ok hhr, this, bind, Except.bind] at hb
  have hh : r.head ≠ [] := by
    intro hc
    have he : conjunctiveCollapseV2 X [] = .error .assertionError := rfl
    simp [bindDataset, hc, checkHead, collapse_int_ok hY ht htr, he, bind, Except.bind] at hb
  refine ⟨hh, ht, hhr, htr, ?_⟩
  by_contra hs
  rw [bindDataset_no_support hX hY hh ht hhr htr hs] at hb
  cases hb

theorem bindDataset_eq {r : Rule} {X Y : Cmp} (hX : X.WF) (hY : Y.WF) (hN : X.nMinor = Y.nMinor)
    (h0 : ∀ x ∈ r.tail, 0 ≤ x) {b : BRule} (hb : bindDataset r X Y = .ok b) :
    b = boundRule r X Y := by
  obtain ⟨h1, h2, h3, h4, h5⟩ := bindDataset_inv hX hY h0 hb
  rw [bindDataset_ok hX hY hN h1 h2 h3 h4 h5] at hb
  exact (Except.ok.inj hb).symm

theorem bindDataset_toRule {r : Rule} {X Y : Cmp} {b : BRule} (hb : bindDataset r X Y = .ok b) :
    b.toRule = r := by
  unfold bindDataset at hb
  simp only [bind, Except.bind] at hb
  repeat' split at hb
  all_goals first
    | (cases hb; done)
    | (simp only [pure, Except.pure, Except.ok.injEq] at hb; subst hb; rfl)

/-! ### supports -/

theorem boundRule_mem_support {r : Rule} {X Y : Cmp} (hX : X.WF) (hh : r.head ≠ []) (i : ℕ) :
    i ∈ (boundRule r X Y).support ↔ RowHas X r.head i ∧ RowHas Y r.tail i := by
  simp only [boundRule, Finset.mem_filter, Finset.mem_range, and_iff_right_iff_imp]
  exact fun h => h.1.lt hX hh

theorem boundRule_mem_headSupport {r : Rule} {X Y : Cmp} (hX : X.WF) (hh : r.head ≠ []) (i : ℕ) :
    i ∈ (boundRule r X Y).headSupport ↔ RowHas X r.head i := by
  simp only [boundRule, Finset.mem_filter, Finset.mem_range, and_iff_right_iff_imp]
  exact fun h => h.lt hX hh

theorem boundRule_mem_tailSupport {r : Rule} {X Y : Cmp} (hY : Y.WF) (ht : r.tail ≠ []) (i : ℕ) :
    i ∈ (boundRule r X Y).tailSupport ↔ RowHas Y r.tail i := by
  simp only [boundRule, Finset.mem_filter, Finset.mem_range, and_iff_right_iff_imp]
  exact fun h => h.lt hY ht

/-! ### label areas -/

theorem labelOccs_eq_area (r : BRule) : r.labelOccs = area r := rfl

theorem card_area (r : BRule) (h : r.tail.Nodup) : (area r).card = r.support.card * r.tail.length := by
  rw [area, Finset.card_product, List.toFinset_card_of_nodup h]

theorem area_inter (r1 r2 : BRule) :
    area r1 ∩ area r2 = (r1.support ∩ r2.support) ×ˢ (r1.tail.toFinset ∩ r2.tail.toFinset) := by
  rw [area, area, Finset.product_inter_product]

theorem foldl_sdiff (refs : List BRule) : ∀ s : Finset (ℕ × ℤ),
    refs.foldl (fun cur ref => cur \ ref.labelOccs) s = s \ covered refs := by
  induction refs with
  | nil => intro s; simp [covered]
  | cons r rs ih =>
    intro s
    rw [List.foldl_cons, ih]
    have : covered (r :: rs) = area r ∪ covered rs := rfl
    rw [this, labelOccs_eq_area]
    ext c
    simp only [Finset.mem_sdiff, Finset.mem_union]
    tauto

theorem marginalCoverage_eq (r : BRule) (refs : List BRule) :
    r.marginalCoverage refs = (area r \ covered refs).card := by
  rw [BRule.marginalCoverage, foldl_sdiff, labelOccs_eq_area]

theorem jaccardDistance_eq (r1 r2 : BRule) (h1 : r1.tail.Nodup) (h2 : r2.tail.Nodup) :
    jaccardDistance r1 r2 =
      if area r1 ∪ area r2 = ∅ then .error .zeroDivisionError
      else .ok (1 - ((area r1 ∩ area r2).card : ℚ) / ((area r1 ∪ area r2).card : ℚ)) := by
  have hint : ((r1.support ∩ r2.support).card * (r1.tail.toFinset ∩ r2.tail.toFinset).card : ℤ)
      = ((area r1 ∩ area r2).card : ℤ) := by
    rw [area_inter, Finset.card_product]; push_cast; rfl
  have hun : (r1.support.card * r1.tail.length + r2.support.card * r2.tail.length : ℤ)
      - ((area r1 ∩ area r2).card : ℤ) = ((area r1 ∪ area r2).card : ℤ) := by
    have := Finset.card_union_add_card_inter (area r1) (area r2)
    rw [card_area r1 h1, card_area r2 h2] at this
    have : ((area r1 ∪ area r2).card : ℤ) + ((area r1 ∩ area r2).card : ℤ) =
      r1.support.card * r1.tail.length + r2.support.card * r2.tail.length := by exact_mod_cast this
    omega
  unfold jaccardDistance
  simp only [hint, hun, pyDiv]
  by_cases h0 : area r1 ∪ area r2 = ∅
  · simp [h0, bind, Except.bind]
  · have : ((area r1 ∪ area r2).card : ℤ) ≠ 0 := by
      simpa [Finset.card_eq_zero] using h0
    rw [if_neg this, if_neg h0]
    simp [bind, Except.bind, pure, Except.pure]

end Verif
