import Verif.Spec.Sparse
import Verif.Lemmas.Py
import Mathlib.Algebra.BigOperators.Group.List.Lemmas
import Mathlib.Algebra.BigOperators.Intervals

namespace Verif
namespace Cmp

theorem mem_segIdx (m : Cmp) (i j : ℕ) : j ∈ m.segIdx i ↔ m.Stored i j := mem_pySlice

theorem Stored.minor_lt {m : Cmp} (h : m.WF) {i j : ℕ} (hs : m.Stored i j) : j < m.nMinor := by
  obtain ⟨k, _, _, hk⟩ := hs
  exact h.idx_lt j (List.mem_of_getElem? hk)

theorem WF.ptr_ge {m : Cmp} (h : m.WF) (i : ℕ) (hi : m.nMajor < i) : m.ptr i = 0 := by
  unfold ptr
  rw [List.getD_eq_getElem?_getD, List.getElem?_eq_none (by rw [h.len_indptr]; omega)]; rfl

theorem Stored.major_lt {m : Cmp} (h : m.WF) {i j : ℕ} (hs : m.Stored i j) : i < m.nMajor := by
  obtain ⟨k, h1, h2, hk⟩ := hs
  by_contra hge
  rw [h.ptr_ge (i := i + 1) (by omega)] at h2
  omega

theorem WF.ptr_le {m : Cmp} (h : m.WF) : ∀ {i : ℕ}, i ≤ m.nMajor → m.ptr i ≤ m.indices.length := by
  have : ∀ d i, i + d = m.nMajor → m.ptr i ≤ m.indices.length := by
    intro d
    induction d with
    | zero => intro i hi; rw [← h.ptr_last]; simp at hi; rw [hi]
    | succ d ih =>
      intro i hi
      exact (h.ptr_mono i (by omega)).trans (ih (i + 1) (by omega))
  intro i hi
  exact this (m.nMajor - i) i (by omega)

/-! ### `ofLines` -/

theorem ptr_ofLines (n : ℕ) (lines : List (List (ℕ × ℤ))) (i : ℕ) (hi : i ≤ lines.length) :
    (ofLines n lines).ptr i = ((lines.map List.length).take i).sum := by
  unfold ptr ofLines
  simp only
  rw [List.getD_eq_getElem?_getD, List.getElem?_scanl, if_pos (by simpa using hi)]
  simp [List.sum_eq_foldl]

theorem slice_flatten {α : Type} (L : List (List α)) (i : ℕ) (h : i < L.length) :
    pySlice L.flatten ((L.map List.length).take i).sum ((L.map List.length).take (i + 1)).sum
      = L[i] := by
  rw [← List.drop_take_succ_flatten_eq_getElem L i h, pySlice, List.drop_take]

theorem pySlice_map {α β : Type} (f : α → β) (l : List α) (a b : ℕ) :
    pySlice (l.map f) a b = (pySlice l a b).map f := by
  simp [pySlice, List.map_drop, List.map_take]

theorem segIdx_ofLines (n : ℕ) (lines : List (List (ℕ × ℤ))) (i : ℕ) (hi : i < lines.length) :
    (ofLines n lines).segIdx i = lines[i].map Prod.fst := by
  rw [segIdx, ptr_ofLines _ _ _ hi.le, ptr_ofLines _ _ _ hi]
  show pySlice (lines.flatten.map Prod.fst) _ _ = _
  rw [pySlice_map, slice_flatten _ _ hi]

theorem segData_ofLines (n : ℕ) (lines : List (List (ℕ × ℤ))) (i : ℕ) (hi : i < lines.length) :
    (ofLines n lines).segData i = lines[i].map Prod.snd := by
  rw [segData, ptr_ofLines _ _ _ hi.le, ptr_ofLines _ _ _ hi]
  show pySlice (lines.flatten.map Prod.snd) _ _ = _
  rw [pySlice_map, slice_flatten _ _ hi]

theorem zip_fst_snd {α β : Type} (l : List (α × β)) : (l.map Prod.fst).zip (l.map Prod.snd) = l := by
  induction l with
  | nil => rfl
  | cons a l ih => simp [ih]

theorem entries_ofLines (n : ℕ) (lines : List (List (ℕ × ℤ))) (i : ℕ) (hi : i < lines.length) :
    (ofLines n lines).entries i = lines[i] := by
  rw [entries, segIdx_ofLines _ _ _ hi, segData_ofLines _ _ _ hi, zip_fst_snd]

theorem wf_ofLines (n : ℕ) (lines : List (List (ℕ × ℤ)))
    (h : ∀ l ∈ lines, ∀ e ∈ l, e.1 < n) : (ofLines n lines).WF where
  len_indptr := by simp [ofLines]
  ptr_zero := by rw [ptr_ofLines _ _ _ (Nat.zero_le _)]; simp
  ptr_mono := by
    intro i hi
    have hi' : i < lines.length := hi
    rw [ptr_ofLines _ _ _ hi'.le, ptr_ofLines _ _ _ hi', List.take_add_one, List.sum_append]
    omega
  ptr_last := by
    show (ofLines n lines).ptr lines.length = _
    rw [ptr_ofLines _ _ _ le_rfl]
    simp [ofLines, List.length_flatten, List.take_of_length_le, Function.comp_def]
  len_data := by simp [ofLines, Function.comp_def]
  idx_lt := by
    intro j hj
    simp only [ofLines, List.mem_map, List.mem_flatten] at hj
    obtain ⟨e, ⟨l, hl, he⟩, rfl⟩ := hj
    exact h l hl e he

theorem stored_ofLines (n : ℕ) (lines : List (List (ℕ × ℤ))) (i j : ℕ) (hi : i < lines.length) :
    (ofLines n lines).Stored i j ↔ j ∈ lines[i].map Prod.fst := by
  rw [← mem_segIdx, segIdx_ofLines _ _ _ hi]

/-! ### entries of a well-formed matrix -/

theorem length_segIdx_eq {m : Cmp} (h : m.WF) (i : ℕ) :
    (m.segIdx i).length = (m.segData i).length := by
  simp [segIdx, segData, pySlice, h.len_data]

theorem entries_fst {m : Cmp} (h : m.WF) (i : ℕ) : (m.entries i).map Prod.fst = m.segIdx i := by
  rw [entries, List.map_fst_zip (length_segIdx_eq h i).le]

theorem entries_snd {m : Cmp} (h : m.WF) (i : ℕ) : (m.entries i).map Prod.snd = m.segData i := by
  rw [entries, List.map_snd_zip (length_segIdx_eq h i).ge]

theorem mem_entries_snd {m : Cmp} {i : ℕ} {e : ℕ × ℤ} (he : e ∈ m.entries i) : e.2 ∈ m.data := by
  have := (List.of_mem_zip (a := e.1) (b := e.2) he).2
  rw [segData, mem_pySlice] at this
  obtain ⟨k, _, _, hk⟩ := this
  exact List.mem_of_getElem? hk

theorem stored_iff_entries {m : Cmp} (h : m.WF) (i j : ℕ) :
    m.Stored i j ↔ ∃ d, (j, d) ∈ m.entries i := by
  rw [← mem_segIdx, ← entries_fst h, List.mem_map]
  constructor
  · rintro ⟨⟨a, d⟩, h1, rfl⟩; exact ⟨d, h1⟩
  · rintro ⟨d, hd⟩; exact ⟨_, hd, rfl⟩

theorem Binary.entries_eq {m : Cmp} (h : m.Binary) {i : ℕ} {e : ℕ × ℤ} (he : e ∈ m.entries i) :
    e.2 = 1 := h.data_one _ (mem_entries_snd he)

theorem Binary.noStoredZero {m : Cmp} (h : m.Binary) : m.NoStoredZero := by
  intro d hd; rw [h.data_one d hd]; decide

theorem Binary.segIdx_nodup {m : Cmp} (h : m.Binary) (i : ℕ) : (m.segIdx i).Nodup := by
  by_cases hi : i < m.nMajor
  · exact h.nodup i hi
  · have : m.segIdx i = [] := by
      rw [List.eq_nil_iff_forall_not_mem]
      intro j hj
      exact hi (((mem_segIdx m i j).mp hj).major_lt h.toWF)
    simp [this]

/-- `val` is the sum of the data stored at that position. -/
theorem val_eq_sum_entries {m : Cmp} (h : m.WF) (i j : ℕ) (hi : i < m.nMajor) :
    m.val i j = (((m.entries i).filter (fun e => e.1 = j)).map Prod.snd).sum := by
  have key : ∀ (I : List ℕ) (D : List ℤ), I.length = D.length → ∀ a b, a ≤ b → b ≤ I.length →
      (∑ k ∈ Finset.Ico a b, if I[k]? = some j then D.getD k 0 else 0)
      = ((((pySlice I a b).zip (pySlice D a b)).filter (fun e => e.1 = j)).map Prod.snd).sum := by
    intro I D hl a b hab hb
    obtain ⟨d, rfl⟩ := Nat.exists_eq_add_of_le hab
    clear hab
    induction d with
    | zero => simp [pySlice]
    | succ d ih =>
      rw [← Nat.add_assoc, Finset.sum_Ico_succ_top (by omega), ih (by omega)]
      have hs : ∀ {α : Type} (L : List α) (hL : a + d < L.length),
          pySlice L a (a + d + 1) = pySlice L a (a + d) ++ [L[a + d]] := by
        intro α L hL
        simp only [pySlice]
        rw [show a + d + 1 - a = d + 1 by omega, show a + d - a = d by omega, List.take_add_one,
          List.getElem?_drop, List.getElem?_eq_getElem hL]
        rfl
      rw [hs I (by omega), hs D (by omega),
        List.zip_append (by simp [pySlice]; omega), List.filter_append, List.map_append,
        List.sum_append]
      congr 1
      rw [List.getElem?_eq_getElem (by omega), List.getD_eq_getElem?_getD, List.getElem?_eq_getElem (by omega)]
      by_cases hj : I[a + d]'(by omega) = j <;> simp [hj]
  exact key m.indices m.data h.len_data.symm _ _ (h.ptr_mono i hi) (h.ptr_le hi)

theorem filter_fst_nodup {l : List (ℕ × ℤ)} (hn : (l.map Prod.fst).Nodup) {j : ℕ} {d : ℤ}
    (h : (j, d) ∈ l) : l.filter (fun e => e.1 = j) = [(j, d)] := by
  induction l with
  | nil => simp at h
  | cons a l ih =>
    simp only [List.map_cons, List.nodup_cons] at hn
    rcases List.mem_cons.mp h with rfl | h
    · have : l.filter (fun e => e.1 = j) = [] := by
        rw [List.filter_eq_nil_iff]
        intro e he hej
        simp only [decide_eq_true_eq] at hej
        exact hn.1 (List.mem_map.mpr ⟨e, he, hej⟩)
      rw [List.filter_cons_of_pos (by simp), this]
    · have : a.1 ≠ j := by
        rintro rfl
        exact hn.1 (List.mem_map.mpr ⟨_, h, rfl⟩)
      rw [List.filter_cons_of_neg (by simpa using this), ih hn.2 h]

/-- In a 0/1 matrix the value is 1 at stored positions and 0 elsewhere. -/
theorem Binary.val_eq {m : Cmp} (h : m.Binary) (i j : ℕ) (hi : i < m.nMajor) [Decidable (m.Stored i j)] :
    m.val i j = if m.Stored i j then 1 else 0 := by
  rw [val_eq_sum_entries h.toWF i j hi]
  split
  · rename_i hs
    obtain ⟨d, hd⟩ := (stored_iff_entries h.toWF i j).mp hs
    have h1 : d = 1 := h.entries_eq hd
    subst h1
    rw [filter_fst_nodup (by rw [entries_fst h.toWF]; exact h.segIdx_nodup i) hd]; rfl
  · rename_i hs
    have : (m.entries i).filter (fun e => e.1 = j) = [] := by
      rw [List.filter_eq_nil_iff]
      rintro ⟨a, d⟩ he hej
      simp only [decide_eq_true_eq] at hej
      subst hej
      exact hs ((stored_iff_entries h.toWF i a).mpr ⟨d, he⟩)
    rw [this]; rfl

/-! ### format conversion -/

theorem wf_flip (m : Cmp) : m.flip.WF := by
  apply wf_ofLines
  intro l hl e he
  simp only [List.mem_map, List.mem_range] at hl
  obtain ⟨j, hj, rfl⟩ := hl
  simp only [List.mem_flatMap, List.mem_range, List.mem_map] at he
  obtain ⟨i, hi, e', _, rfl⟩ := he
  exact hi

@[simp] theorem flip_nMajor (m : Cmp) : m.flip.nMajor = m.nMinor := by simp [flip, ofLines]
@[simp] theorem flip_nMinor (m : Cmp) : m.flip.nMinor = m.nMajor := by simp [flip, ofLines]

theorem entries_flip (m : Cmp) (j : ℕ) (hj : j < m.nMinor) :
    m.flip.entries j = (List.range m.nMajor).flatMap fun i =>
      ((m.entries i).filter (fun e => e.1 = j)).map (fun e => (i, e.2)) := by
  rw [flip, entries_ofLines _ _ _ (by simpa using hj)]
  simp

theorem stored_flip {m : Cmp} (h : m.WF) (i j : ℕ) : m.flip.Stored j i ↔ m.Stored i j := by
  constructor
  · intro hs
    have hj : j < m.nMinor := by simpa using hs.major_lt (wf_flip m)
    rw [stored_iff_entries (wf_flip m), entries_flip m j hj] at hs
    obtain ⟨d, hd⟩ := hs
    simp only [List.mem_flatMap, List.mem_map, List.mem_filter, decide_eq_true_eq, Prod.mk.injEq,
      Prod.exists] at hd
    obtain ⟨i', _, a, d', ⟨he, rfl⟩, rfl, rfl⟩ := hd
    exact (stored_iff_entries h _ _).mpr ⟨_, he⟩
  · intro hs
    rw [stored_iff_entries (wf_flip m), entries_flip m j (hs.minor_lt h)]
    obtain ⟨d, hd⟩ := (stored_iff_entries h _ _).mp hs
    refine ⟨d, ?_⟩
    simp only [List.mem_flatMap, List.mem_map, List.mem_filter, decide_eq_true_eq, Prod.mk.injEq,
      Prod.exists, List.mem_range]
    exact ⟨i, hs.major_lt h, j, d, ⟨hd, rfl⟩, rfl, rfl⟩

theorem flip_binary {m : Cmp} (h : m.Binary) : m.flip.Binary where
  toWF := wf_flip m
  data_one := by
    intro d hd
    simp only [flip, ofLines, List.mem_map, List.mem_flatten, Prod.exists, exists_eq_right] at hd
    obtain ⟨a, l, ⟨j, _, rfl⟩, hl⟩ := hd
    simp only [List.mem_flatMap, List.mem_map, List.mem_filter, Prod.mk.injEq, Prod.exists] at hl
    obtain ⟨i, _, a', d', ⟨he, _⟩, _, rfl⟩ := hl
    exact h.entries_eq he
  nodup := by
    intro j hj
    rw [← entries_fst (wf_flip m), entries_flip m j (by simpa using hj), List.map_flatMap,
      List.nodup_flatMap]
    constructor
    · intro i _
      by_cases hs : m.Stored i j
      · obtain ⟨d, hd⟩ := (stored_iff_entries h.toWF i j).mp hs
        rw [filter_fst_nodup (by rw [entries_fst h.toWF]; exact h.segIdx_nodup i) hd]
        simp
      · have : (m.entries i).filter (fun e => e.1 = j) = [] := by
          rw [List.filter_eq_nil_iff]
          rintro ⟨a, d⟩ he hej
          simp only [decide_eq_true_eq] at hej
          subst hej
          exact hs ((stored_iff_entries h.toWF i a).mpr ⟨d, he⟩)
        simp [this]
    · refine List.Pairwise.imp ?_ List.nodup_range
      intro a b hab
      simp only [Function.onFun, List.disjoint_left, List.mem_map, not_exists, not_and]
      rintro x ⟨p, ⟨q, _, hq⟩, hp⟩ p' ⟨q', _, hq'⟩ hp'
      apply hab
      rw [← hq] at hp
      rw [← hq'] at hp'
      exact hp.trans hp'.symm

end Cmp

/-! ### `conjunctive_collapse_v2` -/

theorem inEvery_iff (el : ℕ) : ∀ l : List (Finset ℕ), inEvery el l = true ↔ ∀ s ∈ l, el ∈ s
  | [] => by simp [inEvery]
  | s :: rest => by
    rw [inEvery]
    by_cases h : el ∈ s
    · simp [h, inEvery_iff el rest]
    · simp [h]

theorem maskOf_ok {n : ℕ} {rows : List ℕ} (h : ∀ r ∈ rows, r < n) :
    maskOf n rows = .ok ((List.range n).map fun i => decide (i ∈ rows)) := if_pos h

theorem Cmp.ptr_eq_getElem {m : Cmp} {i : ℕ} (hi : i < m.indptr.length) :
    m.indptr[i] = m.ptr i := by
  rw [Cmp.ptr, List.getD_eq_getElem?_getD, List.getElem?_eq_getElem hi]; rfl

theorem columnRowSet_ok {m : Cmp} (h : m.WF) {c : ℕ} (hc : c < m.nMajor) :
    columnRowSet m (c : ℤ) = .ok (m.segIdx c).toFinset := by
  have h1 : c < m.indptr.length := by rw [h.len_indptr]; omega
  have h2 : c + 1 < m.indptr.length := by rw [h.len_indptr]; omega
  unfold columnRowSet
  rw [pyGet_nat _ c h1, show ((c : ℤ) + 1) = ((c + 1 : ℕ) : ℤ) by push_cast; rfl, pyGet_nat _ _ h2]
  simp only [bind, Except.bind, pure, Except.pure, Cmp.ptr_eq_getElem, Cmp.segIdx]

theorem columnRowSet_ge {m : Cmp} (h : m.WF) {c : ℕ} (hc : m.nMajor ≤ c) :
    columnRowSet m (c : ℤ) = .error .indexError := by
  unfold columnRowSet
  rcases Nat.lt_or_ge c m.indptr.length with h1 | h1
  · rw [pyGet_nat _ _ h1, show ((c : ℤ) + 1) = ((c + 1 : ℕ) : ℤ) by push_cast; rfl,
      pyGet_nat_ge _ (c + 1) (by rw [h.len_indptr]; omega)]; rfl
  · rw [pyGet_nat_ge _ _ h1]; rfl

theorem sharedRows_ok {sets : List (Finset ℕ)} (hne : sets ≠ []) :
    ∃ l, sharedRows sets = .ok l ∧ ∀ i, i ∈ l ↔ ∀ s ∈ sets, i ∈ s := by
  unfold sharedRows
  have hp := List.mergeSort_perm sets (fun s t => decide (s.card ≤ t.card))
  revert hp
  generalize sets.mergeSort (fun s t => decide (s.card ≤ t.card)) = srt
  intro hp
  cases srt with
  | nil => exact absurd (List.nil_perm.mp hp) hne
  | cons s rest =>
    refine ⟨_, rfl, ?_⟩
    intro i
    rw [List.mem_filter, inEvery_iff, Finset.mem_sort]
    constructor
    · rintro ⟨h1, h2⟩ t ht
      rcases List.mem_cons.mp (hp.mem_iff.mpr ht) with rfl | ht
      · exact h1
      · exact h2 t ht
    · intro hi
      exact ⟨hi s (hp.mem_iff.mp (by simp)), fun t ht => hi t (hp.mem_iff.mp (by simp [ht]))⟩

/-- Main computation of `conjunctive_collapse_v2` on columns whose row sets were fetched. -/
theorem conjunctiveCollapseV2_of_sets {m : Cmp} {cols : List ℤ} {sets : List (Finset ℕ)}
    (hne : cols ≠ []) (hsets : cols.mapM (columnRowSet m) = .ok sets)
    (hlt : ∀ s ∈ sets, ∀ r ∈ s, r < m.nMinor) :
    conjunctiveCollapseV2 m cols =
      .ok ((List.range m.nMinor).map fun i => decide (∀ s ∈ sets, i ∈ s)) := by
  unfold conjunctiveCollapseV2
  rw [if_neg (by simpa using hne), hsets]
  have hne' : sets ≠ [] := by
    rintro rfl
    have := (mapM_eq_ok_iff.mp hsets).length_eq
    exact hne (List.length_eq_zero_iff.mp this)
  obtain ⟨l, h1, h2⟩ := sharedRows_ok hne'
  simp only [bind, Except.bind, h1]
  rw [maskOf_ok]
  · simp [h2]
  · intro r hr
    obtain ⟨s, hs⟩ := List.exists_mem_of_ne_nil sets hne'
    exact hlt s hs r ((h2 r).mp hr s hs)

theorem conjunctiveCollapseV2_ok {m : Cmp} (h : m.WF) {cols : List ℕ} (hne : cols ≠ [])
    (hc : ∀ c ∈ cols, c < m.nMajor) :
    conjunctiveCollapseV2 m (cols.map (fun c : ℕ => (c : ℤ))) =
      .ok ((List.range m.nMinor).map fun i => decide (∀ c ∈ cols, i ∈ m.segIdx c)) := by
  rw [conjunctiveCollapseV2_of_sets (sets := cols.map fun c => (m.segIdx c).toFinset)
    (by simpa using hne)]
  · simp
  · rw [mapM_eq_ok_iff, List.forall₂_map_left_iff, List.forall₂_map_right_iff, List.forall₂_same]
    intro c hcm
    exact columnRowSet_ok h (hc c hcm)
  · intro s hs r hr
    obtain ⟨c, _, rfl⟩ := List.mem_map.mp hs
    rw [List.mem_toFinset, Cmp.mem_segIdx] at hr
    exact hr.minor_lt h

theorem conjunctiveCollapseV2_ge {m : Cmp} (h : m.WF) {cols : List ℕ}
    (hc : ∃ c ∈ cols, m.nMajor ≤ c) :
    conjunctiveCollapseV2 m (cols.map (fun c : ℕ => (c : ℤ))) = .error .indexError := by
  obtain ⟨c, hcm, hcge⟩ := hc
  unfold conjunctiveCollapseV2
  rw [if_neg (by intro h0; simp at h0; simp [h0] at hcm)]
  have := mapM_error_of (f := columnRowSet m) (e := .indexError)
    (l := cols.map (fun c : ℕ => (c : ℤ))) (by
      intro x hx
      obtain ⟨x, _, rfl⟩ := List.mem_map.mp hx
      rcases Nat.lt_or_ge x m.nMajor with h1 | h1
      · exact Or.inl ⟨_, columnRowSet_ok h h1⟩
      · exact Or.inr (columnRowSet_ge h h1))
    ⟨c, List.mem_map_of_mem hcm, columnRowSet_ge h hcge⟩
  simp only [bind, Except.bind, this]

theorem mem_binaryVectorToSet (v : List Bool) (i : ℕ) :
    i ∈ binaryVectorToSet v ↔ v[i]? = some true := by
  simp only [binaryVectorToSet, Finset.mem_filter, Finset.mem_range, and_iff_right_iff_imp]
  intro h
  exact (List.getElem?_eq_some_iff.mp h).1

theorem binaryVectorToSet_map_range (n : ℕ) (p : ℕ → Bool) :
    binaryVectorToSet ((List.range n).map p) = (Finset.range n).filter (fun i => p i = true) := by
  ext i
  rw [mem_binaryVectorToSet, Finset.mem_filter, Finset.mem_range]
  by_cases hi : i < n <;> simp [hi]

end Verif
