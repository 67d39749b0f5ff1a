/-
Properties of `filter_rows_with_no_labels` (C77).
-/
import Verif.Props.Sparse

namespace Verif

open Cmp

theorem row_sum_pos {Y : Cmp} (h : Y.Binary) (i : ℕ) :
    0 < ((Y.entries i).map Prod.snd).sum ↔ ∃ j, Y.Stored i j := by
  have hone : ∀ e ∈ Y.entries i, e.2 = 1 := fun e he => h.data_one _ (mem_entries_snd he)
  have hsum : ((Y.entries i).map Prod.snd).sum = ((Y.entries i).length : ℤ) := by
    have : (Y.entries i).map Prod.snd = (Y.entries i).map fun _ => (1 : ℤ) :=
      List.map_congr_left fun e he => hone e he
    rw [this]
    simp
  rw [hsum]
  constructor
  · intro hpos
    have : Y.entries i ≠ [] := by
      intro h0
      rw [h0] at hpos
      simp at hpos
    obtain ⟨e, he⟩ := List.exists_mem_of_ne_nil _ this
    exact ⟨e.1, (stored_iff_entries h.toWF i e.1).mpr ⟨e.2, he⟩⟩
  · rintro ⟨j, hj⟩
    obtain ⟨d, hd⟩ := (stored_iff_entries h.toWF i j).mp hj
    have := List.length_pos_of_mem hd
    exact_mod_cast this

theorem takeLines_spec {m : Cmp} (h : m.WF) {rows : List ℕ} (hr : ∀ i ∈ rows, i < m.nMajor) :
    ∃ m', takeLines m rows = .ok m' ∧ m'.WF ∧ m'.nMajor = rows.length ∧ m'.nMinor = m.nMinor ∧
      ∀ k (hk : k < rows.length), m'.entries k = m.entries rows[k] := by
  refine ⟨_, if_pos hr, ?_, by simp [ofLines], rfl, ?_⟩
  · apply wf_ofLines
    intro l hl e he
    obtain ⟨i, hi, rfl⟩ := List.mem_map.mp hl
    exact ((stored_iff_entries h i e.1).mpr ⟨e.2, he⟩).minor_lt h
  · intro k hk
    rw [entries_ofLines _ _ _ (by simpa using hk)]
    simp

/-- **C77** Dropping the unlabelled rows of a feature matrix and a 0/1 label matrix with as many rows keeps
exactly the rows with at least one label, in their order, with unchanged features and labels, and keeps
both matrices aligned. -/
theorem C77_filter (X Y : Cmp) (hX : X.WF) (hY : Y.Binary) (hn : X.nMajor = Y.nMajor) :
    ∃ (X' Y' : Cmp) (rows : List ℕ), filterRowsWithNoLabels X Y = .ok (X', Y') ∧
      rows.Pairwise (· < ·) ∧ (∀ i, i ∈ rows ↔ ∃ j, Y.Stored i j) ∧
      X'.WF ∧ Y'.Binary ∧ X'.nMajor = rows.length ∧ Y'.nMajor = rows.length ∧
      X'.nMinor = X.nMinor ∧ Y'.nMinor = Y.nMinor ∧
      ∀ k (hk : k < rows.length), (∀ j, X'.val k j = X.val rows[k] j) ∧
        (∀ j, Y'.Stored k j ↔ Y.Stored rows[k] j) ∧ ∃ j, Y'.Stored k j := by
  have hmem : ∀ i, i ∈ labelledRows Y ↔ ∃ j, Y.Stored i j := by
    intro i
    unfold labelledRows
    rw [List.mem_filter, List.mem_range, decide_eq_true_eq, row_sum_pos hY, and_iff_right_iff_imp]
    rintro ⟨j, hj⟩
    exact hj.major_lt hY.toWF
  have hlt : ∀ i ∈ labelledRows Y, i < Y.nMajor := by
    intro i hi
    obtain ⟨j, hj⟩ := (hmem i).mp hi
    exact hj.major_lt hY.toWF
  obtain ⟨X', hX1, hX2, hX3, hX4, hX5⟩ := takeLines_spec hX (rows := labelledRows Y) (by rw [hn]; exact hlt)
  obtain ⟨Y', hY1, hY2, hY3, hY4, hY5⟩ := takeLines_spec hY.toWF (rows := labelledRows Y) hlt
  have hst : ∀ k (hk : k < (labelledRows Y).length) j, Y'.Stored k j ↔ Y.Stored (labelledRows Y)[k] j := by
    intro k hk j
    rw [stored_iff_entries hY2, stored_iff_entries hY.toWF, hY5 k hk]
  refine ⟨X', Y', labelledRows Y, ?_, ?_, hmem, hX2, ?_, hX3, hY3, hX4, hY4, ?_⟩
  · unfold filterRowsWithNoLabels
    rw [hX1, hY1]
    rfl
  · exact List.pairwise_lt_range.sublist List.filter_sublist
  · refine { toWF := hY2, data_one := ?_, nodup := ?_ }
    · have : Y' = Cmp.ofLines Y.nMinor ((labelledRows Y).map Y.entries) := by
        rw [takeLines, if_pos hlt] at hY1
        exact (Except.ok.inj hY1).symm
      rw [this]
      intro d hd
      simp only [ofLines, List.mem_map, List.mem_flatten] at hd
      obtain ⟨e, ⟨l, hl, he⟩, rfl⟩ := hd
      obtain ⟨i, -, rfl⟩ := hl
      exact hY.data_one _ (mem_entries_snd he)
    · intro k hk
      rw [hY3] at hk
      rw [← entries_fst hY2, hY5 k hk, entries_fst hY.toWF]
      exact hY.segIdx_nodup _
  · intro k hk
    refine ⟨?_, hst k hk, ?_⟩
    · intro j
      have hk' := hlt _ (List.getElem_mem hk)
      rw [val_eq_sum_entries hX2 k j (by rw [hX3]; exact hk), hX5 k hk,
        val_eq_sum_entries hX _ j (by rw [hn]; exact hk')]
    · obtain ⟨j, hj⟩ := (hmem _).mp (List.getElem_mem hk)
      exact ⟨j, (hst k hk j).mpr hj⟩

/-- **C77** The lengths are not compared: with a feature matrix of another length the call fails with
`IndexError` exactly when a labelled row lies beyond its end, and otherwise silently drops the features of
the rows that have no label row. -/
theorem C77_length_mismatch (X Y : Cmp) (hX : X.WF) (hY : Y.Binary) :
    ((∃ i j, Y.Stored i j ∧ X.nMajor ≤ i) → filterRowsWithNoLabels X Y = .error .indexError) ∧
    ((∀ i j, Y.Stored i j → i < X.nMajor) → ∃ X' Y', filterRowsWithNoLabels X Y = .ok (X', Y') ∧
      X'.nMajor = Y'.nMajor ∧ X'.nMajor ≤ Y.nMajor) := by
  have hmem : ∀ i, i ∈ labelledRows Y ↔ ∃ j, Y.Stored i j := by
    intro i
    unfold labelledRows
    rw [List.mem_filter, List.mem_range, decide_eq_true_eq, row_sum_pos hY, and_iff_right_iff_imp]
    rintro ⟨j, hj⟩
    exact hj.major_lt hY.toWF
  constructor
  · rintro ⟨i, j, hs, hge⟩
    have : takeLines X (labelledRows Y) = .error .indexError := by
      refine if_neg fun hall => ?_
      have := hall i ((hmem i).mpr ⟨j, hs⟩)
      omega
    unfold filterRowsWithNoLabels
    rw [this]
    rfl
  · intro hall
    obtain ⟨X', hX1, -, hX3, -⟩ := takeLines_spec hX (rows := labelledRows Y) (by
      intro i hi
      obtain ⟨j, hj⟩ := (hmem i).mp hi
      exact hall i j hj)
    obtain ⟨Y', hY1, -, hY3, -⟩ := takeLines_spec hY.toWF (rows := labelledRows Y) (by
      intro i hi
      obtain ⟨j, hj⟩ := (hmem i).mp hi
      exact hj.major_lt hY.toWF)
    refine ⟨X', Y', ?_, by rw [hX3, hY3], ?_⟩
    · unfold filterRowsWithNoLabels
      rw [hX1, hY1]
      rfl
    · rw [hX3, labelledRows]
      exact (List.length_filter_le _ _).trans (by simp)

/-- Three rows, the second of them without label. -/
def filterLabels : Cmp := { nMajor := 3, nMinor := 2, indptr := [0, 1, 1, 3], indices := [1, 0, 1], data := [1, 1, 1] }

theorem filterLabels_binary : filterLabels.Binary :=
  { len_indptr := by decide, ptr_zero := by decide, ptr_mono := by decide, ptr_last := by decide,
    len_data := by decide, idx_lt := by decide, data_one := by decide, nodup := by decide }

example : labelledRows filterLabels = [0, 2] := by decide

example : ∃ (X' Y' : Cmp) (rows : List ℕ), filterRowsWithNoLabels filterLabels filterLabels = .ok (X', Y') ∧ rows.length = 2 ∧
    X'.nMajor = rows.length ∧ Y'.nMajor = rows.length := by
  exact ⟨_, _, [0, 2], rfl, rfl, rfl, rfl⟩

end Verif
