import Verif.Spec.Greedy
import Verif.Lemmas.Rule

namespace Verif
open Cmp

instance (X : Cmp) (r : Rule) (i : ℕ) : Decidable (Fires X r i) := by unfold Fires; infer_instance

theorem pyIndex_lt {n : ℕ} {l : ℤ} {j : ℕ} (h : pyIndex n l = some j) : j < n := by
  unfold pyIndex at h
  split at h <;> split at h <;> simp at h <;> omega

theorem pyIndex_some_iff {n : ℕ} {l : ℤ} {j : ℕ} :
    pyIndex n l = some j ↔ j < n ∧ (l = j ∨ l = (j : ℤ) - n) := by
  unfold pyIndex
  split <;> split <;> simp <;> omega

theorem pyIndex_none_iff {n : ℕ} {l : ℤ} : pyIndex n l = none ↔ l < -(n : ℤ) ∨ (n : ℤ) ≤ l := by
  unfold pyIndex
  split <;> split <;> simp <;> omega

theorem headFires_iff (X : Cmp) (r : Rule) (i : ℕ) :
    headFires r.head (X.segIdx i).toFinset = true ↔ Fires X r i := by
  simp only [headFires, List.all_eq_true, Bool.and_eq_true, decide_eq_true_eq, List.mem_toFinset,
    mem_segIdx, Fires]

theorem writeTail_spec (L : ℕ) : ∀ (ls : List ℤ) (row : Finset ℕ),
    if ∀ l ∈ ls, pyIndex L l ≠ none then
      ∃ s, writeTail L row ls = .ok s ∧ ∀ j, j ∈ s ↔ j ∈ row ∨ ∃ l ∈ ls, pyIndex L l = some j
    else writeTail L row ls = .error .indexError
  | [], row => by simp [writeTail]
  | l :: ls, row => by
    rcases hl : pyIndex L l with _ | k
    · rw [if_neg (by simp [hl])]
      simp [writeTail, hl]
    · have ih := writeTail_spec L ls (insert k row)
      by_cases hall : ∀ l ∈ ls, pyIndex L l ≠ none
      · rw [if_pos hall] at ih
        rw [if_pos (by simpa [hl] using hall)]
        obtain ⟨s, hs, hm⟩ := ih
        refine ⟨s, by simp [writeTail, hl, hs], fun j => ?_⟩
        rw [hm j]
        simp only [Finset.mem_insert, List.mem_cons, exists_eq_or_imp, hl, Option.some.injEq]
        constructor
        · rintro ((h | h) | h)
          · exact Or.inr (Or.inl h.symm)
          · exact Or.inl h
          · exact Or.inr (Or.inr h)
        · rintro (h | h | h)
          · exact Or.inl (Or.inr h)
          · exact Or.inl (Or.inl h.symm)
          · exact Or.inr h
      · rw [if_neg hall] at ih
        rw [if_neg (by simpa [hl] using hall)]
        simp [writeTail, hl, ih]

theorem predictRow_spec (L : ℕ) (F : Finset ℕ) : ∀ (rules : List Rule) (row : Finset ℕ),
    if ∀ r ∈ rules, headFires r.head F = true → ∀ l ∈ r.tail, pyIndex L l ≠ none then
      ∃ s, rules.foldlM (fun row r => if headFires r.head F then writeTail L row r.tail else .ok row)
          row = Except.ok (ε := PyErr) s ∧
        ∀ j, j ∈ s ↔ j ∈ row ∨ ∃ r ∈ rules, headFires r.head F = true ∧
          ∃ l ∈ r.tail, pyIndex L l = some j
    else rules.foldlM (fun row r => if headFires r.head F then writeTail L row r.tail else .ok row)
          row = Except.error PyErr.indexError
  | [], row => by simp [pure, Except.pure]
  | r :: rules, row => by
    rw [List.foldlM_cons]
    by_cases hf : headFires r.head F = true
    · rw [if_pos hf]
      have hw := writeTail_spec L r.tail row
      by_cases hr : ∀ l ∈ r.tail, pyIndex L l ≠ none
      · rw [if_pos hr] at hw
        obtain ⟨s, hs, hm⟩ := hw
        rw [hs]
        have ih := predictRow_spec L F rules s
        simp only [bind, Except.bind]
        by_cases hall : ∀ r ∈ rules, headFires r.head F = true → ∀ l ∈ r.tail, pyIndex L l ≠ none
        · rw [if_pos hall] at ih
          rw [if_pos (by
            intro r' hr'
            rcases List.mem_cons.mp hr' with rfl | h
            · exact fun _ => hr
            · exact hall r' h)]
          obtain ⟨s', hs', hm'⟩ := ih
          refine ⟨s', hs', fun j => ?_⟩
          rw [hm' j, hm j]
          simp only [List.mem_cons, exists_eq_or_imp, hf, true_and, or_assoc]
        · rw [if_neg hall] at ih
          rw [if_neg (fun h => hall fun r' hr' => h r' (by simp [hr']))]
          exact ih
      · rw [if_neg hr] at hw
        rw [hw, if_neg (fun h => hr (h r (by simp) hf))]
        rfl
    · rw [if_neg hf]
      have ih := predictRow_spec L F rules row
      simp only [bind, Except.bind]
      by_cases hall : ∀ r ∈ rules, headFires r.head F = true → ∀ l ∈ r.tail, pyIndex L l ≠ none
      · rw [if_pos hall] at ih
        rw [if_pos (by
            intro r' hr'
            rcases List.mem_cons.mp hr' with rfl | h
            · exact fun h => absurd h hf
            · exact hall r' h)]
        obtain ⟨s', hs', hm'⟩ := ih
        refine ⟨s', hs', fun j => ?_⟩
        rw [hm' j]
        simp only [List.mem_cons, exists_eq_or_imp, hf, false_and, false_or, Bool.false_eq_true]
      · rw [if_neg hall] at ih
        rw [if_neg (fun h => hall fun r' hr' => h r' (by simp [hr']))]
        exact ih

/-- The columns a row gets, as an explicit set. -/
def predictedCols (L : ℕ) (rules : List Rule) (X : Cmp) (i : ℕ) : Finset ℕ :=
  (Finset.range L).filter fun j => ∃ r ∈ rules, Fires X r i ∧ ∃ l ∈ r.tail, pyIndex L l = some j

theorem predictRow_ok {L : ℕ} {rules : List Rule} {X : Cmp} {i : ℕ}
    (h : ∀ r ∈ rules, Fires X r i → ∀ l ∈ r.tail, pyIndex L l ≠ none) :
    predictRow L rules (X.segIdx i).toFinset = .ok (predictedCols L rules X i) := by
  have := predictRow_spec L (X.segIdx i).toFinset rules ∅
  rw [if_pos (by simpa only [headFires_iff] using h)] at this
  obtain ⟨s, hs, hm⟩ := this
  rw [predictRow, hs]
  congr 1
  ext j
  rw [hm j]
  simp only [headFires_iff, predictedCols, Finset.mem_filter, Finset.mem_range, Finset.notMem_empty,
    false_or]
  constructor
  · rintro ⟨r, hr, hf, l, hl, hj⟩
    exact ⟨pyIndex_lt hj, r, hr, hf, l, hl, hj⟩
  · exact fun h => h.2

theorem predictRow_error {L : ℕ} {rules : List Rule} {X : Cmp} {i : ℕ}
    (h : ∃ r ∈ rules, Fires X r i ∧ ∃ l ∈ r.tail, pyIndex L l = none) :
    predictRow L rules (X.segIdx i).toFinset = .error .indexError := by
  have := predictRow_spec L (X.segIdx i).toFinset rules ∅
  rw [if_neg (by
    simp only [headFires_iff]
    obtain ⟨r, hr, hf, l, hl, hn⟩ := h
    exact fun hh => hh r hr hf l hl hn)] at this
  exact this

/-- The matrix `predict` returns when no index error occurs. -/
def predictedMatrix (L : ℕ) (rules : List Rule) (X : Cmp) : Cmp :=
  Cmp.ofLines L ((List.range X.nMajor).map fun i =>
    ((predictedCols L rules X i).sort (· ≤ ·)).map fun j => (j, 1))

theorem predict_ok {L : ℕ} {rules : List Rule} {X : Cmp}
    (h : ∀ i < X.nMajor, ∀ r ∈ rules, Fires X r i → ∀ l ∈ r.tail, pyIndex L l ≠ none) :
    predict rules (some L) X = .ok (predictedMatrix L rules X) := by
  have hm : (convertMatrixToSetsV2 X).mapM (predictRow L rules) =
      .ok ((List.range X.nMajor).map fun i => predictedCols L rules X i) := by
    unfold convertMatrixToSetsV2
    rw [List.mapM_map]
    apply mapM_ok_of_forall
    intro i hi
    exact predictRow_ok (h i (List.mem_range.mp hi))
  simp only [predict, hm, bind, Except.bind, pure, Except.pure, predictedMatrix, List.map_map]
  rfl

theorem predict_error {L : ℕ} {rules : List Rule} {X : Cmp}
    (h : ∃ i < X.nMajor, ∃ r ∈ rules, Fires X r i ∧ ∃ l ∈ r.tail, pyIndex L l = none) :
    predict rules (some L) X = .error .indexError := by
  have hm : (convertMatrixToSetsV2 X).mapM (predictRow L rules) = .error .indexError := by
    unfold convertMatrixToSetsV2
    rw [List.mapM_map]
    apply mapM_error_of
    · intro i _
      show (∃ y, predictRow L rules (X.segIdx i).toFinset = _) ∨
        predictRow L rules (X.segIdx i).toFinset = _
      by_cases hh : ∃ r ∈ rules, Fires X r i ∧ ∃ l ∈ r.tail, pyIndex L l = none
      · exact Or.inr (predictRow_error hh)
      · refine Or.inl ⟨_, predictRow_ok ?_⟩
        intro r hr hf l hl hn
        exact hh ⟨r, hr, hf, l, hl, hn⟩
    · obtain ⟨i, hi, hh⟩ := h
      exact ⟨i, List.mem_range.mpr hi, predictRow_error hh⟩
  simp only [predict, hm, bind, Except.bind]

theorem predictedMatrix_stored {L : ℕ} {rules : List Rule} {X : Cmp} {i j : ℕ} (hi : i < X.nMajor) :
    (predictedMatrix L rules X).Stored i j ↔ j ∈ predictedCols L rules X i := by
  rw [predictedMatrix, stored_ofLines _ _ _ _ (by simpa using hi)]
  simp [List.map_map, Function.comp_def]

theorem predictedMatrix_binary (L : ℕ) (rules : List Rule) (X : Cmp) :
    (predictedMatrix L rules X).Binary where
  toWF := by
    apply wf_ofLines
    intro l hl e he
    simp only [List.mem_map, List.mem_range] at hl
    obtain ⟨i, hi, rfl⟩ := hl
    simp only [List.mem_map, Finset.mem_sort] at he
    obtain ⟨j, hj, rfl⟩ := he
    exact Finset.mem_range.mp (Finset.mem_filter.mp hj).1
  data_one := by
    intro d hd
    simp only [predictedMatrix, ofLines, List.mem_map, List.mem_flatten, List.mem_range] at hd
    obtain ⟨e, ⟨l, ⟨i, _, rfl⟩, he⟩, rfl⟩ := hd
    simp only [List.mem_map] at he
    obtain ⟨j, _, rfl⟩ := he
    rfl
  nodup := by
    intro i hi
    have hi' : i < X.nMajor := by simpa [predictedMatrix, ofLines] using hi
    rw [predictedMatrix, segIdx_ofLines _ _ _ (by simpa using hi')]
    simp [List.map_map, Function.comp_def]

theorem predictedMatrix_val {L : ℕ} {rules : List Rule} {X : Cmp} {i j : ℕ} (hi : i < X.nMajor) :
    (predictedMatrix L rules X).val i j = if j ∈ predictedCols L rules X i then 1 else 0 := by
  rw [(predictedMatrix_binary L rules X).val_eq i j (by simpa [predictedMatrix, ofLines] using hi)]
  simp only [predictedMatrix_stored hi]

end Verif
