/-
Properties C01-C04: conjunctive column queries and matrix/set conversion.
-/
import Verif.Lemmas.Sparse

namespace Verif
open Cmp

/-- A concrete 4x3 binary label matrix in CSC form (columns {0,1,3}, {1,3}, {2,3}), used to show that
hypotheses below are met. -/
def exampleCSC : Cmp :=
  { nMajor := 3, nMinor := 4, indptr := [0, 3, 5, 7], indices := [0, 1, 3, 1, 3, 2, 3],
    data := [1, 1, 1, 1, 1, 1, 1] }

theorem exampleCSC_binary : exampleCSC.Binary :=
  { len_indptr := by decide, ptr_zero := by decide, ptr_mono := by decide, ptr_last := by decide,
    len_data := by decide, idx_lt := by decide, data_one := by decide, nodup := by decide }

/-- **C01.** On a CSC matrix and any non-empty list of in-range columns, `conjunctive_collapse_v2`
returns one boolean per row, true exactly at the rows in which every listed column stores an
entry. -/
theorem C01_collapse_exact (m : Cmp) (h : m.WF) (cols : List ℕ) (hne : cols ≠ [])
    (hc : ∀ c ∈ cols, c < m.nMajor) :
    ∃ v, conjunctiveCollapseV2 m (cols.map (fun c : ℕ => (c : ℤ))) = .ok v ∧
      v.length = m.nMinor ∧
      ∀ i < m.nMinor, (v[i]? = some true ↔ ∀ c ∈ cols, m.Stored c i) ∧
        (v[i]? = some false ↔ ∃ c ∈ cols, ¬ m.Stored c i) := by
  refine ⟨_, conjunctiveCollapseV2_ok h hne hc, by simp, ?_⟩
  intro i hi
  simp [hi, mem_segIdx]

example : ∃ v, conjunctiveCollapseV2 exampleCSC [0, 1] = .ok v ∧ v.length = 4 ∧
    ∀ i < 4, (v[i]? = some true ↔ ∀ c ∈ [0, 1], exampleCSC.Stored c i) ∧
      (v[i]? = some false ↔ ∃ c ∈ [0, 1], ¬ exampleCSC.Stored c i) :=
  C01_collapse_exact exampleCSC exampleCSC_binary.toWF [0, 1] (by decide) (by decide)

/-- **C01**, order and repetition of the columns are irrelevant. -/
theorem C01_collapse_order_irrelevant (m : Cmp) (h : m.WF) (cols cols' : List ℕ)
    (hne : cols ≠ []) (hc : ∀ c ∈ cols, c < m.nMajor) (hsame : ∀ c, c ∈ cols ↔ c ∈ cols') :
    conjunctiveCollapseV2 m (cols.map (fun c : ℕ => (c : ℤ))) =
      conjunctiveCollapseV2 m (cols'.map (fun c : ℕ => (c : ℤ))) := by
  have hne' : cols' ≠ [] := by
    obtain ⟨c, hc⟩ := List.exists_mem_of_ne_nil cols hne
    exact List.ne_nil_of_mem ((hsame c).mp hc)
  rw [conjunctiveCollapseV2_ok h hne hc,
    conjunctiveCollapseV2_ok h hne' (fun c hm => hc c ((hsame c).mpr hm))]
  simp [hsame]

example : conjunctiveCollapseV2 exampleCSC [0, 1] = conjunctiveCollapseV2 exampleCSC [1, 0, 1] :=
  C01_collapse_order_irrelevant exampleCSC exampleCSC_binary.toWF [0, 1] [1, 0, 1]
    (by decide) (by decide) (by intro c; simp; tauto)

/-- **C01**, an empty column list is rejected. -/
theorem C01_collapse_empty (m : Cmp) : conjunctiveCollapseV2 m [] = .error .assertionError := rfl

/-- **C01**, a column index past the last column is rejected. -/
theorem C01_collapse_out_of_range (m : Cmp) (h : m.WF) (cols : List ℕ)
    (hc : ∃ c ∈ cols, m.nMajor ≤ c) :
    conjunctiveCollapseV2 m (cols.map (fun c : ℕ => (c : ℤ))) = .error .indexError := conjunctiveCollapseV2_ge h hc

example : conjunctiveCollapseV2 exampleCSC [0, 3] = .error .indexError :=
  C01_collapse_out_of_range exampleCSC exampleCSC_binary.toWF [0, 3] ⟨3, by decide, by decide⟩

open Classical in
/-- **C02.** On a 0/1 matrix the summing implementation and the set-based implementation of the
conjunctive query agree for every non-empty list of in-range columns. -/
theorem C02_implementations_agree (m : Cmp) (h : m.Binary) (cols : List ℕ) (hne : cols ≠ [])
    (hc : ∀ c ∈ cols, c < m.nMajor) :
    conjunctiveCollapse m (cols.map (fun c : ℕ => (c : ℤ))) =
      conjunctiveCollapseV2 m (cols.map (fun c : ℕ => (c : ℤ))) := by
  rw [conjunctiveCollapseV2_ok h.toWF hne hc]
  unfold conjunctiveCollapse
  have hm : (cols.map (fun c : ℕ => (c : ℤ))).mapM (selectCol m) = .ok cols := by
    rw [mapM_eq_ok_iff, List.forall₂_map_left_iff, List.forall₂_same]
    intro c hcm
    simp [selectCol, pyIndex, hc c hcm]
  rw [hm]
  simp only [bind, Except.bind, pure, Except.pure, Except.ok.injEq]
  apply List.map_congr_left
  intro i _
  rw [decide_eq_decide]
  have hsum : ∀ l : List ℕ, (∀ c ∈ l, c < m.nMajor) →
      (l.map fun c => cellSum m c i).sum
        = ((l.countP fun c => decide (m.Stored c i) : ℕ) : ℤ) := by
    intro l hl
    induction l with
    | nil => simp
    | cons c l ih =>
      rw [List.map_cons, List.sum_cons, ih (fun c hc => hl c (by simp [hc])), List.countP_cons, cellSum,
        ← val_eq_sum_entries h.toWF c i (hl c (by simp)), h.val_eq c i (hl c (by simp))]
      by_cases hs : m.Stored c i <;> simp [hs]
      omega
  rw [hsum cols hc, List.length_map, Nat.cast_inj, List.countP_eq_length]
  simp [mem_segIdx]

example : conjunctiveCollapse exampleCSC [2, 0] = conjunctiveCollapseV2 exampleCSC [2, 0] :=
  C02_implementations_agree exampleCSC exampleCSC_binary [2, 0] (by decide) (by decide)

/-- Outside the valid range the two implementations differ (C120): for column `-1` the summing
version follows Python's convention (last column) and the set version answers "no row". -/
example :
    conjunctiveCollapse exampleCSC [-1] = .ok [false, false, true, true] ∧
    conjunctiveCollapseV2 exampleCSC [-1] = .ok [false, false, false, false] := by
  constructor
  · rfl
  · rw [conjunctiveCollapseV2_of_sets (sets := [∅]) (by decide) (by rfl) (by decide)]
    rfl

/-- **C03.** `convert_matrix_to_sets` gives, for each row, the columns holding a non-zero value
(also in the presence of explicitly stored zeros). -/
theorem C03_sets_exact (m : Cmp) (h : m.WF) (hn : ∀ i < m.nMajor, (m.segIdx i).Nodup) :
    (convertMatrixToSets m).length = m.nMajor ∧
    ∀ i < m.nMajor, ∃ s, (convertMatrixToSets m)[i]? = some s ∧ ∀ j, j ∈ s ↔ m.val i j ≠ 0 := by
  refine ⟨by simp [convertMatrixToSets], ?_⟩
  intro i hi
  refine ⟨_, by simp [convertMatrixToSets, hi]; rfl, ?_⟩
  intro j
  rw [val_eq_sum_entries h i j hi]
  simp only [List.mem_toFinset, List.mem_map, List.mem_filter, Prod.exists, exists_and_right,
    exists_eq_right]
  have hnd : ((m.entries i).map Prod.fst).Nodup := by rw [entries_fst h]; exact hn i hi
  constructor
  · rintro ⟨d, hd, hne⟩
    rw [filter_fst_nodup hnd hd]
    simpa using hne
  · intro hne
    by_cases hs : ∃ d, (j, d) ∈ m.entries i
    · obtain ⟨d, hd⟩ := hs
      rw [filter_fst_nodup hnd hd] at hne
      exact ⟨d, hd, by simpa using hne⟩
    · exfalso
      apply hne
      have : (m.entries i).filter (fun e => e.1 = j) = [] := by
        rw [List.filter_eq_nil_iff]
        rintro ⟨a, d⟩ he hej
        simp only [decide_eq_true_eq] at hej
        subst hej
        exact hs ⟨d, he⟩
      rw [this]; rfl

/-- **C03.** Without explicitly stored zeros the two converters return the same list. -/
theorem C03_converters_agree (m : Cmp) (h : m.WF) (hz : m.NoStoredZero) :
    convertMatrixToSetsV2 m = convertMatrixToSets m := by
  unfold convertMatrixToSetsV2 convertMatrixToSets
  apply List.map_congr_left
  intro i _
  have : (m.entries i).filter (fun e => e.2 ≠ 0) = m.entries i := by
    rw [List.filter_eq_self]
    intro e he
    simpa using hz _ (mem_entries_snd he)
  rw [this, entries_fst h]; rfl

/-- **C03.** As soon as a (duplicate free) matrix stores an explicit zero the converters differ. -/
theorem C03_converters_differ (m : Cmp) (h : m.WF) (hn : ∀ i < m.nMajor, (m.segIdx i).Nodup)
    (i : ℕ) (hi : i < m.nMajor) (j : ℕ) (hs : m.Stored i j) (hv : m.val i j = 0) :
    convertMatrixToSetsV2 m ≠ convertMatrixToSets m := by
  intro heq
  obtain ⟨s, h1, h2⟩ := (C03_sets_exact m h hn).2 i hi
  rw [← heq] at h1
  have : (convertMatrixToSetsV2 m)[i]? = some (m.segIdx i).toFinset := by
    simp [convertMatrixToSetsV2, hi, segIdx]
  rw [this] at h1
  cases h1
  exact (h2 j).mp (by simpa [mem_segIdx] using hs) hv

/-- A matrix with one explicit zero. -/
def exampleZero : Cmp :=
  { nMajor := 2, nMinor := 2, indptr := [0, 1, 3], indices := [0, 0, 1], data := [1, 0, 1] }

theorem exampleZero_wf : exampleZero.WF :=
  { len_indptr := by decide, ptr_zero := by decide, ptr_mono := by decide, ptr_last := by decide,
    len_data := by decide, idx_lt := by decide }

example : convertMatrixToSetsV2 exampleZero ≠ convertMatrixToSets exampleZero :=
  C03_converters_differ exampleZero exampleZero_wf (by decide) 1 (by decide) 0
    ⟨1, by decide, by decide, by decide⟩ (by decide)

example : convertMatrixToSetsV2 exampleCSC = convertMatrixToSets exampleCSC :=
  C03_converters_agree exampleCSC exampleCSC_binary.toWF exampleCSC_binary.noStoredZero

/-- **C04.** Sets over `{0..L-1}` survive the trip through a matrix, which is a 0/1 matrix of shape
`(number of sets, L)`. -/
theorem C04_sets_roundtrip (sets : List (Finset ℕ)) (L : ℕ) (h : ∀ s ∈ sets, ∀ j ∈ s, j < L) :
    ∃ m, convertSetsToMatrix sets L = .ok m ∧ m.Binary ∧ m.nMajor = sets.length ∧ m.nMinor = L ∧
      convertMatrixToSets m = sets ∧ convertMatrixToSetsV2 m = sets := by
  have hm : sets.mapM (lilRow L) =
      .ok (sets.map fun s => (s.sort (· ≤ ·)).map fun j => ((j, 1) : ℕ × ℤ)) := by
    apply mapM_ok_of_forall
    intro s hs
    exact if_pos (h s hs)
  refine ⟨_, by simp only [convertSetsToMatrix, hm]; rfl, ?_⟩
  have hwf := wf_ofLines L (sets.map fun s => (s.sort (· ≤ ·)).map fun j => ((j, 1) : ℕ × ℤ)) (by
      intro l hl e he
      obtain ⟨s, hs, rfl⟩ := List.mem_map.mp hl
      obtain ⟨j, hj, rfl⟩ := List.mem_map.mp he
      exact h s hs j (by simpa using hj))
  have hb : (ofLines L (sets.map fun s => (s.sort (· ≤ ·)).map fun j => ((j, 1) : ℕ × ℤ))).Binary :=
    { toWF := hwf
      data_one := by
        intro d hd
        simp only [ofLines, List.mem_map, List.mem_flatten, Prod.exists, exists_eq_right] at hd
        obtain ⟨a, l, ⟨s, _, rfl⟩, hl⟩ := hd
        simp only [List.mem_map, Prod.mk.injEq] at hl
        obtain ⟨_, _, _, rfl⟩ := hl
        rfl
      nodup := by
        intro i hi
        rw [segIdx_ofLines _ _ _ (by simpa [ofLines] using hi)]
        simp [Function.comp_def] }
  have h2 : convertMatrixToSetsV2
      (ofLines L (sets.map fun s => (s.sort (· ≤ ·)).map fun j => ((j, 1) : ℕ × ℤ))) = sets := by
    apply List.ext_getElem
    · simp [convertMatrixToSetsV2, ofLines]
    · intro i h1 h2
      simp only [convertMatrixToSetsV2, List.getElem_map, List.getElem_range]
      have := segIdx_ofLines L
        (sets.map fun s => (s.sort (· ≤ ·)).map fun j => ((j, 1) : ℕ × ℤ)) i (by simpa using h2)
      rw [segIdx] at this
      rw [this]
      simp [Function.comp_def]
  refine ⟨hb, by simp [ofLines], rfl, ?_, h2⟩
  rw [← C03_converters_agree _ hwf hb.noStoredZero]
  exact h2

example : ∃ m, convertSetsToMatrix [{0, 2}, ∅, {1}] 3 = .ok m ∧ m.Binary ∧ m.nMajor = 3 ∧
    m.nMinor = 3 ∧ convertMatrixToSets m = [{0, 2}, ∅, {1}] ∧
    convertMatrixToSetsV2 m = [{0, 2}, ∅, {1}] :=
  C04_sets_roundtrip [{0, 2}, ∅, {1}] 3 (by decide)

/-- **C04.** An element outside the universe is rejected. -/
theorem C04_sets_out_of_range (sets : List (Finset ℕ)) (L : ℕ) (h : ∃ s ∈ sets, ∃ j ∈ s, L ≤ j) :
    convertSetsToMatrix sets L = .error .indexError := by
  have : sets.mapM (lilRow L) = .error .indexError := by
    apply mapM_error_of
    · intro s _
      unfold lilRow
      split
      · exact Or.inl ⟨_, rfl⟩
      · exact Or.inr rfl
    · obtain ⟨s, hs, j, hj, hge⟩ := h
      refine ⟨s, hs, if_neg ?_⟩
      intro hall
      exact absurd (hall j hj) (by omega)
  simp only [convertSetsToMatrix, this]; rfl

example : convertSetsToMatrix [{0, 3}] 3 = .error .indexError :=
  C04_sets_out_of_range _ _ ⟨{0, 3}, by simp, 3, by simp, le_rfl⟩

open Classical in
/-- **C04.** A 0/1 matrix survives the trip through sets: same shape, same value everywhere. -/
theorem C04_matrix_roundtrip (m : Cmp) (h : m.Binary) :
    ∃ m', convertSetsToMatrix (convertMatrixToSets m) m.nMinor = .ok m' ∧
      m'.nMajor = m.nMajor ∧ m'.nMinor = m.nMinor ∧
      ∀ i < m.nMajor, ∀ j, m'.val i j = m.val i j := by
  have hlen := (C03_sets_exact m h.toWF h.nodup).1
  have hex := (C03_sets_exact m h.toWF h.nodup).2
  obtain ⟨m', h1, h2, h3, h4, h5, -⟩ := C04_sets_roundtrip (convertMatrixToSets m) m.nMinor (by
    intro s hs j hj
    obtain ⟨i, hi, rfl⟩ := List.getElem_of_mem hs
    obtain ⟨s, hs1, hs2⟩ := hex i (by rwa [hlen] at hi)
    rw [List.getElem?_eq_getElem hi, Option.some_inj] at hs1
    rw [hs1, hs2, h.val_eq i j (by rwa [hlen] at hi)] at hj
    have : m.Stored i j := by
      by_contra hc; simp [hc] at hj
    exact this.minor_lt h.toWF)
  refine ⟨m', h1, h3.trans hlen, h4, ?_⟩
  intro i hi j
  have hi' : i < m'.nMajor := by rw [h3, hlen]; exact hi
  obtain ⟨s, hs1, hs2⟩ := hex i hi
  obtain ⟨s', hs1', hs2'⟩ := (C03_sets_exact m' h2.toWF h2.nodup).2 i hi'
  rw [h5, hs1, Option.some_inj] at hs1'
  subst hs1'
  have hiff : m.val i j ≠ 0 ↔ m'.val i j ≠ 0 := (hs2 j).symm.trans (hs2' j)
  rw [h.val_eq i j hi, h2.val_eq i j hi'] at hiff ⊢
  by_cases ha : m.Stored i j <;> by_cases hb : m'.Stored i j <;> simp [ha, hb] at hiff ⊢

example : ∃ m', convertSetsToMatrix (convertMatrixToSets exampleCSC) 4 = .ok m' ∧
      m'.nMajor = 3 ∧ m'.nMinor = 4 ∧ ∀ i < 3, ∀ j, m'.val i j = exampleCSC.val i j :=
  C04_matrix_roundtrip exampleCSC exampleCSC_binary

end Verif
