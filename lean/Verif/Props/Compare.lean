/-
C125: comparing sparse matrices.
-/
import Verif.Model.Compare
import Verif.Props.Sparse
import Verif.Props.Predict
import Verif.Props.Evaluation

namespace Verif

open Cmp

theorem csrNe_nnz (A B : Cmp) (hA : A.WF) (hB : B.WF) (hN : A.nMajor = B.nMajor) :
    (csrNe A B).nnz = 0 ↔ ∀ i < A.nMajor, ∀ j < A.nMinor, A.val i j = B.val i j := by
  have hlen : (csrNe A B).nMajor = A.nMajor := by simp [csrNe, ofLines]
  have hw : (csrNe A B).WF := by
    apply wf_ofLines
    intro l hl e he
    obtain ⟨i, _, rfl⟩ := List.mem_map.mp hl
    obtain ⟨j, hj, rfl⟩ := List.mem_map.mp he
    exact List.mem_range.mp (List.mem_filter.mp hj).1
  have hidx : (csrNe A B).nnz = (csrNe A B).indices.length := hw.ptr_last
  rw [hidx, List.length_eq_zero_iff]
  have hi : (csrNe A B).indices = (((List.range A.nMajor).map fun i =>
    ((List.range A.nMinor).filter fun j => decide (cellSum A i j ≠ cellSum B i j)).map
      fun j => ((j, 1) : ℕ × ℤ)).flatten).map Prod.fst := rfl
  rw [hi, List.map_eq_nil_iff, List.flatten_eq_nil_iff]
  constructor
  · intro h i hi j hj
    have := h _ (List.mem_map.mpr ⟨i, List.mem_range.mpr hi, rfl⟩)
    rw [List.map_eq_nil_iff, List.filter_eq_nil_iff] at this
    have := this j (List.mem_range.mpr hj)
    rw [decide_eq_true_iff, not_not, cellSum_eq_val hA j hi, cellSum_eq_val hB j (hN ▸ hi)] at this
    exact this
  · intro h l hl
    obtain ⟨i, hi, rfl⟩ := List.mem_map.mp hl
    rw [List.mem_range] at hi
    rw [List.map_eq_nil_iff, List.filter_eq_nil_iff]
    intro j hj
    rw [decide_eq_true_iff, not_not, cellSum_eq_val hA j hi, cellSum_eq_val hB j (hN ▸ hi)]
    exact h i hi j (List.mem_range.mp hj)

/-- **C125.** On matrices of the same shape `csr_matrix_equal` answers `True` exactly if every entry is the
same and `False` otherwise, however the entries are stored; on matrices of different shapes it raises
`AttributeError` instead of answering `False`. -/
theorem C125_equal (A B : Cmp) (hA : A.WF) (hB : B.WF) :
    (csrMatrixEqual A B = .ok true ↔ A.nMajor = B.nMajor ∧ A.nMinor = B.nMinor ∧
      ∀ i < A.nMajor, ∀ j < A.nMinor, A.val i j = B.val i j) ∧
    (csrMatrixEqual A B = .ok false ↔ A.nMajor = B.nMajor ∧ A.nMinor = B.nMinor ∧
      ∃ i < A.nMajor, ∃ j < A.nMinor, A.val i j ≠ B.val i j) ∧
    (csrMatrixEqual A B = .error .attributeError ↔ A.nMajor ≠ B.nMajor ∨ A.nMinor ≠ B.nMinor) := by
  unfold csrMatrixEqual
  by_cases h : A.nMajor = B.nMajor ∧ A.nMinor = B.nMinor
  · have hn := csrNe_nnz A B hA hB h.1
    rw [if_pos h]
    refine ⟨?_, ?_, ?_⟩
    · rw [Except.ok.injEq, decide_eq_true_iff, hn]; exact ⟨fun x => ⟨h.1, h.2, x⟩, fun x => x.2.2⟩
    · rw [Except.ok.injEq, decide_eq_false_iff_not, hn]
      push Not
      exact ⟨fun x => ⟨h.1, h.2, x⟩, fun x => x.2.2⟩
    · simp only [reduceCtorEq, false_iff]; push Not; exact h
  · rw [if_neg h]
    refine ⟨?_, ?_, ?_⟩
    · simp only [reduceCtorEq, false_iff]; exact fun x => h ⟨x.1, x.2.1⟩
    · simp only [reduceCtorEq, false_iff]; exact fun x => h ⟨x.1, x.2.1⟩
    · simp only [true_iff]; by_contra hc; push Not at hc; exact h hc

/-- **C125.** Matrices built from lists of sets over the same universe compare equal exactly if the lists are
the same; lists of different lengths cannot be compared. -/
theorem C125_sets (S T : List (Finset ℕ)) (L : ℕ) (hS : ∀ s ∈ S, ∀ j ∈ s, j < L)
    (hT : ∀ s ∈ T, ∀ j ∈ s, j < L) :
    ∃ A B, convertSetsToMatrix S L = .ok A ∧ convertSetsToMatrix T L = .ok B ∧
      (S.length = T.length → csrMatrixEqual A B = .ok (decide (S = T))) ∧
      (S.length ≠ T.length → csrMatrixEqual A B = .error .attributeError) := by
  obtain ⟨A, hA, bA, nA, mA, sA, -⟩ := C04_sets_roundtrip S L hS
  obtain ⟨B, hB, bB, nB, mB, sB, -⟩ := C04_sets_roundtrip T L hT
  refine ⟨A, B, hA, hB, fun hl => ?_, fun hl => ?_⟩
  · have key : S = T ↔ ∀ i < A.nMajor, ∀ j < A.nMinor, A.val i j = B.val i j := by
      have hAi := (C03_sets_exact A bA.toWF bA.nodup).2
      have hBi := (C03_sets_exact B bB.toWF bB.nodup).2
      rw [sA] at hAi
      rw [sB] at hBi
      constructor
      · intro he i hi j _
        obtain ⟨s, h1, h2⟩ := hAi i hi
        obtain ⟨t, h3, h4⟩ := hBi i (by rw [nB, ← hl, ← nA]; exact hi)
        rw [he, h3] at h1
        cases h1
        have := (h2 j).symm.trans (h4 j)
        rw [bA.val_eq i j hi, bB.val_eq i j (by rw [nB, ← hl, ← nA]; exact hi)] at this ⊢
        split_ifs at this ⊢ with p q <;> simp at this ⊢
      · intro he
        apply List.ext_getElem? 
        intro i
        by_cases hi : i < A.nMajor
        · obtain ⟨s, h1, h2⟩ := hAi i hi
          have hi' : i < B.nMajor := by rw [nB, ← hl, ← nA]; exact hi
          obtain ⟨t, h3, h4⟩ := hBi i hi'
          rw [h1, h3]
          congr 1
          ext j
          rw [h2, h4]
          by_cases hj : j < A.nMinor
          · rw [he i hi j hj]
          · have e1 : j ∉ s := fun hm => hj (by rw [mA]; exact hS s (List.mem_of_getElem? h1) j hm)
            have e2 : j ∉ t := fun hm => hj (by rw [mA]; exact hT t (List.mem_of_getElem? h3) j hm)
            rw [h2] at e1
            rw [h4] at e2
            exact ⟨fun x => absurd x e1, fun x => absurd x e2⟩
        · rw [List.getElem?_eq_none (by rw [← nA]; omega), List.getElem?_eq_none (by rw [← hl, ← nA]; omega)]
    have hN : A.nMajor = B.nMajor := by rw [nA, nB, hl]
    have hM : A.nMinor = B.nMinor := by rw [mA, mB]
    by_cases he : S = T
    · rw [decide_eq_true he]
      exact (C125_equal A B bA.toWF bB.toWF).1.mpr ⟨hN, hM, key.mp he⟩
    · rw [decide_eq_false he]
      refine (C125_equal A B bA.toWF bB.toWF).2.1.mpr ⟨hN, hM, ?_⟩
      have := mt key.mpr he
      push Not at this
      exact this
  · exact (C125_equal A B bA.toWF bB.toWF).2.2.mpr (Or.inl (by rw [nA, nB]; exact hl))

theorem binary_stored_iff {A : Cmp} (hA : A.Binary) {i j : ℕ} (hi : i < A.nMajor) :
    A.Stored i j ↔ A.val i j = 1 := by
  rw [hA.val_eq i j hi]
  split_ifs with h <;> simp [h]

theorem fires_congr {A B : Cmp} (hA : A.Binary) (hB : B.Binary) (hN : A.nMajor = B.nMajor) (hM : A.nMinor = B.nMinor)
    (h : ∀ i < A.nMajor, ∀ j < A.nMinor, A.val i j = B.val i j) (i : ℕ) (hi : i < A.nMajor) (j : ℕ) :
    A.Stored i j ↔ B.Stored i j := by
  by_cases hj : j < A.nMinor
  · rw [binary_stored_iff hA hi, binary_stored_iff hB (hN ▸ hi), h i hi j hj]
  · exact ⟨fun x => absurd (x.minor_lt hA.toWF) hj, fun x => absurd (x.minor_lt hB.toWF) (hM ▸ hj)⟩

/-- **C125.** Two canonical matrices of the same shape that compare equal are the same for both converters
and for the predictions of every classifier, and conversely: if every classifier predicts the same for both,
they compare equal. -/
theorem C125_indistinguishable (A B : Cmp) (hA : A.Binary) (hB : B.Binary) (hN : A.nMajor = B.nMajor)
    (hM : A.nMinor = B.nMinor) :
    (csrMatrixEqual A B = .ok true ↔ convertMatrixToSets A = convertMatrixToSets B) ∧
    (csrMatrixEqual A B = .ok true ↔ convertMatrixToSetsV2 A = convertMatrixToSetsV2 B) ∧
    (csrMatrixEqual A B = .ok true ↔
      ∀ (rules : List Rule) (L : ℕ), predict rules (some L) A = predict rules (some L) B) := by
  have key := (C125_equal A B hA.toWF hB.toWF).1
  have hzA : A.NoStoredZero := fun d hd => by rw [hA.data_one d hd]; decide
  have hzB : B.NoStoredZero := fun d hd => by rw [hB.data_one d hd]; decide
  have hv2 : csrMatrixEqual A B = .ok true ↔ convertMatrixToSetsV2 A = convertMatrixToSetsV2 B := by
    rw [key]
    constructor
    · rintro ⟨-, -, h⟩
      unfold convertMatrixToSetsV2
      rw [← hN]
      apply List.map_congr_left
      intro i hi
      have := fires_congr hA hB hN hM h i (List.mem_range.mp hi)
      ext j
      rw [List.mem_toFinset, List.mem_toFinset]
      have e : ∀ (M : Cmp), j ∈ pySlice M.indices (M.ptr i) (M.ptr (i + 1)) ↔ M.Stored i j := fun M => by
        rw [← mem_segIdx]; rfl
      rw [e, e, this j]
    · intro h
      refine ⟨hN, hM, fun i hi j _ => ?_⟩
      have e : ∀ (M : Cmp), i < M.nMajor → (convertMatrixToSetsV2 M)[i]? = some (M.segIdx i).toFinset := by
        intro M hM; simp [convertMatrixToSetsV2, hM, segIdx]
      have h1 := e A hi
      rw [h, e B (hN ▸ hi)] at h1
      have h2 : B.Stored i j ↔ A.Stored i j := by
        rw [← mem_segIdx, ← mem_segIdx, ← List.mem_toFinset, Option.some.inj h1, List.mem_toFinset]
      rw [hA.val_eq i j hi, hB.val_eq i j (hN ▸ hi)]
      simp only [h2]
  refine ⟨?_, hv2, ?_⟩
  · rw [hv2, C03_converters_agree A hA.toWF hzA, C03_converters_agree B hB.toWF hzB]
  · constructor
    · intro h rules L
      simp only [predict, hv2.mp h]
    · intro h
      rw [key]
      refine ⟨hN, hM, fun i hi j hj => ?_⟩
      have hr : ∀ (M : Cmp), ∀ k < M.nMajor, ∀ r ∈ [Rule.new [(j : ℤ)] [0]], Fires M r k → ∀ l ∈ r.tail,
          0 ≤ l ∧ l < ((1 : ℕ) : ℤ) := by
        intro M k _ r hr _ l hl
        rw [List.mem_singleton.mp hr, Rule.mem_new_tail, List.mem_singleton] at hl
        omega
      have fires : ∀ (M : Cmp), Fires M (Rule.new [(j : ℤ)] [0]) i ↔ M.Stored i j := by
        intro M
        unfold Fires
        simp only [Rule.mem_new_head, List.mem_singleton]
        constructor
        · intro hx; simpa using (hx _ rfl).2
        · rintro hx f rfl; exact ⟨by omega, by simpa using hx⟩
      obtain ⟨P, hP, -, -, -, p⟩ := C14_predict_exact [Rule.new [(j : ℤ)] [0]] 1 A (hr A)
      obtain ⟨Q, hQ, -, -, -, q⟩ := C14_predict_exact [Rule.new [(j : ℤ)] [0]] 1 B (hr B)
      rw [h, hQ] at hP
      cases hP
      have h1 := (p i hi 0 (by omega)).1
      have h2 := (q i (hN ▸ hi) 0 (by omega)).1
      have ht : ((0 : ℕ) : ℤ) ∈ (Rule.new [(j : ℤ)] [0]).tail := by rw [Rule.mem_new_tail]; simp
      simp only [List.mem_singleton, exists_eq_left, fires, ht, and_true] at h1 h2
      have h3 : A.Stored i j ↔ B.Stored i j := h1.symm.trans h2
      rw [hA.val_eq i j hi, hB.val_eq i j (hN ▸ hi)]
      simp only [h3]

/-- A matrix with a stored zero, and the same matrix without it. -/
def withZero : Cmp := ⟨1, 2, [0, 2], [0, 1], [1, 0]⟩
def withoutZero : Cmp := ⟨1, 2, [0, 1], [0], [1]⟩

/-- **C125.** With a stored zero this fails: two matrices compare equal although the converter used by
`predict` reads different rows and a classifier predicts a label for one and not for the other. -/
theorem C125_stored_zero :
    csrMatrixEqual withZero withoutZero = .ok true ∧
    convertMatrixToSetsV2 withZero ≠ convertMatrixToSetsV2 withoutZero ∧
    ∃ P Q, predict [Rule.new [1] [0]] (some 1) withZero = .ok P ∧
      predict [Rule.new [1] [0]] (some 1) withoutZero = .ok Q ∧ csrMatrixEqual P Q = .ok false := by
  have hw : withZero.WF :=
    ⟨rfl, rfl, by decide, rfl, rfl, by decide⟩
  have hw' : withoutZero.WF :=
    ⟨rfl, rfl, by decide, rfl, rfl, by decide⟩
  refine ⟨?_, by decide, ?_⟩
  · refine (C125_equal _ _ hw hw').1.mpr ⟨rfl, rfl, ?_⟩
    decide
  · have hr : ∀ (M : Cmp), ∀ k < M.nMajor, ∀ r ∈ [Rule.new [1] [0]], Fires M r k → ∀ l ∈ r.tail,
        0 ≤ l ∧ l < ((1 : ℕ) : ℤ) := by
      intro M k _ r hr _ l hl
      rw [List.mem_singleton.mp hr, Rule.mem_new_tail, List.mem_singleton] at hl
      omega
    have fires : ∀ (M : Cmp), Fires M (Rule.new [1] [0]) 0 ↔ M.Stored 0 1 := by
      intro M
      unfold Fires
      simp only [Rule.mem_new_head, List.mem_singleton]
      constructor
      · intro hx; simpa using (hx _ rfl).2
      · rintro hx f rfl; exact ⟨by omega, by simpa using hx⟩
    obtain ⟨P, hP, nP, mP, bP, p⟩ := C14_predict_exact [Rule.new [1] [0]] 1 withZero (hr _)
    obtain ⟨Q, hQ, nQ, mQ, bQ, q⟩ := C14_predict_exact [Rule.new [1] [0]] 1 withoutZero (hr _)
    refine ⟨P, Q, hP, hQ, (C125_equal P Q bP.toWF bQ.toWF).2.1.mpr
      ⟨nP.trans nQ.symm, mP.trans mQ.symm, 0, by rw [nP]; decide, 0, by rw [mP]; decide, ?_⟩⟩
    have ht : ((0 : ℕ) : ℤ) ∈ (Rule.new [1] [0]).tail := by rw [Rule.mem_new_tail]; simp
    have h1 := (p 0 (by decide) 0 (by omega)).1
    have h2 := (q 0 (by decide) 0 (by omega)).2
    simp only [List.mem_singleton, exists_eq_left, fires, ht, and_true] at h1 h2
    rw [h1.mpr ⟨1, by decide, by decide, by decide⟩, h2.mpr (by
      rw [← mem_segIdx]; decide)]
    decide

/-- **C125.** Comparison is reflexive, symmetric and transitive, so that comparing results with a stored
reference is consistent. -/
theorem C125_equivalence (A B C : Cmp) (hA : A.WF) (hB : B.WF) (hC : C.WF) :
    csrMatrixEqual A A = .ok true ∧ csrMatrixEqual A B = csrMatrixEqual B A ∧
    (csrMatrixEqual A B = .ok true → csrMatrixEqual B C = .ok true → csrMatrixEqual A C = .ok true) := by
  refine ⟨(C125_equal A A hA hA).1.mpr ⟨rfl, rfl, fun _ _ _ _ => rfl⟩, ?_, fun h1 h2 => ?_⟩
  · unfold csrMatrixEqual
    by_cases h : A.nMajor = B.nMajor ∧ A.nMinor = B.nMinor
    · rw [if_pos h, if_pos ⟨h.1.symm, h.2.symm⟩]
      congr 1
      rw [decide_eq_decide, csrNe_nnz A B hA hB h.1, csrNe_nnz B A hB hA h.1.symm, h.1, h.2]
      exact ⟨fun x i hi j hj => (x i hi j hj).symm, fun x i hi j hj => (x i hi j hj).symm⟩
    · rw [if_neg h, if_neg (fun x => h ⟨x.1.symm, x.2.symm⟩)]
  · obtain ⟨a, b, c⟩ := (C125_equal A B hA hB).1.mp h1
    obtain ⟨a', b', c'⟩ := (C125_equal B C hB hC).1.mp h2
    exact (C125_equal A C hA hC).1.mpr ⟨a.trans a', b.trans b', fun i hi j hj =>
      (c i hi j hj).trans (c' i (a ▸ hi) j (b ▸ hj))⟩

/-- The hypotheses are met by distinct matrices that store the same entries in a different order. -/
example : csrMatrixEqual ⟨1, 3, [0, 2], [0, 2], [1, 1]⟩ ⟨1, 3, [0, 2], [2, 0], [1, 1]⟩ = .ok true ∧
    (⟨1, 3, [0, 2], [0, 2], [1, 1]⟩ : Cmp) ≠ ⟨1, 3, [0, 2], [2, 0], [1, 1]⟩ :=
  ⟨(C125_equal _ _ ⟨rfl, rfl, by decide, rfl, rfl, by decide⟩ ⟨rfl, rfl, by decide, rfl, rfl, by decide⟩).1.mpr
    ⟨rfl, rfl, by decide⟩, by decide⟩

/-- The hypotheses of the theorem on predictions are met by two different canonical matrices. -/
example : ∃ A B : Cmp, A.Binary ∧ B.Binary ∧ A.nMajor = B.nMajor ∧ A.nMinor = B.nMinor ∧ A ≠ B ∧
    csrMatrixEqual A B = .ok false := by
  obtain ⟨A, B, hA, hB, h, -⟩ := C125_sets [{0, 2}, ∅] [{0, 2}, {1}] 3 (by decide) (by decide)
  obtain ⟨A', hA', bA, nA, mA, sA, -⟩ := C04_sets_roundtrip [{0, 2}, ∅] 3 (by decide)
  obtain ⟨B', hB', bB, nB, mB, sB, -⟩ := C04_sets_roundtrip [{0, 2}, {1}] 3 (by decide)
  rw [hA] at hA'; rw [hB] at hB'
  cases hA'; cases hB'
  refine ⟨A, B, bA, bB, by rw [nA, nB]; rfl, by rw [mA, mB], ?_, ?_⟩
  · rintro rfl
    rw [sA] at sB
    exact absurd sB (by decide)
  · rw [h rfl]; decide

end Verif
