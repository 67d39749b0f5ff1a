/-
Properties C17-C19: coverage of the training labels.
-/
import Verif.Lemmas.Coverage
import Verif.Props.Predict

namespace Verif
open Cmp

/-- Training features in CSR form: rows {0,1}, {0}, {1,2}, {0,1,2}. -/
def trainX : Cmp :=
  { nMajor := 4, nMinor := 3, indptr := [0, 2, 3, 5, 8], indices := [0, 1, 0, 1, 2, 0, 1, 2],
    data := [1, 1, 1, 1, 1, 1, 1, 1] }

/-- Training labels in CSR form: rows {0,1}, {0}, {1}, {0,1}. -/
def trainY : Cmp :=
  { nMajor := 4, nMinor := 2, indptr := [0, 2, 3, 4, 6], indices := [0, 1, 0, 1, 0, 1],
    data := [1, 1, 1, 1, 1, 1] }

theorem trainX_binary : trainX.Binary :=
  { len_indptr := by decide, ptr_zero := by decide, ptr_mono := by decide, ptr_last := by decide,
    len_data := by decide, idx_lt := by decide, data_one := by decide, nodup := by decide }

theorem trainY_binary : trainY.Binary :=
  { len_indptr := by decide, ptr_zero := by decide, ptr_mono := by decide, ptr_last := by decide,
    len_data := by decide, idx_lt := by decide, data_one := by decide, nodup := by decide }

theorem boundTo_mk {X Y : Cmp} (hn : X.nMajor = Y.nMajor) {head tail : List ℤ}
    (hh : head ≠ []) (ht : tail ≠ []) (hnd : tail.Nodup) (hhr : ∀ x ∈ head, 0 ≤ x ∧ x < X.nMinor)
    (htr : ∀ x ∈ tail, 0 ≤ x ∧ x < Y.nMinor) (hs : ∃ i, RowHas X.flip head i) :
    BoundTo X Y (boundRule (Rule.new head tail) X.flip Y.flip) := by
  refine ⟨⟨head, tail, bindDataset_ok (wf_flip X) (wf_flip Y) (by simpa using hn)
    (Rule.new_head_ne_nil.mpr hh) (Rule.new_tail_ne_nil.mpr ht) ?_ ?_ ?_⟩, ?_, ?_⟩
  · simpa only [Rule.mem_new_head, flip_nMajor] using hhr
  · simpa only [Rule.mem_new_tail, flip_nMajor] using htr
  · simpa only [RowHas, Rule.mem_new_head] using hs
  · intro l hl
    exact (htr l ((Rule.mem_new_tail _ _ _).mp hl)).1
  · exact (List.mergeSort_perm _ _).nodup_iff.mpr hnd

/-- Two rules bound to the training data: `0 -> {0}` and `{1,2} -> {0,1}`. -/
def trainRules : List BRule :=
  [boundRule (Rule.new [0] [0]) trainX.flip trainY.flip,
   boundRule (Rule.new [1, 2] [0, 1]) trainX.flip trainY.flip]

theorem trainRules_bound : ∀ b ∈ trainRules, BoundTo trainX trainY b := by
  intro b hb
  simp only [trainRules, List.mem_cons, List.not_mem_nil, or_false] at hb
  rcases hb with rfl | rfl
  · exact boundTo_mk (by decide) (by decide) (by decide) (by decide) (by decide) (by decide)
      ⟨0, by decide⟩
  · exact boundTo_mk (by decide) (by decide) (by decide) (by decide) (by decide) (by decide)
      ⟨3, by decide⟩

/-- **C17.** `coverage_ratio` is the number of label cells covered by the selected rules divided by
the number of label occurrences of `Y`; it is in [0,1]. -/
theorem C17_coverage_ratio (X Y : Cmp) (hX : X.WF) (hY : Y.Binary) (hn : X.nMajor = Y.nMajor)
    (h0 : (labelCells Y).Nonempty) (rs : List BRule) (hb : ∀ b ∈ rs, BoundTo X Y b) :
    ∃ q, coverageRatio Y rs = .ok q ∧
      q = ((labelCells Y).filter fun c => ∃ r ∈ rs, c ∈ area r).card / ((labelCells Y).card : ℚ) ∧
      0 ≤ q ∧ q ≤ 1 := by
  have hc := card_labelCells hY
  have hpos : 0 < Y.nnz := hc ▸ Finset.card_pos.mpr h0
  have hs := covered_subset hX hY.toWF hn hb
  refine ⟨_, coverageRatio_eq hY hpos hs, ?_, by positivity, ?_⟩
  · rw [hc]
    congr 3
    ext c
    rw [Finset.mem_filter, mem_covered]
    exact ⟨fun h => ⟨hs ((mem_covered _ _).mpr h), h⟩, fun h => h.2⟩
  · rw [div_le_one (by exact_mod_cast hpos)]
    exact_mod_cast hc ▸ Finset.card_le_card hs

/-- **C17.** No rules cover nothing, and adding rules never decreases the coverage ratio. -/
theorem C17_coverage_ratio_monotone (X Y : Cmp) (hX : X.WF) (hY : Y.Binary)
    (hn : X.nMajor = Y.nMajor) (h0 : (labelCells Y).Nonempty) (rs rs' : List BRule)
    (hsub : ∀ b ∈ rs, b ∈ rs') (hb : ∀ b ∈ rs', BoundTo X Y b) :
    coverageRatio Y [] = .ok 0 ∧
    ∃ q q', coverageRatio Y rs = .ok q ∧ coverageRatio Y rs' = .ok q' ∧ q ≤ q' := by
  have hc := card_labelCells hY
  have hpos : 0 < Y.nnz := hc ▸ Finset.card_pos.mpr h0
  constructor
  · rw [coverageRatio_eq hY hpos (by simp [covered])]
    simp [covered]
  · refine ⟨_, _, coverageRatio_eq hY hpos (covered_subset hX hY.toWF hn fun b h => hb b (hsub b h)),
      coverageRatio_eq hY hpos (covered_subset hX hY.toWF hn hb), ?_⟩
    have : (covered rs).card ≤ (covered rs').card := by
      apply Finset.card_le_card
      intro c hc
      rw [mem_covered] at hc ⊢
      obtain ⟨r, hr, h⟩ := hc
      exact ⟨r, hsub r hr, h⟩
    gcongr

example : ∃ q, coverageRatio trainY trainRules = .ok q ∧ q ≤ 1 := by
  obtain ⟨q, h1, -, -, h2⟩ := C17_coverage_ratio trainX trainY trainX_binary.toWF trainY_binary
    (by decide) ⟨(0, 0), by decide⟩ trainRules trainRules_bound
  exact ⟨q, h1, h2⟩

/-- **C18.** The marginal coverage ratios of the rules, each taken relative to the rules before it,
add up to the coverage ratio of the whole list. -/
theorem C18_marginals_telescope (X Y : Cmp) (hX : X.WF) (hY : Y.Binary)
    (hn : X.nMajor = Y.nMajor) (h0 : (labelCells Y).Nonempty) (rs : List BRule)
    (hb : ∀ b ∈ rs, BoundTo X Y b) :
    ∃ gain : ℕ → ℚ,
      (∀ i (hi : i < rs.length), marginalCoverageRatio Y (rs.take i) rs[i] = .ok (gain i)) ∧
      coverageRatio Y rs = .ok (∑ i ∈ Finset.range rs.length, gain i) := by
  have hc := card_labelCells hY
  have hpos : 0 < Y.nnz := hc ▸ Finset.card_pos.mpr h0
  refine ⟨fun i => ((if h : i < rs.length then (rs[i]).marginalCoverage (rs.take i) else 0 : ℕ) : ℚ)
    / (Y.nnz : ℚ), ?_, ?_⟩
  · intro i hi
    rw [marginalCoverageRatio, pyDiv, if_neg (by exact_mod_cast hpos.ne')]
    simp [hi]
  · rw [coverageRatio_eq hY hpos (covered_subset hX hY.toWF hn hb)]
    congr 1
    rw [← Finset.sum_div]
    congr 1
    have := sum_marginal rs rs.length le_rfl
    rw [List.take_length] at this
    rw [← this]
    push_cast
    rfl

example : ∃ gain : ℕ → ℚ, coverageRatio trainY trainRules = .ok (∑ i ∈ Finset.range 2, gain i) := by
  obtain ⟨g, -, h⟩ := C18_marginals_telescope trainX trainY trainX_binary.toWF trainY_binary
    (by decide) ⟨(0, 0), by decide⟩ trainRules trainRules_bound
  exact ⟨g, h⟩

/-- **C19.** On the training data every covered label occurrence is predicted, so the fraction of the
label occurrences that are predicted (micro recall) is at least the coverage ratio. -/
theorem C19_coverage_le_recall (X Y : Cmp) (hX : X.WF) (hY : Y.Binary)
    (hn : X.nMajor = Y.nMajor) (h0 : (labelCells Y).Nonempty) (rs : List BRule)
    (hb : ∀ b ∈ rs, BoundTo X Y b) :
    ∃ P q, predict (rs.map BRule.toRule) (some Y.nMinor) X = .ok P ∧ coverageRatio Y rs = .ok q ∧
      (∀ r ∈ rs, ∀ i ∈ r.support, ∀ l ∈ r.tail, P.val i l.toNat = 1) ∧
      q ≤ ((labelCells Y).filter fun c => P.val c.1 c.2.toNat = 1).card
          / ((labelCells Y).card : ℚ) := by
  have hspec := fun b h => (hb b h).spec hX hY.toWF hn
  obtain ⟨P, hP, -, -, -, hv⟩ := C14_predict_exact (rs.map BRule.toRule) Y.nMinor X (by
    intro i _ r hr _ l hl
    obtain ⟨b, hbm, rfl⟩ := List.mem_map.mp hr
    exact (hspec b hbm).2.2.2.1 l hl)
  obtain ⟨q, hq, hqe, -⟩ := C17_coverage_ratio X Y hX hY hn h0 rs hb
  have hcov : ∀ r ∈ rs, ∀ i ∈ r.support, ∀ l ∈ r.tail, P.val i l.toNat = 1 := by
    intro r hr i hi l hl
    obtain ⟨-, -, -, h4, h5, -⟩ := hspec r hr
    have hi' := (h5 i).mp hi
    have hst := (hi'.2 l hl).2
    have hl' := h4 l hl
    rw [(hv i (hn ▸ hst.major_lt hY.toWF) l.toNat (by omega)).1]
    exact ⟨r.toRule, List.mem_map.mpr ⟨r, hr, rfl⟩, hi'.1, by rwa [Int.toNat_of_nonneg hl'.1]⟩
  refine ⟨P, q, hP, hq, hcov, ?_⟩
  rw [hqe]
  gcongr with c hc
  rintro ⟨r, hr, hcr⟩
  rw [area, Finset.mem_product, List.mem_toFinset] at hcr
  exact hcov r hr c.1 hcr.1 c.2 hcr.2

example : ∃ P q, predict (trainRules.map BRule.toRule) (some 2) trainX = .ok P ∧
    coverageRatio trainY trainRules = .ok q := by
  obtain ⟨P, q, h1, h2, -⟩ := C19_coverage_le_recall trainX trainY trainX_binary.toWF trainY_binary
    (by decide) ⟨(0, 0), by decide⟩ trainRules trainRules_bound
  exact ⟨P, q, h1, h2⟩

end Verif
