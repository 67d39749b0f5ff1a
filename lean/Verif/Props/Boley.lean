/-
Properties of the discriminative pattern sampler of Boley et al. (part of C57, C59).
-/
import Verif.Lemmas.Boley
import Verif.Props.GroundTruth

namespace Verif

open RandR Cftp

/-! ### From the rows to the matrix -/

theorem rowsV2_length (X : Cmp) : (convertMatrixToSetsV2 X).length = X.nMajor := by rw [sets_v2]; simp

theorem rowsV2_getD (X : Cmp) {i : ℕ} (h : i < X.nMajor) : (convertMatrixToSetsV2 X).getD i ∅ = rowSet X i := by
  rw [getD_lt (by rw [rowsV2_length]; exact h)]
  simp [sets_v2]

theorem card_rowSet {X : Cmp} (hX : X.WF) (i : ℕ) : (rowSet X i).card = rowSize X i := by
  unfold rowSize
  congr 1
  ext f
  simp only [Finset.mem_filter, mem_rowSet, Finset.mem_range]
  exact ⟨fun h => ⟨h.minor_lt hX, h⟩, And.right⟩

theorem card_rowDiff {X : Cmp} (hX : X.WF) (i j : ℕ) : (rowSet X i \ rowSet X j).card = rowDiff X i j := by
  unfold rowDiff
  congr 1
  ext f
  simp only [Finset.mem_filter, Finset.mem_sdiff, mem_rowSet, Finset.mem_range]
  exact ⟨fun h => ⟨h.1.minor_lt hX, h⟩, And.right⟩

theorem posIndices_labelled {y : List ℤ} (hy : y.toFinset = {0, 1}) : (posIndices y).toFinset = labelled y 1 := by
  ext i
  rw [List.mem_toFinset, mem_posIndices, labelled, Finset.mem_filter, Finset.mem_range]
  constructor
  · rintro ⟨h, h'⟩
    refine ⟨h, ?_⟩
    rcases label_values hy h with h1 | h1
    · omega
    · rw [getD_lt h] at h1
      rw [List.getElem?_eq_getElem h, h1]
  · rintro ⟨h, h'⟩
    refine ⟨h, ?_⟩
    rw [List.getElem?_eq_getElem h] at h'
    rw [getD_lt h, Option.some.inj h']
    norm_num

theorem negIndices_labelled (y : List ℤ) : (negIndices y).toFinset = labelled y 0 := by
  ext i
  rw [List.mem_toFinset, mem_negIndices, labelled, Finset.mem_filter, Finset.mem_range]
  constructor
  · rintro ⟨h, h'⟩
    rw [getD_lt h] at h'
    exact ⟨h, by rw [List.getElem?_eq_getElem h, h']⟩
  · rintro ⟨h, h'⟩
    rw [List.getElem?_eq_getElem h] at h'
    exact ⟨h, by rw [getD_lt h, Option.some.inj h']⟩

theorem mem_separatedPairs {X : Cmp} {y : List ℤ} {F : Finset ℕ} {i j : ℕ} :
    (i, j) ∈ separatedPairs X y F ↔ i ∈ labelled y 1 ∧ j ∈ labelled y 0 ∧
      F ∈ pairPatterns (rowSet X i) (rowSet X j) := by
  have hs : ∀ i, F ⊆ rowSet X i ↔ ∀ f ∈ F, X.Stored i f := fun i =>
    ⟨fun h f hf => mem_rowSet.mp (h hf), fun h f hf => mem_rowSet.mpr (h f hf)⟩
  unfold separatedPairs labelled
  rw [mem_pairPatterns, hs, hs]
  simp only [Finset.mem_filter, Finset.mem_product]
  tauto

/-- Summing over pairs and their patterns is summing over patterns and the pairs they separate. -/
theorem sum_swap_patterns {X : Cmp} (hX : X.WF) (y : List ℤ) (h : ℕ → ℕ → Finset ℕ → ℝ) :
    ∑ i ∈ labelled y 1, ∑ j ∈ labelled y 0, ∑ F ∈ pairPatterns (rowSet X i) (rowSet X j), h i j F =
      ∑ F ∈ itemsets X, ∑ ij ∈ separatedPairs X y F, h ij.1 ij.2 F := by
  have h1 : ∀ F, ∑ ij ∈ separatedPairs X y F, h ij.1 ij.2 F =
      ∑ ij ∈ labelled y 1 ×ˢ labelled y 0,
        if F ∈ pairPatterns (rowSet X ij.1) (rowSet X ij.2) then h ij.1 ij.2 F else 0 := by
    intro F
    rw [← Finset.sum_filter]
    apply Finset.sum_congr _ fun _ _ => rfl
    ext ⟨i, j⟩
    rw [mem_separatedPairs, Finset.mem_filter, Finset.mem_product]
    tauto
  simp only [h1]
  rw [Finset.sum_comm (s := itemsets X), Finset.sum_product]
  apply Finset.sum_congr rfl
  intro i _
  apply Finset.sum_congr rfl
  intro j _
  rw [← Finset.sum_filter]
  apply Finset.sum_congr _ fun _ _ => rfl
  ext F
  rw [Finset.mem_filter]
  refine ⟨fun hF => ⟨?_, hF⟩, And.right⟩
  rw [itemsets, Finset.mem_powerset]
  exact (mem_pairPatterns.mp hF).1.trans (rowSet_subset hX i)

/-- The weights of the constructed object, in terms of the data. -/
theorem boley_totals {X : Cmp} (hX : X.WF) {y : List ℤ} (hy : y.toFinset = {0, 1}) (hyl : y.length ≤ X.nMajor) :
    (boleyCftp (convertMatrixToSetsV2 X) X.nMajor y).totalW = ∑ F ∈ itemsets X, (patternSeparations X y F : ℝ) ∧
    (boleyCftp (convertMatrixToSetsV2 X) X.nMajor y).totalBar =
      (∑ i ∈ labelled y 1, ((2 : ℝ) ^ rowSize X i - 1)) * (labelled y 0).card := by
  have hl : ∀ v, ∀ i ∈ labelled y v, i < X.nMajor := by
    intro v i hi
    rw [labelled, Finset.mem_filter, Finset.mem_range] at hi
    omega
  constructor
  · unfold totalW
    simp only [boleyCftp]
    rw [posIndices_labelled hy, negIndices_labelled]
    have := sum_swap_patterns hX y fun _ _ _ => 1
    simp only [Finset.sum_const, nsmul_eq_mul, mul_one] at this
    unfold patternSeparations
    rw [← this]
    apply Finset.sum_congr rfl
    intro i hi
    apply Finset.sum_congr rfl
    intro j hj
    rw [boleyWeight_eq, rowsV2_getD X (hl _ i hi), rowsV2_getD X (hl _ j hj)]
  · unfold totalBar posWeights negWeights
    simp only [boleyCftp]
    rw [← List.sum_toFinset _ (posIndices_nodup y), ← List.sum_toFinset _ (negIndices_nodup y),
      posIndices_labelled hy, negIndices_labelled]
    congr 1
    · apply Finset.sum_congr rfl
      intro i hi
      rw [boleyWeight_getD (hl _ i hi), boleyWeightOf, if_pos, rowsV2_getD X (hl _ i hi), card_rowSet hX]
      rw [← List.mem_toFinset, posIndices_labelled hy]
      exact hi
    · rw [Finset.card_eq_sum_ones, Nat.cast_sum, Nat.cast_one]
      apply Finset.sum_congr rfl
      intro i hi
      rw [boleyWeight_getD (hl _ i hi), boleyWeightOf, if_neg]
      rw [← List.mem_toFinset, posIndices_labelled hy]
      intro h
      rw [labelled, Finset.mem_filter] at h hi
      rw [h.2] at hi
      simp at hi

theorem horizon_1024 (rows : List (Finset ℕ)) (n : ℕ) (y : List ℤ) : (boleyCftp rows n y).horizon = 1024 := by
  have : Nat.log 2 1024 = 10 := by norm_num [Nat.log_eq_iff]
  simp [horizon, boleyCftp, this]

/-- The probability that the sampler does not give up. -/
noncomputable def boleySuccess (X : Cmp) (y : List ℤ) : ℝ :=
  1 - (1 - (∑ F ∈ itemsets X, (patternSeparations X y F : ℝ)) /
    ((∑ i ∈ labelled y 1, ((2 : ℝ) ^ rowSize X i - 1)) * (labelled y 0).card)) ^ 1024

/-- Expected value of a quantity of the result of `sample_once`. -/
theorem expect_boleySample {order : Finset ℕ → List ℕ} (ho : Traverses order) {X : Cmp} (hX : X.WF) {y : List ℤ}
    (hy : y.toFinset = {0, 1}) (hyl : y.length ≤ X.nMajor) {s : BoleySampler}
    (hs : s = { rows := some (convertMatrixToSetsV2 X),
                cftp := some (boleyCftp (convertMatrixToSetsV2 X) X.nMajor y), lists := reset })
    (k : ℕ) (f : Py (BoleyResult × BoleySampler) → ℝ) :
    (boleySampleOnce order k s).expect f =
      boleySuccess X y *
        ((∑ F ∈ itemsets X, ∑ ij ∈ separatedPairs X y F,
          ((1 - (1 / 2 ^ rowDiff X ij.1 ij.2) ^ k) * f (.ok (.pattern F, s)) +
            (1 / 2 ^ rowDiff X ij.1 ij.2) ^ k * f (.ok (.running, s)))) /
          ∑ F ∈ itemsets X, (patternSeparations X y F : ℝ)) +
      (1 - boleySuccess X y) * f (.ok (.gaveUp, s)) := by
  have hl : ∀ v, ∀ i ∈ labelled y v, i < X.nMajor := by
    intro v i hi
    rw [labelled, Finset.mem_filter, Finset.mem_range] at hi
    omega
  obtain ⟨hW, hB⟩ := boley_totals hX hy hyl
  set c := boleyCftp (convertMatrixToSetsV2 X) X.nMajor y with hc
  have hl1 : s.cftp = some c := by rw [hs]
  have hl2 : s.rows = some (convertMatrixToSetsV2 X) := by rw [hs]
  have hl3 : s.lists = reset := by rw [hs]
  have hsucc : boleySuccess X y = 1 - (1 - c.totalW / c.totalBar) ^ c.horizon := by
    rw [hW, hB, hc, horizon_1024]
    rfl
  unfold boleySampleOnce
  rw [hl1, hl2]
  simp only
  rw [bind_eq, expect_bind, hl3, expect_sample' (boleyCftp_dominated _ hyl), hsucc, sub_sub_cancel]
  congr 1
  · congr 2
    · rw [← sum_swap_patterns hX y fun i j F => (1 - (1 / 2 ^ rowDiff X i j) ^ k) * f (.ok (.pattern F, s)) +
        (1 / 2 ^ rowDiff X i j) ^ k * f (.ok (.running, s))]
      have e1 : c.posList.toFinset = labelled y 1 := posIndices_labelled hy
      have e2 : c.negList.toFinset = labelled y 0 := negIndices_labelled y
      rw [e1, e2]
      apply Finset.sum_congr rfl
      intro i hi
      apply Finset.sum_congr rfl
      intro j hj
      have e3 : c.W i j = boleyWeight (convertMatrixToSetsV2 X) i j := rfl
      simp only [after]
      rw [e3, bind_eq, expect_bind, expect_boleyPattern ho, rowsV2_getD X (hl _ i hi), rowsV2_getD X (hl _ j hj),
        card_rowDiff hX, boleyWeight_eq, rowsV2_getD X (hl _ i hi), rowsV2_getD X (hl _ j hj)]
      rw [Finset.sum_add_distrib, Finset.sum_const, nsmul_eq_mul, Finset.mul_sum]
      simp only [after, pure_eq, expect, BoleyResult.ofPattern, ← hs]
  · congr 1
    simp only [after, pure_eq, expect, ← hs]

/-! ### Theorems -/

/-- **C57** The Boley proposal. After any history of fits and samples on the matrix, the weight of a
positive row is the number of its non-empty sets of features, the weight of a negative row is 1, the true
weight of a pair is the number of patterns that the positive row has and the negative row has not, and
the proposal dominates it. -/
theorem C57_boley (order : Finset ℕ → List ℕ) (X : Cmp) (hX : X.Binary) (s s' : BoleySampler)
    (hs : BoleyReach order X s) (y : List ℤ) (hf : boleyFit s X y = .ok s') :
    ∃ c, s'.cftp = some c ∧ c.posList.toFinset = labelled y 1 ∧ c.negList.toFinset = labelled y 0 ∧
      c.maxIters = 1024 ∧
      (∀ i ∈ labelled y 1, c.wPos i = 2 ^ rowSize X i - 1) ∧ (∀ j ∈ labelled y 0, c.wNeg j = 1) ∧
      (∀ i ∈ labelled y 1, ∀ j ∈ labelled y 0, c.W i j =
        (((itemsets X).filter fun F => (i, j) ∈ separatedPairs X y F).card : ℝ)) ∧
      c.Dominated := by
  have hrows := boley_rows_reach hs
  obtain ⟨hy, hyl, rfl⟩ := boleyFit_inv (by rw [hrows, rowsV2_length]) hf
  rw [hrows]
  have hl : ∀ v, ∀ i ∈ labelled y v, i < X.nMajor := by
    intro v i hi
    rw [labelled, Finset.mem_filter, Finset.mem_range] at hi
    omega
  refine ⟨_, rfl, posIndices_labelled hy, negIndices_labelled y, rfl, ?_, ?_, ?_, boleyCftp_dominated _ hyl⟩
  · intro i hi
    simp only [boleyCftp]
    rw [boleyWeight_getD (hl _ i hi), boleyWeightOf, if_pos, rowsV2_getD X (hl _ i hi), card_rowSet hX.toWF]
    rw [← List.mem_toFinset, posIndices_labelled hy]
    exact hi
  · intro j hj
    simp only [boleyCftp]
    rw [boleyWeight_getD (hl _ j hj), boleyWeightOf, if_neg]
    rw [← List.mem_toFinset, posIndices_labelled hy]
    intro h
    rw [labelled, Finset.mem_filter] at h hj
    rw [h.2] at hj
    simp at hj
  · intro i hi j hj
    simp only [boleyCftp]
    rw [boleyWeight_eq, rowsV2_getD X (hl _ i hi), rowsV2_getD X (hl _ j hj)]
    congr 2
    ext F
    rw [Finset.mem_filter, mem_separatedPairs]
    constructor
    · intro hF
      refine ⟨?_, hi, hj, hF⟩
      rw [itemsets, Finset.mem_powerset]
      exact (mem_pairPatterns.mp hF).1.trans (rowSet_subset hX.toWF i)
    · exact fun h => h.2.2.2

/-- **C59** Fitting the Boley sampler. In every reachable state `fit` succeeds exactly when the labels are
0 and 1, both occur, and there are not more labels than rows; a missing label value is an
`AssertionError`, too many labels are a `KeyError`. The overflow check and the assertions on the weights
never fail. -/
theorem C59_fit (order : Finset ℕ → List ℕ) (X : Cmp) (s : BoleySampler) (hs : BoleyReach order X s)
    (y : List ℤ) :
    (y.toFinset = {0, 1} → y.length ≤ X.nMajor → ∃ s', boleyFit s X y = .ok s') ∧
    (y.toFinset ≠ {0, 1} → boleyFit s X y = .error .assertionError) ∧
    (y.toFinset = {0, 1} → X.nMajor < y.length → boleyFit s X y = .error .keyError) := by
  have hrows := boley_rows_reach hs
  have hlen : (boleyRows s X).length = X.nMajor := by rw [hrows, rowsV2_length]
  refine ⟨fun h1 h2 => ⟨_, boleyFit_of h1 hlen h2⟩, ?_, ?_⟩
  · intro h
    unfold boleyFit checkLabels
    rw [if_neg h]
    rfl
  · intro hy hlt
    have hm : (List.range X.nMajor).mapM (boleyRowWeight (boleyRows s X) (posIndices y)) =
        .ok ((List.range X.nMajor).map (boleyWeightOf (boleyRows s X) (posIndices y))) := by
      refine mapM_ok_of_forall fun i hi => ?_
      rw [List.mem_range] at hi
      unfold boleyRowWeight boleyWeightOf
      split
      · rw [pyGet_getD (by rw [hlen]; exact hi) ∅]
        rfl
      · rfl
    have h3 : boleyCheckOverflow ((List.range X.nMajor).map (boleyWeightOf (boleyRows s X) (posIndices y))) =
        .ok () := by
      unfold boleyCheckOverflow
      rw [if_neg]
      rintro ⟨x, hx, hlt⟩
      obtain ⟨i, -, rfl⟩ := List.mem_map.mp hx
      exact absurd (boleyWeightOf_nonneg _ _ _) (not_le.mpr hlt)
    have h5 : checkLabels y = .ok () := if_pos hy
    unfold boleyFit
    rw [h5, hm]
    simp only [Bind.bind, Except.bind, h3]
    unfold checkKeys
    by_cases h1 : ∀ i ∈ posIndices y, i < X.nMajor
    · rw [if_pos h1]
      simp only
      rw [if_neg]
      intro h2
      exact absurd (labels_le_of_keys hy h1 h2) (by omega)
    · rw [if_neg h1]

/-- **C59** After any history of fits and samples on the matrix, once fitted with labels `y`: within
`rounds` rounds of its retry loop `sample_once` returns the pattern `F` with the stated probability, a sum
over the pairs of rows that `F` separates; it returns `None` with probability `1 - success`; and it is
still drawing with the remaining probability. -/
theorem C59_rounds (order : Finset ℕ → List ℕ) (ho : Traverses order) (X : Cmp) (hX : X.Binary)
    (s s' : BoleySampler) (hs : BoleyReach order X s) (y : List ℤ) (hf : boleyFit s X y = .ok s')
    (rounds : ℕ) :
    ∃ success : ℝ, success = 1 - (1 - (∑ F ∈ itemsets X, (patternSeparations X y F : ℝ)) /
        ((∑ i ∈ labelled y 1, ((2 : ℝ) ^ rowSize X i - 1)) * (labelled y 0).card)) ^ 1024 ∧
      (∀ F ∈ itemsets X, (boleySampleOnce order rounds s').prob (.ok (.pattern F, s')) =
        success * ((∑ ij ∈ separatedPairs X y F, (1 - (1 / 2 ^ rowDiff X ij.1 ij.2) ^ rounds)) /
          ∑ F ∈ itemsets X, (patternSeparations X y F : ℝ))) ∧
      (boleySampleOnce order rounds s').prob (.ok (.gaveUp, s')) = 1 - success ∧
      (boleySampleOnce order rounds s').prob (.ok (.running, s')) =
        success * ((∑ F ∈ itemsets X, ∑ ij ∈ separatedPairs X y F, ((1 : ℝ) / 2 ^ rowDiff X ij.1 ij.2) ^ rounds) /
          ∑ F ∈ itemsets X, (patternSeparations X y F : ℝ)) := by
  have hrows := boley_rows_reach hs
  obtain ⟨hy, hyl, hs'⟩ := boleyFit_inv (by rw [hrows, rowsV2_length]) hf
  rw [hrows] at hs'
  have hexp := expect_boleySample ho hX.toWF hy hyl hs' rounds
  refine ⟨boleySuccess X y, rfl, ?_, ?_, ?_⟩
  · intro F hF
    have key : ∀ g : Py (BoleyResult × BoleySampler) → ℝ, g (.ok (.pattern F, s')) = 1 →
        (∀ x, x ≠ .ok (.pattern F, s') → g x = 0) → (boleySampleOnce order rounds s').expect g =
          boleySuccess X y * ((∑ ij ∈ separatedPairs X y F, (1 - (1 / 2 ^ rowDiff X ij.1 ij.2) ^ rounds)) /
          ∑ F ∈ itemsets X, (patternSeparations X y F : ℝ)) := by
      intro g g1 g0
      rw [hexp, g0 (.ok (.gaveUp, s')) (by simp), mul_zero, add_zero, g0 (.ok (.running, s')) (by simp)]
      congr 2
      rw [Finset.sum_eq_single F]
      · simp only [g1, mul_one, mul_zero, add_zero]
      · intro G _ hG
        rw [g0 (.ok (.pattern G, s')) (by simpa using hG)]
        simp
      · exact fun h => absurd hF h
    exact key _ (if_pos rfl) fun x hx => if_neg hx
  · have key : ∀ g : Py (BoleyResult × BoleySampler) → ℝ, g (.ok (.gaveUp, s')) = 1 →
        (∀ x, x ≠ .ok (.gaveUp, s') → g x = 0) → (boleySampleOnce order rounds s').expect g =
          1 - boleySuccess X y := by
      intro g g1 g0
      rw [hexp, g1, mul_one, Finset.sum_eq_zero, zero_div, mul_zero, zero_add]
      intro G _
      rw [g0 (.ok (.pattern G, s')) (by simp), g0 (.ok (.running, s')) (by simp)]
      simp
    exact key _ (if_pos rfl) fun x hx => if_neg hx
  · have key : ∀ g : Py (BoleyResult × BoleySampler) → ℝ, g (.ok (.running, s')) = 1 →
        (∀ x, x ≠ .ok (.running, s') → g x = 0) → (boleySampleOnce order rounds s').expect g =
          boleySuccess X y * ((∑ F ∈ itemsets X, ∑ ij ∈ separatedPairs X y F,
            ((1 : ℝ) / 2 ^ rowDiff X ij.1 ij.2) ^ rounds) /
          ∑ F ∈ itemsets X, (patternSeparations X y F : ℝ)) := by
      intro g g1 g0
      rw [hexp, g0 (.ok (.gaveUp, s')) (by simp), mul_zero, add_zero]
      congr 2
      apply Finset.sum_congr rfl
      intro G _
      rw [g0 (.ok (.pattern G, s')) (by simp), g1]
      simp
    exact key _ (if_pos rfl) fun x hx => if_neg hx

theorem tendsto_rowDiff {X : Cmp} (hX : X.WF) {y : List ℤ} {F : Finset ℕ} {ij : ℕ × ℕ}
    (h : ij ∈ separatedPairs X y F) :
    Filter.Tendsto (fun k : ℕ => ((1 : ℝ) / 2 ^ rowDiff X ij.1 ij.2) ^ k) Filter.atTop (nhds 0) := by
  obtain ⟨i, j⟩ := ij
  obtain ⟨-, -, hF⟩ := mem_separatedPairs.mp h
  obtain ⟨h1, h2⟩ := mem_pairPatterns.mp hF
  obtain ⟨f, hf, hn⟩ := Finset.not_subset.mp h2
  have : rowDiff X i j ≠ 0 := by
    rw [← card_rowDiff hX]
    exact (Finset.card_pos.mpr ⟨f, Finset.mem_sdiff.mpr ⟨h1 hf, hn⟩⟩).ne'
  apply tendsto_pow_atTop_nhds_zero_of_lt_one (by positivity)
  rw [div_lt_one (by positivity)]
  exact one_lt_pow₀ (by norm_num) this

/-- **C59** Letting the retry loop run to its end: `sample_once` returns the pattern `F` with probability
proportional to its discriminativity, the number of (positive, negative) row pairs that it separates, and
the loop ends with probability one. -/
theorem C59_patterns (order : Finset ℕ → List ℕ) (ho : Traverses order) (X : Cmp) (hX : X.Binary)
    (s s' : BoleySampler) (hs : BoleyReach order X s) (y : List ℤ) (hf : boleyFit s X y = .ok s') :
    ∃ success : ℝ, success = 1 - (1 - (∑ F ∈ itemsets X, (patternSeparations X y F : ℝ)) /
        ((∑ i ∈ labelled y 1, ((2 : ℝ) ^ rowSize X i - 1)) * (labelled y 0).card)) ^ 1024 ∧
      (∀ F ∈ itemsets X, Filter.Tendsto
        (fun rounds => (boleySampleOnce order rounds s').prob (.ok (.pattern F, s'))) Filter.atTop
        (nhds (success * ((patternSeparations X y F : ℝ) / ∑ F ∈ itemsets X, (patternSeparations X y F : ℝ))))) ∧
      (∀ rounds, (boleySampleOnce order rounds s').prob (.ok (.gaveUp, s')) = 1 - success) ∧
      Filter.Tendsto (fun rounds => (boleySampleOnce order rounds s').prob (.ok (.running, s')))
        Filter.atTop (nhds 0) := by
  have h := C59_rounds order ho X hX s s' hs y hf
  refine ⟨_, rfl, ?_, ?_, ?_⟩
  · intro F hF
    have hlim : Filter.Tendsto (fun k : ℕ => ∑ ij ∈ separatedPairs X y F,
        (1 - ((1 : ℝ) / 2 ^ rowDiff X ij.1 ij.2) ^ k)) Filter.atTop (nhds (patternSeparations X y F : ℝ)) := by
      have := tendsto_finsetSum (separatedPairs X y F) fun ij hij =>
        (tendsto_rowDiff hX.toWF hij).const_sub (1 : ℝ)
      simpa [patternSeparations] using this
    refine ((hlim.div_const _).const_mul _).congr fun k => ?_
    obtain ⟨_, rfl, h1, -⟩ := h k
    exact (h1 F hF).symm
  · intro k
    obtain ⟨_, rfl, -, h2, -⟩ := h k
    exact h2
  · have hlim : Filter.Tendsto (fun k : ℕ => ∑ F ∈ itemsets X, ∑ ij ∈ separatedPairs X y F,
        ((1 : ℝ) / 2 ^ rowDiff X ij.1 ij.2) ^ k) Filter.atTop (nhds 0) := by
      have := tendsto_finsetSum (itemsets X) fun F (_ : F ∈ itemsets X) =>
        tendsto_finsetSum (separatedPairs X y F) fun ij hij => tendsto_rowDiff hX.toWF hij
      simpa using this
    have := (hlim.div_const (∑ F ∈ itemsets X, (patternSeparations X y F : ℝ))).const_mul
      (1 - (1 - (∑ F ∈ itemsets X, (patternSeparations X y F : ℝ)) /
        ((∑ i ∈ labelled y 1, ((2 : ℝ) ^ rowSize X i - 1)) * (labelled y 0).card)) ^ 1024)
    rw [zero_div, mul_zero] at this
    refine this.congr fun k => ?_
    obtain ⟨_, rfl, -, -, h3⟩ := h k
    exact h3.symm

/-- **C59** Everything `sample_once` can do after a fit: return `None`, go on drawing, or return a pattern
that some positive row has and some negative row has not; such a pattern is not empty. It never raises
and leaves the sampler unchanged. -/
theorem C59_outcomes (order : Finset ℕ → List ℕ) (ho : Traverses order) (X : Cmp) (hX : X.Binary)
    (s s' : BoleySampler) (hs : BoleyReach order X s) (y : List ℤ) (hf : boleyFit s X y = .ok s')
    (rounds : ℕ) (x : Py (BoleyResult × BoleySampler)) (h : (boleySampleOnce order rounds s').Outcome x) :
    x = .ok (.gaveUp, s') ∨ x = .ok (.running, s') ∨ ∃ F, x = .ok (.pattern F, s') ∧ F ≠ ∅ ∧
      F ∈ itemsets X ∧ 0 < patternSeparations X y F := by
  have hrows := boley_rows_reach hs
  obtain ⟨hy, hyl, hs'⟩ := boleyFit_inv (by rw [hrows, rowsV2_length]) hf
  rw [hrows] at hs'
  have hl : ∀ v, ∀ i ∈ labelled y v, i < X.nMajor := by
    intro v i hi
    rw [labelled, Finset.mem_filter, Finset.mem_range] at hi
    omega
  have hls : { s' with lists := reset } = s' := by rw [hs']
  unfold boleySampleOnce at h
  have h1 : s'.cftp = some (boleyCftp (convertMatrixToSetsV2 X) X.nMajor y) := by rw [hs']
  have h2 : s'.rows = some (convertMatrixToSetsV2 X) := by rw [hs']
  have h3 : s'.lists = reset := by rw [hs']
  rw [h1, h2, h3] at h
  simp only at h
  rw [bind_eq, outcome_bind] at h
  have hout := C56_sample_outcomes _ (boleyCftp_dominated (convertMatrixToSetsV2 X) hyl)
  rcases h with ⟨r, hr, h⟩ | ⟨e, hr, -⟩
  · rcases hout _ hr with e | ⟨p, n, e, hp, hn, -⟩
    · cases e
      left
      simpa [pure_eq, Outcome, ← hs'] using h
    · cases e
      have hp' : p ∈ labelled y 1 := by
        rw [← posIndices_labelled hy]; exact List.mem_toFinset.mpr hp
      have hn' : n ∈ labelled y 0 := by
        rw [← negIndices_labelled]; exact List.mem_toFinset.mpr hn
      simp only [bind_eq, outcome_bind] at h
      rcases h with ⟨r, hr2, h⟩ | ⟨e, hr2, -⟩
      · rcases outcome_boleyPattern ho hr2 with e | ⟨F, hF, e⟩
        · cases e
          right; left
          simpa [pure_eq, Outcome, BoleyResult.ofPattern, ← hs'] using h
        · cases e
          right; right
          rw [rowsV2_getD X (hl _ p hp'), rowsV2_getD X (hl _ n hn')] at hF
          have hF' := mem_pairPatterns.mp hF
          refine ⟨F, by simpa [pure_eq, Outcome, BoleyResult.ofPattern, ← hs'] using h, ?_, ?_, ?_⟩
          · rintro rfl
            exact hF'.2 (Finset.empty_subset _)
          · rw [itemsets, Finset.mem_powerset]
            exact hF'.1.trans (rowSet_subset hX.toWF p)
          · exact Finset.card_pos.mpr ⟨(p, n), mem_separatedPairs.mpr ⟨hp', hn', hF⟩⟩
      · rcases outcome_boleyPattern ho hr2 with e' | ⟨F, hF, e'⟩ <;> cases e'
  · rcases hout _ hr with e' | ⟨p, n, e', -⟩ <;> cases e'

/-! ### Ground truth functions -/

/-- Counting and normalising a list of items. -/
theorem tally_truth {α : Type} [DecidableEq α] (items : List α) :
    ∃ gt, counter2proba ((tallyOf items).map fun e => (e.1, (e.2 : ℚ))) = .ok gt ∧ (gt.map Prod.fst).Nodup ∧
      ∀ a q, (a, q) ∈ gt ↔ a ∈ items ∧ q = (items.count a : ℚ) / items.length := by
  have htotal : (((tallyOf items).map fun e => (e.1, (e.2 : ℚ))).map Prod.snd).sum = (items.length : ℚ) := by
    have h1 : ∀ l : List (α × ℕ), ((l.map fun e => (e.1, (e.2 : ℚ))).map Prod.snd).sum =
        (((l.map Prod.snd).sum : ℕ) : ℚ) := by
      intro l
      induction l with
      | nil => simp
      | cons a l ih => simpa using ih
    rw [h1, sum_tallyOf]
  by_cases h0 : items = []
  · subst h0
    exact ⟨[], rfl, List.nodup_nil, by simp⟩
  · have hne : (((tallyOf items).map fun e => (e.1, (e.2 : ℚ))).map Prod.snd).sum ≠ 0 := by
      rw [htotal]
      exact_mod_cast fun h => h0 (List.length_eq_zero_iff.mp h)
    refine ⟨_, C64_proportional _ hne, ?_, ?_⟩
    · have := (tallyOf_spec items).1
      simpa [Function.comp_def] using this
    · intro a q
      rw [htotal]
      simp only [List.map_map, List.mem_map, Function.comp, Prod.exists, Prod.mk.injEq]
      constructor
      · rintro ⟨a', n, hm, rfl, rfl⟩
        obtain ⟨h1, h2⟩ := mem_tallyOf.mp hm
        exact ⟨h1, by rw [h2]⟩
      · rintro ⟨h1, rfl⟩
        exact ⟨a, _, mem_tallyOf.mpr ⟨h1, rfl⟩, rfl, rfl⟩

/-- The patterns that the ground truth function lists for a pair. -/
theorem count_truth_patterns {order : Finset ℕ → List ℕ} (ho : Traverses order) (P N F : Finset ℕ) :
    (((powersetTuples (order (P \ N)) true) ×ˢ (powersetTuples (order (P ∩ N)) false)).map fun p =>
      (p.1 ++ p.2).toFinset).count F = if F ∈ pairPatterns P N then 1 else 0 := by
  obtain ⟨d1, d2, -⟩ := traverse_toFinset ho (P \ N)
  obtain ⟨i1, i2, -⟩ := traverse_toFinset ho (P ∩ N)
  obtain ⟨a1, a2, a3⟩ := C63_powerset (order (P \ N)) d1 true
  obtain ⟨b1, b2, b3⟩ := C63_powerset (order (P ∩ N)) i1 false
  rw [d2] at a3
  rw [i2] at b3
  have hA : ∀ t ∈ powersetTuples (order (P \ N)) true, t.toFinset ⊆ P \ N ∧ t.toFinset ≠ ∅ := fun t ht => by
    have := (a3 t.toFinset).mp (List.mem_map_of_mem ht)
    exact ⟨this.1, this.2 rfl⟩
  have hB : ∀ t ∈ powersetTuples (order (P ∩ N)) false, t.toFinset ⊆ P ∩ N := fun t ht =>
    ((b3 t.toFinset).mp (List.mem_map_of_mem ht)).1
  have split : ∀ A B : Finset ℕ, A ⊆ P \ N → B ⊆ P ∩ N → (A ∪ B) \ N = A ∧ (A ∪ B) ∩ N = B := by
    intro A B h1 h3
    have hA : ∀ a ∈ A, a ∉ N := fun a ha => (Finset.mem_sdiff.mp (h1 ha)).2
    have hB : ∀ a ∈ B, a ∈ N := fun a ha => (Finset.mem_inter.mp (h3 ha)).2
    constructor
    · ext x
      simp only [Finset.mem_sdiff, Finset.mem_union]
      constructor
      · rintro ⟨h | h, hn⟩
        · exact h
        · exact absurd (hB x h) hn
      · exact fun h => ⟨Or.inl h, hA x h⟩
    · ext x
      simp only [Finset.mem_inter, Finset.mem_union]
      constructor
      · rintro ⟨h | h, hn⟩
        · exact absurd hn (hA x h)
        · exact h
      · exact fun h => ⟨Or.inr h, hB x h⟩
  have inj1 := List.inj_on_of_nodup_map a1
  have inj2 := List.inj_on_of_nodup_map b1
  have hnd : (((powersetTuples (order (P \ N)) true) ×ˢ (powersetTuples (order (P ∩ N)) false)).map fun p =>
      (p.1 ++ p.2).toFinset).Nodup := by
    refine List.Nodup.map_on ?_ (List.Nodup.product (List.Nodup.of_map _ a1) (List.Nodup.of_map _ b1))
    rintro ⟨t, u⟩ h ⟨t', u'⟩ h' he
    have h := List.mem_product.mp h
    have h' := List.mem_product.mp h'
    simp only [List.toFinset_append] at he
    obtain ⟨e1, e2⟩ := split _ _ (hA t h.1).1 (hB u h.2)
    obtain ⟨e3, e4⟩ := split _ _ (hA t' h'.1).1 (hB u' h'.2)
    rw [← he, e1] at e3
    rw [← he, e2] at e4
    rw [inj1 h.1 h'.1 e3, inj2 h.2 h'.2 e4]
  have hmem : F ∈ (((powersetTuples (order (P \ N)) true) ×ˢ (powersetTuples (order (P ∩ N)) false)).map fun p =>
      (p.1 ++ p.2).toFinset) ↔ F ∈ pairPatterns P N := by
    rw [List.mem_map, mem_pairPatterns]
    constructor
    · rintro ⟨⟨t, u⟩, h, rfl⟩
      have h := List.mem_product.mp h
      obtain ⟨h1, h2⟩ := hA t h.1
      have h3 := hB u h.2
      simp only [List.toFinset_append]
      refine ⟨Finset.union_subset (h1.trans Finset.sdiff_subset) (h3.trans Finset.inter_subset_left), ?_⟩
      intro hs
      obtain ⟨a, ha⟩ := Finset.nonempty_iff_ne_empty.mpr h2
      exact (Finset.mem_sdiff.mp (h1 ha)).2 (hs (Finset.mem_union_left _ ha))
    · rintro ⟨h1, h2⟩
      obtain ⟨t, ht, e1⟩ := List.mem_map.mp ((a3 (F \ N)).mpr
        ⟨Finset.sdiff_subset_sdiff h1 (le_refl _), fun _ => by rwa [Ne, Finset.sdiff_eq_empty_iff_subset]⟩)
      obtain ⟨u, hu, e2⟩ := List.mem_map.mp ((b3 (F ∩ N)).mpr
        ⟨Finset.inter_subset_inter_right h1, fun h => by cases h⟩)
      refine ⟨(t, u), List.mem_product.mpr ⟨ht, hu⟩, ?_⟩
      rw [List.toFinset_append, e1, e2, Finset.sdiff_union_inter]
  split
  · rename_i h
    exact List.count_eq_one_of_mem hnd (hmem.mpr h)
  · rename_i h
    exact List.count_eq_zero_of_not_mem fun hc => h (hmem.mp hc)

/-- **C59** `get_ground_truth_proba_for_samples` after a fit never raises, and lists exactly the patterns
that separate some pair, once each, with their share of the total discriminativity: the probabilities with
which `sample_once` draws them when it does not give up. -/
theorem C59_ground_truth_samples (order : Finset ℕ → List ℕ) (ho : Traverses order) (X : Cmp) (hX : X.Binary)
    (s s' : BoleySampler) (hs : BoleyReach order X s) (y : List ℤ) (hf : boleyFit s X y = .ok s') :
    ∃ rows gt, s'.rows = some rows ∧ boleyTruthSamples order rows (posIndices y) (negIndices y) = .ok gt ∧
      (gt.map Prod.fst).Nodup ∧
      ∀ F q, (F, q) ∈ gt ↔ 0 < patternSeparations X y F ∧
        q = (patternSeparations X y F : ℚ) / ∑ G ∈ itemsets X, (patternSeparations X y G : ℚ) := by
  have hrows := boley_rows_reach hs
  obtain ⟨hy, hyl, rfl⟩ := boleyFit_inv (by rw [hrows, rowsV2_length]) hf
  rw [hrows]
  have hl : ∀ v, ∀ i ∈ labelled y v, i < X.nMajor := by
    intro v i hi
    rw [labelled, Finset.mem_filter, Finset.mem_range] at hi
    omega
  obtain ⟨gt, h1, h2, h3⟩ := tally_truth ((posIndices y ×ˢ negIndices y).flatMap fun pr =>
    ((powersetTuples (order ((convertMatrixToSetsV2 X).getD pr.1 ∅ \ (convertMatrixToSetsV2 X).getD pr.2 ∅)) true) ×ˢ
      (powersetTuples (order ((convertMatrixToSetsV2 X).getD pr.1 ∅ ∩ (convertMatrixToSetsV2 X).getD pr.2 ∅)) false)).map
        fun p => (p.1 ++ p.2).toFinset)
  refine ⟨_, gt, rfl, h1, h2, ?_⟩
  set items := ((posIndices y ×ˢ negIndices y).flatMap fun pr =>
    ((powersetTuples (order ((convertMatrixToSetsV2 X).getD pr.1 ∅ \ (convertMatrixToSetsV2 X).getD pr.2 ∅)) true) ×ˢ
      (powersetTuples (order ((convertMatrixToSetsV2 X).getD pr.1 ∅ ∩ (convertMatrixToSetsV2 X).getD pr.2 ∅)) false)).map
        fun p => (p.1 ++ p.2).toFinset) with hitems
  have hcount : ∀ F, items.count F = patternSeparations X y F := by
    intro F
    rw [hitems, List.count_flatMap]
    have e1 : (posIndices y ×ˢ negIndices y).map (List.count F ∘ fun pr =>
        ((powersetTuples (order ((convertMatrixToSetsV2 X).getD pr.1 ∅ \ (convertMatrixToSetsV2 X).getD pr.2 ∅)) true) ×ˢ
        (powersetTuples (order ((convertMatrixToSetsV2 X).getD pr.1 ∅ ∩ (convertMatrixToSetsV2 X).getD pr.2 ∅)) false)).map
          fun p => (p.1 ++ p.2).toFinset) =
        (posIndices y ×ˢ negIndices y).map fun pr => if pr ∈ separatedPairs X y F then 1 else 0 := by
      apply List.map_congr_left
      rintro ⟨i, j⟩ hij
      have hij := List.mem_product.mp hij
      have hi : i ∈ labelled y 1 := by rw [← posIndices_labelled hy]; exact List.mem_toFinset.mpr hij.1
      have hj : j ∈ labelled y 0 := by rw [← negIndices_labelled]; exact List.mem_toFinset.mpr hij.2
      simp only [Function.comp]
      rw [count_truth_patterns ho, rowsV2_getD X (hl _ i hi), rowsV2_getD X (hl _ j hj)]
      simp only [mem_separatedPairs, hi, hj, true_and]
    rw [e1, ← List.sum_toFinset _ ((nodup_posIndices y).product (nodup_negIndices y)), ← Finset.card_filter]
    unfold patternSeparations
    congr 1
    ext ⟨i, j⟩
    rw [Finset.mem_filter, List.mem_toFinset, and_iff_right_iff_imp]
    intro h
    obtain ⟨h1, h2, -⟩ := mem_separatedPairs.mp h
    rw [← posIndices_labelled hy, List.mem_toFinset] at h1
    rw [← negIndices_labelled, List.mem_toFinset] at h2
    exact List.mem_product.mpr ⟨h1, h2⟩
  have hsub : ∀ F, 0 < patternSeparations X y F → F ∈ itemsets X := by
    intro F hF
    obtain ⟨⟨i, j⟩, h⟩ := Finset.card_pos.mp hF
    rw [itemsets, Finset.mem_powerset]
    exact (mem_pairPatterns.mp (mem_separatedPairs.mp h).2.2).1.trans (rowSet_subset hX.toWF i)
  have hlen : items.length = ∑ G ∈ itemsets X, patternSeparations X y G := by
    rw [← List.sum_toFinset_count_eq_length]
    simp only [hcount]
    apply Finset.sum_subset
    · intro F hF
      rw [List.mem_toFinset] at hF
      exact hsub F (by rw [← hcount]; exact List.count_pos_iff.mpr hF)
    · intro F _ hF
      rw [← hcount]
      exact List.count_eq_zero_of_not_mem fun hc => hF (List.mem_toFinset.mpr hc)
  intro F q
  rw [h3, hcount, hlen, ← List.count_pos_iff, hcount]
  push_cast
  rfl

theorem boleyPairWeight_wrap (P N : Finset ℕ) :
    boleyPairWeight P N = i64 ((2 ^ (P \ N).card - 1) * 2 ^ (P ∩ N).card) := by
  unfold boleyPairWeight i64
  rw [Int.mul_bmod_bmod, Int.bmod_mul_bmod,
    ← Int.bmod_mul_bmod (x := Int.bmod (2 ^ (P \ N).card) (2 ^ 64) - 1), Int.bmod_sub_bmod, Int.bmod_mul_bmod]

/-- A positive row with at least 64 features: the weight of the pair is not positive after the wrap. -/
theorem boleyPairWeight_wide {P : Finset ℕ} (h : 64 ≤ P.card) (N : Finset ℕ) : boleyPairWeight P N ≤ 0 := by
  rw [boleyPairWeight_wrap]
  have hc : (P \ N).card + (P ∩ N).card = P.card := Finset.card_sdiff_add_card_inter P N
  have e : ((2 : ℤ) ^ (P \ N).card - 1) * 2 ^ (P ∩ N).card = 2 ^ P.card + -2 ^ (P ∩ N).card := by
    rw [← hc, pow_add]; ring
  have hd : ((2 ^ 64 : ℕ) : ℤ) ∣ 2 ^ P.card := by
    rw [Nat.cast_pow, Nat.cast_ofNat]
    exact pow_dvd_pow 2 h
  obtain ⟨k, hk⟩ := hd
  unfold i64
  rw [e, hk, Int.mul_comm, Int.add_comm, Int.add_mul_bmod_self_right]
  generalize (P ∩ N).card = b
  by_cases hb : 64 ≤ b
  · have hd' : ((2 ^ 64 : ℕ) : ℤ) ∣ -2 ^ b := by
      rw [Nat.cast_pow, Nat.cast_ofNat]
      exact (pow_dvd_pow 2 hb).neg_right
    obtain ⟨l, hl⟩ := hd'
    rw [hl, Int.mul_comm, ← Int.zero_add (l * _), Int.add_mul_bmod_self_right]
    simp
  · have hb' : b ≤ 63 := by omega
    have h1 : (2 : ℤ) ^ b ≤ 2 ^ 63 := pow_le_pow_right₀ (by norm_num) hb'
    have h2 : (0 : ℤ) < 2 ^ b := by positivity
    rw [Int.bmod_eq_of_le (by norm_num at h1 ⊢; linarith) (by norm_num; linarith)]
    linarith

/-- The number of patterns that separate a pair of rows. -/
theorem pair_count {X : Cmp} (hX : X.Binary) {y : List ℤ} {i j : ℕ} (hi' : i < X.nMajor) (hj' : j < X.nMajor)
    (hi : i ∈ labelled y 1) (hj : j ∈ labelled y 0) :
    ((2 ^ ((convertMatrixToSetsV2 X).getD i ∅ \ (convertMatrixToSetsV2 X).getD j ∅).card - 1) *
        2 ^ ((convertMatrixToSetsV2 X).getD i ∅ ∩ (convertMatrixToSetsV2 X).getD j ∅).card : ℤ) =
      (((itemsets X).filter fun F => (i, j) ∈ separatedPairs X y F).card : ℤ) := by
  rw [rowsV2_getD X hi', rowsV2_getD X hj']
  have h := card_pairPatterns (rowSet X i) (rowSet X j)
  have h' : ((pairPatterns (rowSet X i) (rowSet X j)).card : ℤ) =
      (2 ^ (rowSet X i \ rowSet X j).card - 1) * 2 ^ (rowSet X i ∩ rowSet X j).card := by
    have : (((pairPatterns (rowSet X i) (rowSet X j)).card : ℤ) : ℝ) =
        (((2 ^ (rowSet X i \ rowSet X j).card - 1) * 2 ^ (rowSet X i ∩ rowSet X j).card : ℤ) : ℝ) := by
      push_cast
      exact h
    exact_mod_cast this
  rw [← h']
  congr 2
  ext F
  rw [Finset.mem_filter, mem_separatedPairs]
  constructor
  · intro hF
    refine ⟨?_, hi, hj, hF⟩
    rw [itemsets, Finset.mem_powerset]
    exact (mem_pairPatterns.mp hF).1.trans (rowSet_subset hX.toWF i)
  · exact fun h => h.2.2.2

/-- **C59** `get_ground_truth_proba_for_pairs` after a fit never raises, and lists exactly the pairs of a
positive and a negative row that some pattern separates, once each, with the number of patterns that
separate the pair divided by the total discriminativity, provided that this total is below 2⁶³. (`C134` is about what
happens above.) -/
theorem C59_ground_truth_pairs (order : Finset ℕ → List ℕ) (X : Cmp) (hX : X.Binary)
    (s s' : BoleySampler) (hs : BoleyReach order X s) (y : List ℤ) (hf : boleyFit s X y = .ok s')
    (hsize : ∑ G ∈ itemsets X, patternSeparations X y G < 2 ^ 63) :
    ∃ rows gt, s'.rows = some rows ∧ boleyTruthPairs rows (posIndices y) (negIndices y) = gt ∧
      (gt.map Prod.fst).Nodup ∧
      ∀ i j q, ((i, j), q) ∈ gt ↔ i ∈ labelled y 1 ∧ j ∈ labelled y 0 ∧
        0 < ((itemsets X).filter fun F => (i, j) ∈ separatedPairs X y F).card ∧
        q = (((itemsets X).filter fun F => (i, j) ∈ separatedPairs X y F).card : ℚ) /
          ∑ G ∈ itemsets X, (patternSeparations X y G : ℚ) := by
  have hrows := boley_rows_reach hs
  obtain ⟨hy, hyl, rfl⟩ := boleyFit_inv (by rw [hrows, rowsV2_length]) hf
  rw [hrows]
  have hl : ∀ v, ∀ i ∈ labelled y v, i < X.nMajor := by
    intro v i hi
    rw [labelled, Finset.mem_filter, Finset.mem_range] at hi
    omega
  have hpos : ∀ i, i ∈ posIndices y ↔ i ∈ labelled y 1 := fun i => by
    rw [← posIndices_labelled hy, List.mem_toFinset]
  have hneg : ∀ i, i ∈ negIndices y ↔ i ∈ labelled y 0 := fun i => by
    rw [← negIndices_labelled, List.mem_toFinset]
  have hcard : ∀ i ∈ labelled y 1, ∀ j ∈ labelled y 0,
      ((2 ^ ((convertMatrixToSetsV2 X).getD i ∅ \ (convertMatrixToSetsV2 X).getD j ∅).card - 1) *
        2 ^ ((convertMatrixToSetsV2 X).getD i ∅ ∩ (convertMatrixToSetsV2 X).getD j ∅).card : ℤ) =
      (((itemsets X).filter fun F => (i, j) ∈ separatedPairs X y F).card : ℤ) :=
    fun i hi j hj => pair_count hX (hl _ i hi) (hl _ j hj) hi hj
  have htot : ∑ pr ∈ (posIndices y ×ˢ negIndices y).toFinset,
      ((itemsets X).filter fun F => pr ∈ separatedPairs X y F).card = ∑ G ∈ itemsets X, patternSeparations X y G := by
    simp only [Finset.card_filter, patternSeparations]
    rw [Finset.sum_comm]
    apply Finset.sum_congr rfl
    intro F _
    rw [← Finset.card_filter]
    congr 1
    ext ⟨i, j⟩
    rw [Finset.mem_filter, List.mem_toFinset, and_iff_right_iff_imp]
    intro h
    obtain ⟨h1, h2, -⟩ := mem_separatedPairs.mp h
    exact List.mem_product.mpr ⟨(hpos _).mpr h1, (hneg _).mpr h2⟩
  have hle : ∀ pr ∈ posIndices y ×ˢ negIndices y,
      ((itemsets X).filter fun F => pr ∈ separatedPairs X y F).card < 2 ^ 63 := by
    intro pr hpr
    refine lt_of_le_of_lt ?_ hsize
    rw [← htot]
    exact Finset.single_le_sum (f := fun pr => ((itemsets X).filter fun F => pr ∈ separatedPairs X y F).card)
      (fun _ _ => Nat.zero_le _) (List.mem_toFinset.mpr hpr)
  have hlist : ((posIndices y ×ˢ negIndices y).map fun pr =>
      (pr, boleyPairWeight ((convertMatrixToSetsV2 X).getD pr.1 ∅) ((convertMatrixToSetsV2 X).getD pr.2 ∅))) =
      (posIndices y ×ˢ negIndices y).map fun pr =>
        (pr, (((itemsets X).filter fun F => pr ∈ separatedPairs X y F).card : ℤ)) := by
    apply List.map_congr_left
    rintro ⟨i, j⟩ hij
    have hij' := List.mem_product.mp hij
    simp only
    rw [boleyPairWeight_wrap, hcard i ((hpos i).mp hij'.1) j ((hneg j).mp hij'.2),
      i64_small (by positivity) (by exact_mod_cast hle _ hij)]
  refine ⟨convertMatrixToSetsV2 X, ?_⟩
  unfold boleyTruthPairs
  rw [hlist]
  set entries := ((posIndices y ×ˢ negIndices y).map fun pr =>
        (pr, (((itemsets X).filter fun F => pr ∈ separatedPairs X y F).card : ℤ))) with he
  have hmem : ∀ i j q, ((i, j), q) ∈ entries.filter (fun e => 0 < e.2) ↔ i ∈ labelled y 1 ∧ j ∈ labelled y 0 ∧
      0 < ((itemsets X).filter fun F => (i, j) ∈ separatedPairs X y F).card ∧
      q = (((itemsets X).filter fun F => (i, j) ∈ separatedPairs X y F).card : ℤ) := by
    intro i j q
    rw [List.mem_filter, he, List.mem_map]
    constructor
    · rintro ⟨⟨⟨i', j'⟩, h, e⟩, h0⟩
      cases e
      have h := List.mem_product.mp h
      exact ⟨(hpos _).mp h.1, (hneg _).mp h.2, by simpa using h0, rfl⟩
    · rintro ⟨h1, h2, h3, rfl⟩
      exact ⟨⟨(i, j), List.mem_product.mpr ⟨(hpos _).mpr h1, (hneg _).mpr h2⟩, rfl⟩, by simpa using h3⟩
  have hnd : ((entries.filter fun e => 0 < e.2).map Prod.fst).Nodup := by
    refine List.Nodup.sublist (List.Sublist.map _ List.filter_sublist) ?_
    rw [he, List.map_map]
    simpa [Function.comp_def] using (nodup_posIndices y).product (nodup_negIndices y)
  have htotal : ((entries.filter fun e => 0 < e.2).map Prod.snd).sum =
      ((∑ G ∈ itemsets X, patternSeparations X y G : ℕ) : ℤ) := by
    have e1 : ∀ l : List ((ℕ × ℕ) × ℤ), (∀ e ∈ l, 0 ≤ e.2) →
        ((l.filter fun e => 0 < e.2).map Prod.snd).sum = (l.map Prod.snd).sum := by
      intro l hl
      induction l with
      | nil => rfl
      | cons a l ih =>
        have ih := ih fun e h => hl e (List.mem_cons_of_mem _ h)
        rw [List.filter_cons]
        split
        · rw [List.map_cons, List.map_cons, List.sum_cons, List.sum_cons, ih]
        · rename_i hn
          have h0 : a.2 = 0 := le_antisymm (by simpa using hn) (hl a List.mem_cons_self)
          rw [List.map_cons, List.sum_cons, h0, zero_add, ih]
    rw [e1 entries, he, List.map_map, ← htot, Nat.cast_sum,
      List.sum_toFinset _ ((nodup_posIndices y).product (nodup_negIndices y))]
    · rfl
    · intro e h
      rw [he, List.mem_map] at h
      obtain ⟨pr, -, rfl⟩ := h
      positivity
  refine ⟨_, rfl, rfl, ?_, ?_⟩
  · unfold counter2probaI64
    simpa [Function.comp_def] using hnd
  · intro i j q
    unfold counter2probaI64
    rw [htotal, i64_small (by positivity) (by exact_mod_cast hsize), List.mem_map]
    have ec : (((∑ G ∈ itemsets X, patternSeparations X y G : ℕ) : ℤ) : ℚ) =
        ∑ G ∈ itemsets X, (patternSeparations X y G : ℚ) := by push_cast; rfl
    rw [ec]
    constructor
    · rintro ⟨⟨⟨i', j'⟩, q'⟩, h, e⟩
      obtain ⟨h1, h2, h3, rfl⟩ := (hmem _ _ _).mp h
      cases e
      exact ⟨h1, h2, h3, by push_cast; rfl⟩
    · rintro ⟨h1, h2, h3, rfl⟩
      exact ⟨_, (hmem i j _).mpr ⟨h1, h2, h3, rfl⟩, by push_cast; rfl⟩

/-- **C73** The Boley sampler also keeps the rows of the first matrix: after a fit, a later `fit` uses the
matrix it is given only for its number of rows. -/
theorem C73_boley_refit_ignores_features (s : BoleySampler) (h : s.rows ≠ none) (X X' : Cmp)
    (hn : X.nMajor = X'.nMajor) (y : List ℤ) : boleyFit s X y = boleyFit s X' y := by
  have : boleyRows s X = boleyRows s X' := by
    unfold boleyRows
    cases hr : s.rows with
    | none => exact absurd hr h
    | some r => rfl
  unfold boleyFit
  rw [this, hn]

/-! ### Example -/

/-- A reachable fitted sampler: rows {0, 1}, {0} and {1} with labels 1, 0, 0. -/
example : ∃ s', boleyFit BoleySampler.init headMatrix [1, 0, 0] = .ok s' ∧
    BoleyReach (fun S => S.sort (· ≤ ·)) headMatrix s' := by
  obtain ⟨s', h⟩ := (C59_fit (fun S => S.sort (· ≤ ·)) headMatrix _ .init [1, 0, 0]).1 (by decide) (by decide)
  exact ⟨s', h, .fit _ _ _ .init h⟩

/-- The total discriminativity of this matrix is below the bound of `C59_ground_truth_pairs`. -/
example : ∑ G ∈ itemsets headMatrix, patternSeparations headMatrix [1, 0, 0] G < 2 ^ 63 := by
  have h : ∀ G ∈ itemsets headMatrix, patternSeparations headMatrix [1, 0, 0] G ≤ 9 := fun G _ => by
    have hsub : separatedPairs headMatrix [1, 0, 0] G ⊆ Finset.range 3 ×ˢ Finset.range 3 := fun ij hij => by
      obtain ⟨h1, h2, -⟩ := mem_separatedPairs.mp hij
      exact Finset.mem_product.mpr ⟨Finset.mem_of_mem_filter _ h1, Finset.mem_of_mem_filter _ h2⟩
    have := Finset.card_le_card hsub
    rwa [Finset.card_product, Finset.card_range] at this
  refine lt_of_le_of_lt (Finset.sum_le_card_nsmul _ _ 9 h) ?_
  rw [itemsets, Finset.card_powerset, Finset.card_range]
  decide

end Verif
