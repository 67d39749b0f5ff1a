/-
Lemmas on the Boley sampler.
-/
import Verif.Spec.Boley
import Verif.Spec.Local
import Verif.Lemmas.Local2
import Verif.Props.Cftp
import Verif.Props.Local

namespace Verif

open RandR Cftp

/-! ### Patterns of a pair -/

/-- The patterns of a pair of rows. -/
def pairPatterns (P N : Finset ℕ) : Finset (Finset ℕ) := P.powerset.filter fun F => ¬ F ⊆ N

theorem mem_pairPatterns {P N F : Finset ℕ} : F ∈ pairPatterns P N ↔ F ⊆ P ∧ ¬ F ⊆ N := by
  unfold pairPatterns
  rw [Finset.mem_filter, Finset.mem_powerset]

/-- A pattern of a pair is a non-empty part of the difference with any part of the intersection. -/
theorem sum_pairPatterns (P N : Finset ℕ) (g : Finset ℕ → ℝ) :
    ∑ A ∈ (P \ N).powerset.filter (fun F => F ≠ ∅), ∑ B ∈ (P ∩ N).powerset, g (A ∪ B) =
      ∑ F ∈ pairPatterns P N, g F := by
  rw [← Finset.sum_product']
  refine Finset.sum_nbij' (fun ab => ab.1 ∪ ab.2) (fun F => (F \ N, F ∩ N)) ?_ ?_ ?_ ?_ ?_
  · rintro ⟨A, B⟩ h
    rw [Finset.mem_product, Finset.mem_filter, Finset.mem_powerset, Finset.mem_powerset] at h
    obtain ⟨⟨h1, h2⟩, h3⟩ := h
    rw [mem_pairPatterns]
    refine ⟨Finset.union_subset (h1.trans Finset.sdiff_subset) (h3.trans Finset.inter_subset_left), ?_⟩
    intro hs
    obtain ⟨a, ha⟩ := Finset.nonempty_iff_ne_empty.mpr h2
    exact (Finset.mem_sdiff.mp (h1 ha)).2 (hs (Finset.mem_union_left _ ha))
  · intro F h
    rw [mem_pairPatterns] at h
    rw [Finset.mem_product, Finset.mem_filter, Finset.mem_powerset, Finset.mem_powerset]
    refine ⟨⟨Finset.sdiff_subset_sdiff h.1 (le_refl _), ?_⟩, Finset.inter_subset_inter_right h.1⟩
    rw [Ne, Finset.sdiff_eq_empty_iff_subset]
    exact h.2
  · rintro ⟨A, B⟩ h
    rw [Finset.mem_product, Finset.mem_filter, Finset.mem_powerset, Finset.mem_powerset] at h
    obtain ⟨⟨h1, h2⟩, h3⟩ := h
    have hA : ∀ a ∈ A, a ∉ N := fun a ha => (Finset.mem_sdiff.mp (h1 ha)).2
    have hB : ∀ a ∈ B, a ∈ N := fun a ha => (Finset.mem_inter.mp (h3 ha)).2
    simp only [Prod.mk.injEq]
    constructor
    · ext x
      simp only [Finset.mem_sdiff, Finset.mem_union]
      constructor
      · rintro ⟨h | h, hn⟩
        · exact h
        · exact absurd (hB x h) hn
      · exact fun h => ⟨Or.inl h, hA x h⟩
    · ext x
      simp only [Finset.mem_inter, Finset.mem_union]
      constructor
      · rintro ⟨h | h, hn⟩
        · exact absurd hn (hA x h)
        · exact h
      · exact fun h => ⟨Or.inr h, hB x h⟩
  · intro F _
    exact Finset.sdiff_union_inter F N
  · rintro ⟨A, B⟩ _
    rfl

theorem two_pow_card_sub (S : Finset ℕ) :
    (((S.powerset.filter fun F => F ≠ ∅).card : ℕ) : ℝ) = 2 ^ S.card - 1 := by
  have h : (S.powerset.filter fun F => F ≠ ∅) = S.powerset.erase ∅ := by
    ext F
    simp [Finset.mem_filter, Finset.mem_erase, and_comm]
  rw [h, Finset.card_erase_of_mem (by simp), Finset.card_powerset, Nat.cast_sub Nat.one_le_two_pow]
  push_cast
  ring

/-- The weight of a pair is the number of its patterns. -/
theorem card_pairPatterns (P N : Finset ℕ) :
    ((pairPatterns P N).card : ℝ) = (2 ^ (P \ N).card - 1) * 2 ^ (P ∩ N).card := by
  have h := sum_pairPatterns P N fun _ => 1
  rw [Finset.card_eq_sum_ones, Nat.cast_sum, Nat.cast_one, ← h]
  simp only [Finset.sum_const, nsmul_eq_mul, mul_one, Finset.card_powerset, Nat.cast_pow, Nat.cast_ofNat]
  rw [two_pow_card_sub]

theorem boleyWeight_eq (rows : List (Finset ℕ)) (p n : ℕ) :
    boleyWeight rows p n = ((pairPatterns (rows.getD p ∅) (rows.getD n ∅)).card : ℝ) :=
  (card_pairPatterns _ _).symm

/-- At most every non-empty part of the positive row. -/
theorem card_pairPatterns_le (P N : Finset ℕ) : ((pairPatterns P N).card : ℝ) ≤ 2 ^ P.card - 1 := by
  rw [← two_pow_card_sub]
  exact_mod_cast Finset.card_le_card fun F hF => by
    rw [mem_pairPatterns] at hF
    rw [Finset.mem_filter, Finset.mem_powerset]
    refine ⟨hF.1, ?_⟩
    rintro rfl
    exact hF.2 (Finset.empty_subset _)

/-- Expected value of the pattern step, times the weight of the pair. -/
theorem expect_boleyPattern {order : Finset ℕ → List ℕ} (ho : Traverses order) (rows : List (Finset ℕ)) (k : ℕ)
    (p n : ℕ) (f : Py (Option (Finset ℕ)) → ℝ) :
    boleyWeight rows p n * (boleyPattern order rows k (p, n)).expect f =
      (1 - (1 / 2 ^ (rows.getD p ∅ \ rows.getD n ∅).card) ^ k) *
        (∑ F ∈ pairPatterns (rows.getD p ∅) (rows.getD n ∅), f (.ok (some F))) +
      boleyWeight rows p n * ((1 / 2 ^ (rows.getD p ∅ \ rows.getD n ∅).card) ^ k * f (.ok none)) := by
  set P := rows.getD p ∅ with hP
  set N := rows.getD n ∅ with hN
  by_cases h0 : (P \ N).card = 0
  · have hW : boleyWeight rows p n = 0 := by
      rw [boleyWeight, ← hP, ← hN, h0]
      simp
    have hE : pairPatterns P N = ∅ := by
      have : ((pairPatterns P N).card : ℝ) = 0 := by rw [card_pairPatterns, h0]; simp
      exact Finset.card_eq_zero.mp (by exact_mod_cast this)
    rw [hW, hE]
    simp
  · have h1 : (2 : ℝ) ^ (P \ N).card - 1 ≠ 0 := by
      have : (1 : ℝ) < 2 ^ (P \ N).card := one_lt_pow₀ (by norm_num) h0
      linarith
    have h2 : (2 : ℝ) ^ (P ∩ N).card ≠ 0 := by positivity
    have hsum : (boleyPattern order rows k (p, n)).expect f =
        (1 - (1 / 2 ^ (P \ N).card) ^ k) / (2 ^ (P \ N).card - 1) *
          (∑ A ∈ (P \ N).powerset.filter (fun F => F ≠ ∅),
            (∑ B ∈ (P ∩ N).powerset, f (.ok (some (A ∪ B)))) / 2 ^ (P ∩ N).card) +
        (1 / 2 ^ (P \ N).card) ^ k * f (.ok none) := by
      unfold boleyPattern
      rw [bind_eq, expect_bind, expect_drawBernoulli ho]
      congr 1
      congr 1
      apply Finset.sum_congr rfl
      intro A _
      simp only [after]
      rw [bind_eq, expect_bind, expect_drawBernoulli_all ho]
      rfl
    rw [hsum, ← Finset.sum_div, sum_pairPatterns P N fun F => f (.ok (some F))]
    rw [boleyWeight, ← hP, ← hN]
    field_simp

theorem outcome_boleyPattern {order : Finset ℕ → List ℕ} (ho : Traverses order) {rows : List (Finset ℕ)} {k : ℕ}
    {p n : ℕ} {x : Py (Option (Finset ℕ))} (h : (boleyPattern order rows k (p, n)).Outcome x) :
    x = .ok none ∨ ∃ F ∈ pairPatterns (rows.getD p ∅) (rows.getD n ∅), x = .ok (some F) := by
  unfold boleyPattern at h
  rw [bind_eq, outcome_bind] at h
  rcases h with ⟨r, hr, h⟩ | ⟨e, hr, -⟩
  · rcases (C62_uniform order ho _ k).2.2 _ hr with e | ⟨A, hA, hne, e⟩
    · cases e
      exact Or.inl h
    · cases e
      simp only at h
      rw [bind_eq, outcome_bind] at h
      rcases h with ⟨r, hr2, h⟩ | ⟨e, hr2, -⟩
      · obtain ⟨B, hB, e⟩ := (C62_with_empty order ho _ k).2 _ hr2
        cases e
        right
        refine ⟨A ∪ B, ?_, h⟩
        rw [mem_pairPatterns]
        refine ⟨Finset.union_subset (hA.trans Finset.sdiff_subset) (hB.trans Finset.inter_subset_left), ?_⟩
        intro hs
        obtain ⟨a, ha⟩ := Finset.nonempty_iff_ne_empty.mpr hne
        exact (Finset.mem_sdiff.mp (hA ha)).2 (hs (Finset.mem_union_left _ ha))
      · obtain ⟨B, hB, e⟩ := (C62_with_empty order ho _ k).2 _ hr2
        cases e
  · rcases (C62_uniform order ho _ k).2.2 _ hr with e | ⟨A, hA, hne, e⟩ <;> cases e

/-! ### Fitting -/

/-- The weight of a row, in closed form. -/
noncomputable def boleyWeightOf (rows : List (Finset ℕ)) (pos : List ℕ) (i : ℕ) : ℝ :=
  if i ∈ pos then 2 ^ (rows.getD i ∅).card - 1 else 1

theorem boleyWeightOf_nonneg (rows : List (Finset ℕ)) (pos : List ℕ) (i : ℕ) : 0 ≤ boleyWeightOf rows pos i := by
  unfold boleyWeightOf
  split
  · have : (1 : ℝ) ≤ 2 ^ (rows.getD i ∅).card := one_le_pow₀ (by norm_num)
    linarith
  · norm_num

/-- The `BoleyCFTP` object that `fit` constructs. -/
noncomputable def boleyCftp (rows : List (Finset ℕ)) (n : ℕ) (y : List ℤ) : Cftp :=
  { posList := posIndices y, negList := negIndices y,
    wPos := fun i => ((List.range n).map (boleyWeightOf rows (posIndices y))).getD i 0,
    wNeg := fun i => ((List.range n).map (boleyWeightOf rows (posIndices y))).getD i 0,
    W := boleyWeight rows, maxIters := 1024 }

theorem boleyWeight_getD {rows : List (Finset ℕ)} {n : ℕ} {pos : List ℕ} {i : ℕ} (h : i < n) :
    ((List.range n).map (boleyWeightOf rows pos)).getD i 0 = boleyWeightOf rows pos i := by
  rw [getD_lt (by simpa using h)]
  simp

theorem boleyCftp_dominated (rows : List (Finset ℕ)) {n : ℕ} {y : List ℤ} (hyl : y.length ≤ n) :
    (boleyCftp rows n y).Dominated := by
  have hp : ∀ p ∈ posIndices y, p < n := fun p h => lt_of_lt_of_le (mem_posIndices.mp h).1 hyl
  have hn : ∀ p ∈ negIndices y, p < n := fun p h => lt_of_lt_of_le (mem_negIndices.mp h).1 hyl
  have hnp : ∀ p ∈ negIndices y, p ∉ posIndices y := by
    intro p h1 h2
    have a := (mem_negIndices.mp h1).2
    have b := (mem_posIndices.mp h2).2
    omega
  refine ⟨posIndices_nodup y, negIndices_nodup y, ?_, ?_, ?_, ?_⟩
  · intro p h
    simp only [boleyCftp]
    rw [boleyWeight_getD (hp p h)]
    exact boleyWeightOf_nonneg _ _ _
  · intro p h
    simp only [boleyCftp]
    rw [boleyWeight_getD (hn p h)]
    exact boleyWeightOf_nonneg _ _ _
  · intro p _ q _
    simp only [boleyCftp]
    rw [boleyWeight_eq]
    positivity
  · intro p h q h'
    simp only [boleyCftp] at h h' ⊢
    rw [boleyWeight_getD (hp p h), boleyWeight_getD (hn q h'), boleyWeight_eq]
    unfold boleyWeightOf
    rw [if_pos h, if_neg (hnp q h'), mul_one]
    exact card_pairPatterns_le _ _

theorem boleyFit_of {s : BoleySampler} {X : Cmp} {y : List ℤ} (hy : y.toFinset = {0, 1})
    (hlen : (boleyRows s X).length = X.nMajor) (hyl : y.length ≤ X.nMajor) :
    boleyFit s X y = .ok {
      rows := some (boleyRows s X), cftp := some (boleyCftp (boleyRows s X) X.nMajor y), lists := reset } := by
  have hp : ∀ p ∈ posIndices y, p < X.nMajor := fun p h => lt_of_lt_of_le (mem_posIndices.mp h).1 hyl
  have hn : ∀ p ∈ negIndices y, p < X.nMajor := fun p h => lt_of_lt_of_le (mem_negIndices.mp h).1 hyl
  have hm : (List.range X.nMajor).mapM (boleyRowWeight (boleyRows s X) (posIndices y)) =
      .ok ((List.range X.nMajor).map (boleyWeightOf (boleyRows s X) (posIndices y))) := by
    refine mapM_ok_of_forall fun i hi => ?_
    rw [List.mem_range] at hi
    unfold boleyRowWeight boleyWeightOf
    split
    · rw [pyGet_getD (by rw [hlen]; exact hi) ∅]
      rfl
    · rfl
  have h1 : checkKeys X.nMajor (posIndices y) = .ok () := if_pos hp
  have h2 : checkKeys X.nMajor (negIndices y) = .ok () := if_pos hn
  have h3 : boleyCheckOverflow ((List.range X.nMajor).map (boleyWeightOf (boleyRows s X) (posIndices y))) =
      .ok () := by
    unfold boleyCheckOverflow
    rw [if_neg]
    rintro ⟨x, hx, hlt⟩
    obtain ⟨i, -, rfl⟩ := List.mem_map.mp hx
    exact absurd (boleyWeightOf_nonneg _ _ _) (not_le.mpr hlt)
  have h4 : boleyCheckWeights ((List.range X.nMajor).map (boleyWeightOf (boleyRows s X) (posIndices y)))
      (posIndices y ++ negIndices y) = .ok () := by
    unfold boleyCheckWeights
    rw [if_pos]
    intro i hi
    have : i < X.nMajor := by
      rcases List.mem_append.mp hi with h | h
      · exact hp i h
      · exact hn i h
    rw [boleyWeight_getD this]
    exact boleyWeightOf_nonneg _ _ _
  have h5 : checkLabels y = .ok () := if_pos hy
  unfold boleyFit
  rw [h5, hm, h1, h2]
  simp only [Bind.bind, Except.bind, h3, h4]
  rfl

theorem labels_le_of_keys {y : List ℤ} {n : ℕ} (hy : y.toFinset = {0, 1}) (h1 : ∀ i ∈ posIndices y, i < n)
    (h2 : ∀ i ∈ negIndices y, i < n) : y.length ≤ n := by
  by_contra hc
  push Not at hc
  rcases label_values hy hc with h | h
  · exact absurd (h2 _ (mem_negIndices.mpr ⟨hc, h⟩)) (lt_irrefl _)
  · exact absurd (h1 _ (mem_posIndices.mpr ⟨hc, by omega⟩)) (lt_irrefl _)

theorem boleyFit_inv {s s' : BoleySampler} {X : Cmp} {y : List ℤ} (hlen : (boleyRows s X).length = X.nMajor)
    (h : boleyFit s X y = .ok s') :
    y.toFinset = {0, 1} ∧ y.length ≤ X.nMajor ∧ s' = {
      rows := some (boleyRows s X), cftp := some (boleyCftp (boleyRows s X) X.nMajor y), lists := reset } := by
  have h0 := h
  have key : y.toFinset = {0, 1} ∧ y.length ≤ X.nMajor := by
    unfold boleyFit checkLabels at h
    by_cases hy : y.toFinset = {0, 1}
    · refine ⟨hy, ?_⟩
      rw [if_pos hy] at h
      simp only [Bind.bind, Except.bind] at h
      cases hm : (List.range X.nMajor).mapM (boleyRowWeight (boleyRows s X) (posIndices y)) with
      | error e => rw [hm] at h; cases h
      | ok w =>
        rw [hm] at h
        simp only at h
        unfold checkKeys at h
        by_cases h1 : ∀ i ∈ posIndices y, i < X.nMajor
        · rw [if_pos h1] at h
          simp only at h
          cases hc : boleyCheckOverflow w with
          | error e => rw [hc] at h; cases h
          | ok u =>
            rw [hc] at h
            simp only at h
            by_cases h2 : ∀ i ∈ negIndices y, i < X.nMajor
            · exact labels_le_of_keys hy h1 h2
            · rw [if_neg h2] at h; cases h
        · rw [if_neg h1] at h; cases h
    · rw [if_neg hy] at h; cases h
  refine ⟨key.1, key.2, ?_⟩
  rw [boleyFit_of key.1 hlen key.2] at h0
  exact (Except.ok.inj h0).symm

/-! ### Reachable states -/

theorem boleySampleOnce_rows {order : Finset ℕ → List ℕ} {k : ℕ} {s s' : BoleySampler} {r : BoleyResult}
    (h : (boleySampleOnce order k s).Outcome (.ok (r, s'))) : s'.rows = s.rows := by
  unfold boleySampleOnce at h
  cases hc : s.cftp with
  | none => rw [hc] at h; cases h
  | some c =>
    cases hr : s.rows with
    | none => rw [hc, hr] at h; cases h
    | some rows =>
      rw [hc, hr] at h
      simp only at h
      rw [bind_eq, outcome_bind] at h
      rcases h with ⟨a, -, h⟩ | ⟨e, -, h⟩
      · rcases a with ⟨_ | pr, l⟩
        · cases h
          rfl
        · simp only [bind_eq, outcome_bind] at h
          rcases h with ⟨F, -, h⟩ | ⟨e, -, h⟩
          · cases h
            rfl
          · cases h
      · cases h

theorem boley_rows_reach {order : Finset ℕ → List ℕ} {X : Cmp} {s : BoleySampler} (h : BoleyReach order X s) :
    boleyRows s X = convertMatrixToSetsV2 X := by
  induction h with
  | init => rfl
  | fit s s' y _ hf ih =>
    rw [(boleyFit_inv (by rw [ih, sets_v2]; simp) hf).2.2, ← ih]
    rfl
  | sample s s' k r _ ho ih =>
    rw [← ih]
    unfold boleyRows
    rw [boleySampleOnce_rows ho]

end Verif
