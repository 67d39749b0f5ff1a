/-
Properties of the evaluation metrics (C67) and of the tail statistics (C68).
-/
import Verif.Spec.Evaluation
import Verif.Spec.Local
import Verif.Props.Graph

namespace Verif

/-! ### Counting -/

theorem cellSum_eq_val {m : Cmp} (h : m.WF) {i : ℕ} (j : ℕ) (hi : i < m.nMajor) : cellSum m i j = m.val i j :=
  (Cmp.val_eq_sum_entries h i j hi).symm

open Classical in
theorem cellSum_stored {m : Cmp} (h : m.Binary) {i : ℕ} (j : ℕ) (hi : i < m.nMajor) :
    cellSum m i j = if m.Stored i j then 1 else 0 := by
  rw [cellSum_eq_val h.toWF j hi, h.val_eq i j hi]

theorem countP_range (n : ℕ) (p : ℕ → Prop) [DecidablePred p] :
    (List.range n).countP (fun i => decide (p i)) = ((Finset.range n).filter p).card := by
  rw [List.countP_eq_length_filter, ← List.toFinset_card_of_nodup (List.nodup_range.filter _),
    List.toFinset_filter, List.toFinset_range]
  congr 1
  ext i
  simp

theorem mem_ones {m : Cmp} (h : m.WF) {e : ℕ × ℕ} : e ∈ ones m ↔ m.Stored e.1 e.2 := by
  unfold ones
  simp only [Finset.mem_filter, Finset.mem_product, Finset.mem_range, and_iff_right_iff_imp]
  exact fun hs => ⟨hs.major_lt h, hs.minor_lt h⟩

theorem card_onesIn {m : Cmp} (h : m.WF) (j : ℕ) (p : ℕ → Prop) [DecidablePred p] (s : Finset (ℕ × ℕ))
    (hs : ∀ e, e ∈ s ↔ e.2 = j ∧ e.1 < m.nMajor ∧ p e.1) : ((Finset.range m.nMajor).filter p).card = s.card := by
  apply Finset.card_bij' (fun i _ => (i, j)) fun e _ => e.1
  · intro i hi
    rw [hs]
    simpa using hi
  · intro e he
    simpa using ((hs e).mp he).2
  · intro i _; rfl
  · intro e he
    exact Prod.ext rfl ((hs e).mp he).1.symm

theorem colCount_eq {m : Cmp} (h : m.Binary) (j : ℕ) : colCount m j = (onesIn m j).card := by
  classical
  unfold colCount
  rw [countP_range]
  apply card_onesIn h.toWF j
  intro e
  simp only [onesIn, Finset.mem_filter, mem_ones h.toWF]
  constructor
  · rintro ⟨h1, rfl⟩
    refine ⟨rfl, h1.major_lt h.toWF, ?_⟩
    rw [cellSum_stored h _ (h1.major_lt h.toWF), if_pos h1]
    decide
  · rintro ⟨rfl, h1, h2⟩
    rw [cellSum_stored h _ h1] at h2
    refine ⟨?_, rfl⟩
    by_contra hc
    exact h2 (if_neg hc)

theorem tpSum_eq {P T : Cmp} (hP : P.Binary) (hT : T.Binary) (hn : P.nMajor = T.nMajor) (j : ℕ) :
    tpSum P T j = (onesIn P j ∩ onesIn T j).card := by
  classical
  unfold tpSum
  rw [countP_range]
  apply card_onesIn hT.toWF j
  intro e
  simp only [onesIn, Finset.mem_inter, Finset.mem_filter, mem_ones hP.toWF, mem_ones hT.toWF]
  constructor
  · rintro ⟨⟨h1, rfl⟩, h2, -⟩
    refine ⟨rfl, h2.major_lt hT.toWF, ?_⟩
    rw [cellSum_stored hT _ (h2.major_lt hT.toWF), cellSum_stored hP _ (h1.major_lt hP.toWF), if_pos h1, if_pos h2]
    decide
  · rintro ⟨rfl, h1, h2⟩
    rw [cellSum_stored hT _ h1, cellSum_stored hP _ (hn ▸ h1)] at h2
    by_cases ha : P.Stored e.1 e.2
    · by_cases hb : T.Stored e.1 e.2
      · exact ⟨⟨ha, rfl⟩, hb, rfl⟩
      · rw [if_neg hb, zero_mul] at h2; exact absurd rfl h2
    · rw [if_neg ha, mul_zero] at h2; exact absurd rfl h2

theorem labelTotal_card (L : ℕ) (s : Finset (ℕ × ℕ)) (hs : ∀ e ∈ s, e.2 < L) :
    labelTotal L (fun j => (s.filter fun e => e.2 = j).card) = s.card := by
  unfold labelTotal
  rw [← List.sum_toFinset _ List.nodup_range, List.toFinset_range]
  exact (Finset.card_eq_sum_card_fiberwise fun e he => by simpa using hs e he).symm

theorem total_colCount {m : Cmp} (h : m.Binary) : labelTotal m.nMinor (colCount m) = (ones m).card := by
  rw [show colCount m = fun j => ((ones m).filter fun e => e.2 = j).card from funext fun j => colCount_eq h j]
  apply labelTotal_card
  intro e he
  exact ((mem_ones h.toWF).mp he).minor_lt h.toWF

theorem total_tpSum {P T : Cmp} (hP : P.Binary) (hT : T.Binary) (hn : P.nMajor = T.nMajor) :
    labelTotal T.nMinor (tpSum P T) = (ones P ∩ ones T).card := by
  rw [show tpSum P T = fun j => ((ones P ∩ ones T).filter fun e => e.2 = j).card from funext fun j => by
    rw [tpSum_eq hP hT hn, onesIn, onesIn, Finset.filter_inter_distrib]]
  apply labelTotal_card
  intro e he
  exact ((mem_ones hT.toWF).mp (Finset.mem_inter.mp he).2).minor_lt hT.toWF

theorem prfDivide_eq (a b : ℕ) : prfDivide a b = share a b := rfl

/-- The F-score of two shares of the same count is the overlap. -/
theorem fScore_share (a p t : ℕ) (hp : a ≤ p) (ht : a ≤ t) : fScore (share a p) (share a t) = dice a p t := by
  unfold fScore share dice
  rcases Nat.eq_zero_or_pos a with rfl | ha
  · by_cases h1 : p = 0 <;> by_cases h2 : t = 0 <;> simp [h1, h2]
  · have hp' : (0 : ℚ) < p := by exact_mod_cast (by omega : 0 < p)
    have ht' : (0 : ℚ) < t := by exact_mod_cast (by omega : 0 < t)
    have ha' : (0 : ℚ) < a := by exact_mod_cast ha
    have hne : (a : ℚ) / p + a / t ≠ 0 := by positivity
    rw [if_neg (show p ≠ 0 by omega), if_neg (show t ≠ 0 by omega), if_neg (show p + t ≠ 0 by omega), if_neg hne]
    field_simp
    ring

/-! ### C67: exactness -/

/-- **C67** The micro-averaged metrics: precision is the share of the predicted ones that are true, recall
the share of the true ones that are predicted, F1 their overlap; an empty denominator gives 1. -/
theorem C67_micro (P T : Cmp) (hP : P.Binary) (hT : T.Binary) (hs : SameShape P T) :
    microPrecision P T = share (ones P ∩ ones T).card (ones P).card ∧
    microRecall P T = share (ones P ∩ ones T).card (ones T).card ∧
    microF1 P T = dice (ones P ∩ ones T).card (ones P).card (ones T).card := by
  have h1 : microPrecision P T = share (ones P ∩ ones T).card (ones P).card := by
    unfold microPrecision
    rw [total_tpSum hP hT hs.1, ← hs.2.1, total_colCount hP, prfDivide_eq]
  have h2 : microRecall P T = share (ones P ∩ ones T).card (ones T).card := by
    unfold microRecall
    rw [total_tpSum hP hT hs.1, total_colCount hT, prfDivide_eq]
  refine ⟨h1, h2, ?_⟩
  unfold microF1
  rw [h1, h2, fScore_share _ _ _ (Finset.card_le_card Finset.inter_subset_left)
    (Finset.card_le_card Finset.inter_subset_right)]

theorem labelMean_eq (L : ℕ) (f : ℕ → ℚ) : labelMean L f = (∑ j ∈ Finset.range L, f j) / L := by
  unfold labelMean
  rw [← List.sum_toFinset _ List.nodup_range, List.toFinset_range]

/-- **C67** The macro-averaged metrics are the means over the labels of the same quantities for the single
label. -/
theorem C67_macro (P T : Cmp) (hP : P.Binary) (hT : T.Binary) (hs : SameShape P T) :
    macroPrecision P T =
      (∑ j ∈ Finset.range T.nMinor, share (onesIn P j ∩ onesIn T j).card (onesIn P j).card) / T.nMinor ∧
    macroRecall P T =
      (∑ j ∈ Finset.range T.nMinor, share (onesIn P j ∩ onesIn T j).card (onesIn T j).card) / T.nMinor ∧
    macroF1 P T =
      (∑ j ∈ Finset.range T.nMinor, dice (onesIn P j ∩ onesIn T j).card (onesIn P j).card (onesIn T j).card) /
        T.nMinor := by
  unfold macroPrecision macroRecall macroF1
  simp only [labelMean_eq, prfDivide_eq, tpSum_eq hP hT hs.1, colCount_eq hP, colCount_eq hT]
  refine ⟨trivial, trivial, ?_⟩
  congr 1
  apply Finset.sum_congr rfl
  intro j _
  exact fScore_share _ _ _ (Finset.card_le_card Finset.inter_subset_left)
    (Finset.card_le_card Finset.inter_subset_right)

theorem rowDifferences_eq {P T : Cmp} (hP : P.Binary) (hT : T.Binary) (hn : P.nMajor = T.nMajor)
    (hm : P.nMinor = T.nMinor) {i : ℕ} (hi : i < T.nMajor) :
    rowDifferences P T i = ((symmDiff (ones P) (ones T)).filter fun e => e.1 = i).card := by
  classical
  unfold rowDifferences
  rw [countP_range]
  apply Finset.card_bij' (fun j _ => (i, j)) fun e _ => e.2
  · intro j hj
    obtain ⟨h1, h2⟩ := Finset.mem_filter.mp hj
    rw [cellSum_stored hT _ hi, cellSum_stored hP _ (hn ▸ hi)] at h2
    simp only [Finset.mem_filter, Finset.mem_symmDiff, mem_ones hP.toWF, mem_ones hT.toWF, and_true]
    by_cases ha : P.Stored i j <;> by_cases hb : T.Stored i j <;> simp [ha, hb] at h2 ⊢
  · intro e he
    simp only [Finset.mem_filter, Finset.mem_symmDiff, mem_ones hP.toWF, mem_ones hT.toWF] at he
    obtain ⟨h1, rfl⟩ := he
    rw [Finset.mem_filter, Finset.mem_range, cellSum_stored hT _ hi, cellSum_stored hP _ (hn ▸ hi)]
    rcases h1 with ⟨ha, hb⟩ | ⟨hb, ha⟩
    · exact ⟨hm ▸ ha.minor_lt hP.toWF, by simp [ha, hb]⟩
    · exact ⟨hb.minor_lt hT.toWF, by simp [ha, hb]⟩
  · intro j _; rfl
  · intro e he
    exact Prod.ext (Finset.mem_filter.mp he).2.symm rfl

open Classical in
/-- **C67** Hamming accuracy is one minus the share of the positions where the matrices differ; subset
accuracy is the share of the rows on which they agree. -/
theorem C67_accuracies (P T : Cmp) (hP : P.Binary) (hT : T.Binary) (hs : SameShape P T) :
    hammingAccuracy P T = 1 - ((symmDiff (ones P) (ones T)).card : ℚ) / (T.nMajor * T.nMinor) ∧
    subsetAccuracy P T = (((Finset.range T.nMajor).filter (SameRow P T)).card : ℚ) / T.nMajor := by
  constructor
  · unfold hammingAccuracy
    have h1 : ((List.range T.nMajor).map (rowDifferences P T)).sum = (symmDiff (ones P) (ones T)).card := by
      rw [← List.sum_toFinset _ List.nodup_range, List.toFinset_range,
        Finset.card_eq_sum_card_fiberwise (t := Finset.range T.nMajor) (f := Prod.fst)]
      · apply Finset.sum_congr rfl
        intro i hi
        exact rowDifferences_eq hP hT hs.1 hs.2.1 (Finset.mem_range.mp hi)
      · intro e he
        simp only [Finset.coe_symmDiff, Set.mem_symmDiff, Finset.mem_coe, mem_ones hP.toWF, mem_ones hT.toWF] at he
        rcases he with ⟨ha, -⟩ | ⟨ha, -⟩
        · simpa [hs.1] using ha.major_lt hP.toWF
        · simpa using ha.major_lt hT.toWF
    rw [← h1]
  · unfold subsetAccuracy
    rw [countP_range]
    congr 2
    congr 1
    apply Finset.filter_congr
    intro i hi
    rw [rowDifferences_eq hP hT hs.1 hs.2.1 (Finset.mem_range.mp hi), Finset.card_eq_zero,
      Finset.eq_empty_iff_forall_notMem]
    constructor
    · intro h j
      have := h (i, j)
      simp only [Finset.mem_filter, Finset.mem_symmDiff, mem_ones hP.toWF, mem_ones hT.toWF, and_true] at this
      tauto
    · rintro h ⟨a, j⟩ he
      simp only [Finset.mem_filter, Finset.mem_symmDiff, mem_ones hP.toWF, mem_ones hT.toWF] at he
      obtain ⟨he, rfl⟩ := he
      have := h j
      tauto

/-! ### C67: consequences -/

theorem share_range {a b : ℕ} (h : a ≤ b) : 0 ≤ share a b ∧ share a b ≤ 1 := by
  unfold share
  split
  · norm_num
  · have hb : (0 : ℚ) < b := by exact_mod_cast (by omega : 0 < b)
    exact ⟨by positivity, by rw [div_le_one hb]; exact_mod_cast h⟩

theorem share_self (a : ℕ) : share a a = 1 := by
  unfold share
  split
  · rfl
  · rename_i h
    exact div_self (by exact_mod_cast h)

theorem dice_range {a p t : ℕ} (hp : a ≤ p) (ht : a ≤ t) : 0 ≤ dice a p t ∧ dice a p t ≤ 1 := by
  unfold dice
  split
  · norm_num
  · have hb : (0 : ℚ) < p + t := by exact_mod_cast (by omega : 0 < p + t)
    have h1 : (a : ℚ) ≤ p := by exact_mod_cast hp
    have h2 : (a : ℚ) ≤ t := by exact_mod_cast ht
    exact ⟨by positivity, by rw [div_le_one hb]; linarith⟩

theorem dice_self (a : ℕ) : dice a a a = 1 := by
  unfold dice
  split
  · rfl
  · rename_i h
    rw [← two_mul]
    exact div_self (by have : (a : ℚ) ≠ 0 := by exact_mod_cast (by omega : a ≠ 0)
                       positivity)

theorem dice_comm (a p t : ℕ) : dice a p t = dice a t p := by
  unfold dice
  rw [add_comm p t, add_comm (p : ℚ) t]

theorem mean_range {L : ℕ} (hL : 0 < L) {f : ℕ → ℚ} (h : ∀ j ∈ Finset.range L, 0 ≤ f j ∧ f j ≤ 1) :
    0 ≤ (∑ j ∈ Finset.range L, f j) / L ∧ (∑ j ∈ Finset.range L, f j) / L ≤ 1 := by
  have hL' : (0 : ℚ) < L := by exact_mod_cast hL
  refine ⟨div_nonneg (Finset.sum_nonneg fun j hj => (h j hj).1) hL'.le, ?_⟩
  rw [div_le_one hL']
  calc ∑ j ∈ Finset.range L, f j ≤ ∑ j ∈ Finset.range L, (1 : ℚ) := Finset.sum_le_sum fun j hj => (h j hj).2
    _ = L := by simp

theorem symmDiff_card_le {P T : Cmp} (hs : SameShape P T) :
    (symmDiff (ones P) (ones T)).card ≤ T.nMajor * T.nMinor := by
  classical
  have : symmDiff (ones P) (ones T) ⊆ Finset.range T.nMajor ×ˢ Finset.range T.nMinor := by
    intro e he
    rcases Finset.mem_symmDiff.mp he with ⟨h, -⟩ | ⟨h, -⟩
    · simp only [ones, Finset.mem_filter] at h
      rw [← hs.1, ← hs.2.1]
      exact h.1
    · simp only [ones, Finset.mem_filter] at h
      exact h.1
  calc _ ≤ _ := Finset.card_le_card this
    _ = _ := by simp

/-- **C67** All eight metrics lie between 0 and 1. -/
theorem C67_range (P T : Cmp) (hP : P.Binary) (hT : T.Binary) (hs : SameShape P T) :
    ∀ f ∈ name2func.map Prod.snd, 0 ≤ f P T ∧ f P T ≤ 1 := by
  classical
  obtain ⟨a1, a2⟩ := C67_accuracies P T hP hT hs
  obtain ⟨b1, b2, b3⟩ := C67_micro P T hP hT hs
  obtain ⟨c1, c2, c3⟩ := C67_macro P T hP hT hs
  have hn : (0 : ℚ) < T.nMajor := by exact_mod_cast hs.2.2.1
  have hL : (0 : ℚ) < T.nMinor := by exact_mod_cast hs.2.2.2
  have hi : ∀ s t : Finset (ℕ × ℕ), (s ∩ t).card ≤ s.card ∧ (s ∩ t).card ≤ t.card := fun s t =>
    ⟨Finset.card_le_card Finset.inter_subset_left, Finset.card_le_card Finset.inter_subset_right⟩
  intro f hf
  simp only [name2func, List.map_cons, List.map_nil, List.mem_cons, List.not_mem_nil, or_false] at hf
  rcases hf with rfl | rfl | rfl | rfl | rfl | rfl | rfl | rfl
  · rw [a1]
    have h1 : ((symmDiff (ones P) (ones T)).card : ℚ) / (T.nMajor * T.nMinor) ≤ 1 := by
      rw [div_le_one (by positivity)]
      exact_mod_cast symmDiff_card_le hs
    have h2 : 0 ≤ ((symmDiff (ones P) (ones T)).card : ℚ) / (T.nMajor * T.nMinor) := by positivity
    constructor <;> linarith
  · rw [a2]
    refine ⟨by positivity, ?_⟩
    rw [div_le_one hn]
    exact_mod_cast (Finset.card_filter_le _ _).trans (by simp)
  · rw [b1]; exact share_range (hi _ _).1
  · rw [b2]; exact share_range (hi _ _).2
  · rw [b3]; exact dice_range (hi _ _).1 (hi _ _).2
  · rw [c1]; exact mean_range hs.2.2.2 fun j _ => share_range (hi _ _).1
  · rw [c2]; exact mean_range hs.2.2.2 fun j _ => share_range (hi _ _).2
  · rw [c3]; exact mean_range hs.2.2.2 fun j _ => dice_range (hi _ _).1 (hi _ _).2

/-- **C67** On perfect predictions all eight metrics are 1. -/
theorem C67_perfect (P T : Cmp) (hP : P.Binary) (hT : T.Binary) (hs : SameShape P T)
    (h : ∀ i j, P.Stored i j ↔ T.Stored i j) : ∀ f ∈ name2func.map Prod.snd, f P T = 1 := by
  classical
  obtain ⟨a1, a2⟩ := C67_accuracies P T hP hT hs
  obtain ⟨b1, b2, b3⟩ := C67_micro P T hP hT hs
  obtain ⟨c1, c2, c3⟩ := C67_macro P T hP hT hs
  have hn : (T.nMajor : ℚ) ≠ 0 := by exact_mod_cast hs.2.2.1.ne'
  have hL : (T.nMinor : ℚ) ≠ 0 := by exact_mod_cast hs.2.2.2.ne'
  have he : ones P = ones T := by
    ext e
    rw [mem_ones hP.toWF, mem_ones hT.toWF, h]
  have hj : ∀ j, onesIn P j = onesIn T j := fun j => by rw [onesIn, onesIn, he]
  simp only [he, hj, Finset.inter_self, share_self, dice_self, symmDiff_self, Finset.bot_eq_empty,
    Finset.card_empty, Nat.cast_zero, zero_div, sub_zero, Finset.sum_const, Finset.card_range, nsmul_eq_mul,
    mul_one, div_self hL] at a1 b1 b2 b3 c1 c2 c3
  have hall : (Finset.range T.nMajor).filter (SameRow P T) = Finset.range T.nMajor := by
    ext i
    simp only [Finset.mem_filter]
    exact ⟨And.left, fun hi => ⟨hi, h i⟩⟩
  rw [hall, Finset.card_range, div_self hn] at a2
  intro f hf
  simp only [name2func, List.map_cons, List.map_nil, List.mem_cons, List.not_mem_nil, or_false] at hf
  rcases hf with rfl | rfl | rfl | rfl | rfl | rfl | rfl | rfl <;> assumption

/-- **C67** Hamming accuracy 1 and subset accuracy 1 mean perfect predictions. -/
theorem C67_perfect_only (P T : Cmp) (hP : P.Binary) (hT : T.Binary) (hs : SameShape P T)
    (h : hammingAccuracy P T = 1 ∨ subsetAccuracy P T = 1) : ∀ i j, P.Stored i j ↔ T.Stored i j := by
  classical
  obtain ⟨a1, a2⟩ := C67_accuracies P T hP hT hs
  have hn : (T.nMajor : ℚ) ≠ 0 := by exact_mod_cast hs.2.2.1.ne'
  have hL : (T.nMinor : ℚ) ≠ 0 := by exact_mod_cast hs.2.2.2.ne'
  rcases h with h | h
  · rw [a1] at h
    have h1 : ((symmDiff (ones P) (ones T)).card : ℚ) / (T.nMajor * T.nMinor) = 0 := by linarith
    rw [div_eq_zero_iff, or_iff_left (by positivity)] at h1
    have h2 : symmDiff (ones P) (ones T) = ∅ := Finset.card_eq_zero.mp (by exact_mod_cast h1)
    have h3 : ones P = ones T := symmDiff_eq_bot.mp (by rw [h2]; rfl)
    intro i j
    rw [← mem_ones hP.toWF (e := (i, j)), ← mem_ones hT.toWF (e := (i, j)), h3]
  · rw [a2, div_eq_one_iff_eq hn] at h
    have h1 : (Finset.range T.nMajor).filter (SameRow P T) = Finset.range T.nMajor := by
      apply Finset.eq_of_subset_of_card_le (Finset.filter_subset _ _)
      rw [Finset.card_range]
      have : ((Finset.range T.nMajor).filter (SameRow P T)).card = T.nMajor := by exact_mod_cast h
      omega
    intro i j
    by_cases hi : i < T.nMajor
    · have := Finset.mem_range.mpr hi
      rw [← h1, Finset.mem_filter] at this
      exact this.2 j
    · exact ⟨fun h => absurd (hs.1 ▸ h.major_lt hP.toWF) hi, fun h => absurd (h.major_lt hT.toWF) hi⟩

/-- **C67** Swapping predictions and ground truth exchanges precision and recall and changes nothing
else. -/
theorem C67_swap (P T : Cmp) (hP : P.Binary) (hT : T.Binary) (hs : SameShape P T) :
    hammingAccuracy T P = hammingAccuracy P T ∧ subsetAccuracy T P = subsetAccuracy P T ∧
    microPrecision T P = microRecall P T ∧ microRecall T P = microPrecision P T ∧ microF1 T P = microF1 P T ∧
    macroPrecision T P = macroRecall P T ∧ macroRecall T P = macroPrecision P T ∧ macroF1 T P = macroF1 P T := by
  classical
  have hs' : SameShape T P := ⟨hs.1.symm, hs.2.1.symm, hs.1 ▸ hs.2.2.1, hs.2.1 ▸ hs.2.2.2⟩
  obtain ⟨a1, a2⟩ := C67_accuracies P T hP hT hs
  obtain ⟨b1, b2, b3⟩ := C67_micro P T hP hT hs
  obtain ⟨c1, c2, c3⟩ := C67_macro P T hP hT hs
  obtain ⟨a1', a2'⟩ := C67_accuracies T P hT hP hs'
  obtain ⟨b1', b2', b3'⟩ := C67_micro T P hT hP hs'
  obtain ⟨c1', c2', c3'⟩ := C67_macro T P hT hP hs'
  have hrow : ∀ i, SameRow T P i ↔ SameRow P T i := fun i => ⟨fun h j => (h j).symm, fun h j => (h j).symm⟩
  rw [a1, a2, b1, b2, b3, c1, c2, c3, a1', a2', b1', b2', b3', c1', c2', c3', hs.1, hs.2.1, symmDiff_comm,
    Finset.inter_comm (ones T), dice_comm _ (ones T).card]
  simp only [Finset.inter_comm (onesIn T _), hrow, dice_comm _ (onesIn T _).card, and_self]

/-- **C67** Subset accuracy never exceeds hamming accuracy. -/
theorem C67_subset_le_hamming (P T : Cmp) (hP : P.Binary) (hT : T.Binary) (hs : SameShape P T) :
    subsetAccuracy P T ≤ hammingAccuracy P T := by
  classical
  obtain ⟨a1, a2⟩ := C67_accuracies P T hP hT hs
  have hn : (0 : ℚ) < T.nMajor := by exact_mod_cast hs.2.2.1
  have hL : (0 : ℚ) < T.nMinor := by exact_mod_cast hs.2.2.2
  have key : (symmDiff (ones P) (ones T)).card ≤
      ((Finset.range T.nMajor).filter fun i => ¬ SameRow P T i).card * T.nMinor := by
    conv_rhs => rw [← Finset.card_range T.nMinor]
    rw [← Finset.card_product]
    apply Finset.card_le_card
    rintro ⟨i, j⟩ he
    simp only [Finset.mem_product, Finset.mem_filter, Finset.mem_range]
    rcases Finset.mem_symmDiff.mp he with ⟨h1, h2⟩ | ⟨h1, h2⟩
    · rw [mem_ones hP.toWF] at h1
      rw [mem_ones hT.toWF] at h2
      exact ⟨⟨hs.1 ▸ h1.major_lt hP.toWF, fun h => h2 ((h j).mp h1)⟩, hs.2.1 ▸ h1.minor_lt hP.toWF⟩
    · rw [mem_ones hT.toWF] at h1
      rw [mem_ones hP.toWF] at h2
      exact ⟨⟨h1.major_lt hT.toWF, fun h => h2 ((h j).mpr h1)⟩, h1.minor_lt hT.toWF⟩
  have hsum : ((Finset.range T.nMajor).filter (SameRow P T)).card +
      ((Finset.range T.nMajor).filter fun i => ¬ SameRow P T i).card = T.nMajor := by
    rw [Finset.card_filter_add_card_filter_not, Finset.card_range]
  rw [a1, a2, le_sub_iff_add_le, div_add_div _ _ hn.ne' (by positivity), div_le_one (by positivity)]
  have k' : ((symmDiff (ones P) (ones T)).card : ℚ) ≤
      (((Finset.range T.nMajor).filter fun i => ¬ SameRow P T i).card : ℚ) * T.nMinor := by exact_mod_cast key
  have s' : (((Finset.range T.nMajor).filter (SameRow P T)).card : ℚ) +
      (((Finset.range T.nMajor).filter fun i => ¬ SameRow P T i).card : ℚ) = T.nMajor := by exact_mod_cast hsum
  have e1 : (((Finset.range T.nMajor).filter (SameRow P T)).card : ℚ) =
      T.nMajor - (((Finset.range T.nMajor).filter fun i => ¬ SameRow P T i).card : ℚ) := by linarith
  rw [e1]
  nlinarith [mul_le_mul_of_nonneg_left k' hn.le]

/-! ### C67: the report -/

theorem dictSet_new {res : List (String × ℚ)} {m : String} {v : ℚ} (h : m ∉ res.map Prod.fst) :
    dictSet res m v = res ++ [(m, v)] := if_neg h

theorem lookup_isSome (m : String) : (∃ f, name2func.lookup m = some f) ↔ m ∈ availableMetrics := by
  constructor
  · rintro ⟨f, h⟩
    by_contra hc
    have : name2func.lookup m = none := by
      rw [List.lookup_eq_none_iff]
      intro p hp
      simp only [name2func, List.mem_cons, List.not_mem_nil, or_false] at hp
      rw [bne_iff_ne]
      rintro rfl
      apply hc
      rcases hp with rfl | rfl | rfl | rfl | rfl | rfl | rfl | rfl <;> decide
    rw [this] at h
    cases h
  · intro h
    simp only [availableMetrics, List.mem_cons, List.not_mem_nil, or_false] at h
    rcases h with rfl | rfl | rfl | rfl | rfl | rfl | rfl | rfl <;> exact ⟨_, rfl⟩

/-- **C67** An `Evaluator` can be built exactly for lists of known metric names; on matrices of the same
shape its report has each requested metric once, with its value, in the order of first request; on
matrices of different shapes it raises `ValueError` (unless no metric is requested). -/
theorem C67_report (ms : List String) (P T : Cmp) :
    ((∀ m ∈ ms, m ∈ availableMetrics) ↔ evaluatorInit ms = .ok ms) ∧
    ((∃ m ∈ ms, m ∉ availableMetrics) ↔ evaluatorInit ms = .error .assertionError) ∧
    ((∀ m ∈ ms, m ∈ availableMetrics) → P.nMajor = T.nMajor → P.nMinor = T.nMinor →
      ∃ res, evaluatorReport ms P T = .ok res ∧ (res.map Prod.fst).Nodup ∧ (res.map Prod.fst).Sublist ms ∧
        ∀ m v, (m, v) ∈ res ↔ m ∈ ms ∧ ∃ f, name2func.lookup m = some f ∧ v = f P T) ∧
    ((∀ m ∈ ms, m ∈ availableMetrics) → ¬ (P.nMajor = T.nMajor ∧ P.nMinor = T.nMinor) → ms ≠ [] →
      evaluatorReport ms P T = .error .valueError) := by
  refine ⟨?_, ?_, ?_, ?_⟩
  · unfold evaluatorInit
    split
    · rename_i h; exact ⟨fun _ => rfl, fun _ => h⟩
    · rename_i h; exact ⟨fun h' => absurd h' h, fun h' => by cases h'⟩
  · unfold evaluatorInit
    split
    · rename_i h
      refine ⟨?_, fun h' => by cases h'⟩
      rintro ⟨m, h1, h2⟩
      exact absurd (h m h1) h2
    · rename_i h
      push Not at h
      exact ⟨fun _ => rfl, fun _ => h⟩
  · intro hms h1 h2
    have key : ∀ (ms : List String), (∀ m ∈ ms, m ∈ availableMetrics) → ∀ (acc : List (String × ℚ)),
        (acc.map Prod.fst).Nodup → (∀ m v, (m, v) ∈ acc → ∃ f, name2func.lookup m = some f ∧ v = f P T) →
        ∃ add, ms.foldlM (reportOne P T) acc = .ok (acc ++ add) ∧ ((acc ++ add).map Prod.fst).Nodup ∧
          (add.map Prod.fst).Sublist ms ∧
          (∀ m v, (m, v) ∈ acc ++ add → ∃ f, name2func.lookup m = some f ∧ v = f P T) ∧
          ∀ m, m ∈ (acc ++ add).map Prod.fst ↔ m ∈ acc.map Prod.fst ∨ m ∈ ms := by
      intro ms
      induction ms with
      | nil => intro _ acc hnd hv; exact ⟨[], by simp [pure, Except.pure], by simpa using hnd, by simp, by simpa using hv, by simp⟩
      | cons m ms ih =>
        intro hms acc hnd hv
        obtain ⟨f, hf⟩ := (lookup_isSome m).mpr (hms m (by simp))
        have hone : reportOne P T acc m = .ok (dictSet acc m (f P T)) := by
          unfold reportOne
          rw [hf]
          exact if_pos ⟨h1, h2⟩
        rw [List.foldlM_cons, hone]
        by_cases hm : m ∈ acc.map Prod.fst
        · have hsame : dictSet acc m (f P T) = acc := by
            unfold dictSet
            rw [if_pos hm]
            conv_rhs => rw [← List.map_id acc]
            apply List.map_congr_left
            rintro ⟨a, v⟩ he
            split
            · rename_i ha
              simp only at ha
              subst ha
              obtain ⟨f', hf', rfl⟩ := hv _ _ he
              rw [hf] at hf'
              cases hf'
              rfl
            · rfl
          obtain ⟨add, e1, e2, e3, e4, e5⟩ := ih (fun m hm => hms m (by simp [hm])) acc hnd hv
          refine ⟨add, ?_, e2, e3.cons m, e4, ?_⟩
          · rw [hsame]; exact e1
          · intro x
            rw [e5, List.mem_cons]
            constructor
            · rintro (h | h)
              · exact Or.inl h
              · exact Or.inr (Or.inr h)
            · rintro (h | rfl | h)
              · exact Or.inl h
              · exact Or.inl hm
              · exact Or.inr h
        · have hv' : ∀ a v, (a, v) ∈ acc ++ [(m, f P T)] → ∃ f, name2func.lookup a = some f ∧ v = f P T := by
            intro a v he
            rw [List.mem_append, List.mem_singleton] at he
            rcases he with he | he
            · exact hv a v he
            · cases he
              exact ⟨f, hf, rfl⟩
          obtain ⟨add, e1, e2, e3, e4, e5⟩ := ih (fun m hm => hms m (by simp [hm])) (acc ++ [(m, f P T)])
            (by
              rw [List.map_append, List.nodup_append]
              refine ⟨hnd, by simp, ?_⟩
              intro a ha b hb
              simp only [List.map_cons, List.map_nil, List.mem_singleton] at hb
              subst hb
              rintro rfl
              exact hm ha) hv'
          refine ⟨(m, f P T) :: add, ?_, ?_, ?_, ?_, ?_⟩
          · rw [dictSet_new hm]
            simp only [bind, Except.bind]
            rw [e1, List.append_assoc]
            rfl
          · simpa [List.append_assoc] using e2
          · exact e3.cons_cons m
          · simpa [List.append_assoc] using e4
          · intro x
            have := e5 x
            simp only [List.map_append, List.mem_append, List.map_cons, List.map_nil, List.mem_cons,
              List.not_mem_nil, or_false] at this ⊢
            tauto
    obtain ⟨add, e1, e2, e3, e4, e5⟩ := key ms hms [] (by simp) (by simp)
    simp only [List.nil_append] at e1 e2 e3 e4 e5
    refine ⟨add, e1, e2, e3, ?_⟩
    intro m v
    constructor
    · intro h
      refine ⟨?_, e4 m v h⟩
      have := (e5 m).mp (List.mem_map.mpr ⟨_, h, rfl⟩)
      simpa using this
    · rintro ⟨hm, f, hf, rfl⟩
      have := (e5 m).mpr (Or.inr hm)
      rw [List.mem_map] at this
      obtain ⟨⟨a, v⟩, he, rfl⟩ := this
      obtain ⟨f', hf', rfl⟩ := e4 _ _ he
      simp only at hf
      rw [hf] at hf'
      cases hf'
      exact he
  · intro hms hne hnil
    obtain ⟨m, ms, rfl⟩ := List.exists_cons_of_ne_nil hnil
    obtain ⟨f, hf⟩ := (lookup_isSome m).mpr (hms m (by simp))
    unfold evaluatorReport
    rw [List.foldlM_cons]
    have : reportOne P T [] m = .error .valueError := by
      unfold reportOne
      rw [hf]
      exact if_neg hne
    rw [this]
    rfl

/-- **C67** The default evaluator reports the eight metrics under their names. -/
theorem C67_default_report (P T : Cmp) (h1 : P.nMajor = T.nMajor) (h2 : P.nMinor = T.nMinor) :
    evaluatorReport availableMetrics P T = .ok
      [("hamming_accuracy", hammingAccuracy P T), ("subset_accuracy", subsetAccuracy P T),
        ("micro_precision", microPrecision P T), ("micro_recall", microRecall P T), ("micro_f1", microF1 P T),
        ("macro_precision", macroPrecision P T), ("macro_recall", macroRecall P T), ("macro_f1", macroF1 P T)] := by
  simp [evaluatorReport, availableMetrics, reportOne, name2func, h1, h2, dictSet, List.lookup, bind, Except.bind,
    pure, Except.pure]

/-- Two predictions of a `2 × 2` matrix. -/
def evalPred : Cmp := { nMajor := 2, nMinor := 2, indptr := [0, 2, 2], indices := [0, 1], data := [1, 1] }
def evalTruth : Cmp := { nMajor := 2, nMinor := 2, indptr := [0, 1, 2], indices := [0, 1], data := [1, 1] }

theorem evalPred_binary : evalPred.Binary :=
  { len_indptr := by decide, ptr_zero := by decide, ptr_mono := by decide, ptr_last := by decide,
    len_data := by decide, idx_lt := by decide, data_one := by decide, nodup := by decide }

theorem evalTruth_binary : evalTruth.Binary :=
  { len_indptr := by decide, ptr_zero := by decide, ptr_mono := by decide, ptr_last := by decide,
    len_data := by decide, idx_lt := by decide, data_one := by decide, nodup := by decide }

example : SameShape evalPred evalTruth := ⟨rfl, rfl, by decide, by decide⟩

example : hammingAccuracy evalPred evalTruth = 1 / 2 ∧ subsetAccuracy evalPred evalTruth = 0 ∧
    microPrecision evalPred evalTruth = 1 / 2 := by decide +kernel

end Verif
