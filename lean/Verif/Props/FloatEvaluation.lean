/-
Properties of the metrics as they are reported, in double precision (C144).
-/
import Verif.Lemmas.FloatEvaluation
import Verif.Lemmas.FloatGraph

namespace Verif

/-! ### Counts -/

theorem ones_card_le (m : Cmp) : (ones m).card ≤ m.nMajor * m.nMinor := by
  have h : ones m ⊆ Finset.range m.nMajor ×ˢ Finset.range m.nMinor := by
    intro e he
    simp only [ones, Finset.mem_filter] at he
    exact he.1
  refine (Finset.card_le_card h).trans ?_
  simp

theorem onesIn_card_le (m : Cmp) (j : ℕ) : (onesIn m j).card ≤ m.nMajor := by
  rw [← Finset.card_range m.nMajor]
  refine Finset.card_le_card_of_injOn Prod.fst ?_ ?_
  · intro e he
    simp only [onesIn, ones, Finset.coe_filter, Finset.mem_filter, Finset.mem_product, Set.mem_setOf_eq] at he
    exact he.1.1.1
  · intro a ha b hb hab
    simp only [onesIn, Finset.coe_filter, Set.mem_setOf_eq] at ha hb
    exact Prod.ext hab (ha.2.trans hb.2.symm)

theorem inter_card_le (s t : Finset (ℕ × ℕ)) : (s ∩ t).card ≤ s.card ∧ (s ∩ t).card ≤ t.card :=
  ⟨Finset.card_le_card Finset.inter_subset_left, Finset.card_le_card Finset.inter_subset_right⟩

theorem fScore_cast (p r : ℚ) :
    ((fScore p r : ℚ) : ℝ) = 2 * p * r / (if (p : ℝ) + r = 0 then 1 else (p : ℝ) + r) := by
  unfold fScore
  by_cases h : p + r = 0
  · have h' : (p : ℝ) + r = 0 := by exact_mod_cast h
    rw [if_pos h, if_pos h']
    push_cast
    ring
  · have h' : (p : ℝ) + r ≠ 0 := by exact_mod_cast h
    rw [if_neg h, if_neg h']
    push_cast
    ring

/-- The metrics in terms of the matrices. -/
theorem differences_total {P T : Cmp} (hP : P.Binary) (hT : T.Binary) (hs : SameShape P T) :
    ((List.range T.nMajor).map (rowDifferences P T)).sum = (symmDiff (ones P) (ones T)).card := by
  have h := (C67_accuracies P T hP hT hs).1
  unfold hammingAccuracy at h
  have hn : (0 : ℚ) < T.nMajor := by exact_mod_cast hs.2.2.1
  have hL : (0 : ℚ) < T.nMinor := by exact_mod_cast hs.2.2.2
  have h1 := sub_right_inj.mp h
  rw [div_left_inj' (by positivity)] at h1
  exact_mod_cast h1

theorem hammingF_eq {P T : Cmp} (hP : P.Binary) (hT : T.Binary) (hs : SameShape P T)
    (hN : T.nMajor * T.nMinor ≤ 2 ^ 53) :
    hammingAccuracyF P T =
      fl (1 - fl (((symmDiff (ones P) (ones T)).card : ℝ) / ((T.nMajor * T.nMinor : ℕ) : ℝ))) := by
  unfold hammingAccuracyF
  rw [differences_total hP hT hs, fl_nat hN, fl_nat ((symmDiff_card_le hs).trans hN)]

theorem sum_indicator (n : ℕ) (p : ℕ → Prop) [DecidablePred p] :
    ((List.range n).map fun i => if p i then (1 : ℝ) else 0).sum = (List.range n).countP fun i => decide (p i) := by
  induction (List.range n) with
  | nil => simp
  | cons a l ih =>
    rw [List.map_cons, List.sum_cons, ih, List.countP_cons]
    by_cases h : p a <;> simp [h]; ring

theorem subsetF_eq (S : Summation) (P T : Cmp) (hn : T.nMajor ≤ 2 ^ 53) :
    subsetAccuracyF S P T = fl ((subsetAccuracy P T : ℚ) : ℝ) := by
  unfold subsetAccuracyF subsetAccuracy
  have hc : ((List.range T.nMajor).countP fun i => decide (rowDifferences P T i = 0)) ≤ T.nMajor := by
    simpa using List.countP_le_length (p := fun i => decide (rowDifferences P T i = 0)) (l := List.range T.nMajor)
  rw [S.sum_nat ?_ ?_, sum_indicator, fl_nat hn]
  · push_cast
    rfl
  · intro x hx
    obtain ⟨i, -, rfl⟩ := List.mem_map.mp hx
    by_cases h : rowDifferences P T i = 0
    · exact ⟨1, by simp [h]⟩
    · exact ⟨0, by simp [h]⟩
  · rw [sum_indicator]
    exact_mod_cast hc.trans hn

theorem microF_eq {P T : Cmp} (hP : P.Binary) (hT : T.Binary) (hs : SameShape P T)
    (hN : T.nMajor * T.nMinor ≤ 2 ^ 53) :
    microPrecisionF P T = fl ((microPrecision P T : ℚ) : ℝ) ∧ microRecallF P T = fl ((microRecall P T : ℚ) : ℝ) := by
  obtain ⟨b1, b2, -⟩ := C67_micro P T hP hT hs
  have hNP : (ones P).card ≤ 2 ^ 53 := (ones_card_le P).trans (by rw [hs.1, hs.2.1]; exact hN)
  have hNT : (ones T).card ≤ 2 ^ 53 := (ones_card_le T).trans hN
  rw [b1, b2]
  unfold microPrecisionF microRecallF
  rw [total_tpSum hP hT hs.1, total_colCount hT]
  nth_rewrite 1 [← hs.2.1]
  rw [total_colCount hP]
  exact ⟨prfDivideF_eq (inter_card_le _ _).1 hNP, prfDivideF_eq (inter_card_le _ _).2 hNT⟩

theorem labelF_eq {P T : Cmp} (hP : P.Binary) (hT : T.Binary) (hs : SameShape P T) (hn : T.nMajor ≤ 2 ^ 53) (j : ℕ) :
    prfDivideF (tpSum P T j) (colCount P j) =
      fl ((share (onesIn P j ∩ onesIn T j).card (onesIn P j).card : ℚ) : ℝ) ∧
    prfDivideF (tpSum P T j) (colCount T j) =
      fl ((share (onesIn P j ∩ onesIn T j).card (onesIn T j).card : ℚ) : ℝ) := by
  rw [tpSum_eq hP hT hs.1, colCount_eq hP, colCount_eq hT]
  exact ⟨prfDivideF_eq (inter_card_le _ _).1 ((onesIn_card_le P j).trans (by rw [hs.1]; exact hn)),
    prfDivideF_eq (inter_card_le _ _).2 ((onesIn_card_le T j).trans hn)⟩

theorem cells_le {T : Cmp} (hn : 0 < T.nMajor) (hL : 0 < T.nMinor) {B : ℕ} (hN : T.nMajor * T.nMinor ≤ B) :
    T.nMajor ≤ B ∧ T.nMinor ≤ B :=
  ⟨(Nat.le_mul_of_pos_right _ hL).trans hN, (Nat.le_mul_of_pos_left _ hn).trans hN⟩

theorem labelF1_close {P T : Cmp} (hP : P.Binary) (hT : T.Binary) (hs : SameShape P T) (hn : T.nMajor ≤ 2 ^ 53)
    (j : ℕ) :
    RelClose 14 (fScoreF (prfDivideF (tpSum P T j) (colCount P j)) (prfDivideF (tpSum P T j) (colCount T j)))
      ((dice (onesIn P j ∩ onesIn T j).card (onesIn P j).card (onesIn T j).card : ℚ) : ℝ) := by
  obtain ⟨h1, h2⟩ := labelF_eq hP hT hs hn j
  have hi := inter_card_le (onesIn P j) (onesIn T j)
  rw [h1, h2, ← fScore_share _ _ _ hi.1 hi.2, fScore_cast]
  exact fScoreF_close (share_real hi.1).1 (share_real hi.2).1

theorem labelF1_range {P T : Cmp} (hP : P.Binary) (hT : T.Binary) (hs : SameShape P T) (hn : T.nMajor ≤ 2 ^ 53)
    (j : ℕ) :
    0 ≤ fScoreF (prfDivideF (tpSum P T j) (colCount P j)) (prfDivideF (tpSum P T j) (colCount T j)) ∧
    fScoreF (prfDivideF (tpSum P T j) (colCount P j)) (prfDivideF (tpSum P T j) (colCount T j)) ≤ 1 := by
  obtain ⟨h1, h2⟩ := labelF_eq hP hT hs hn j
  have hi := inter_card_le (onesIn P j) (onesIn T j)
  have s1 := share_real hi.1
  have s2 := share_real hi.2
  rw [h1, h2]
  exact fScoreF_range (double_fl _) (fl_nonneg s1.1) (fl_le_one s1.1 s1.2) (fl_nonneg s2.1) (fl_le_one s2.1 s2.2)

/-! ### C144 -/

/-- **C144** On at most `2⁵³` cells the reported subset accuracy, micro precision and micro recall are the doubles
nearest to the exact ones. -/
theorem C144_rounded (S : Summation) (P T : Cmp) (hP : P.Binary) (hT : T.Binary) (hs : SameShape P T)
    (hN : T.nMajor * T.nMinor ≤ 2 ^ 53) :
    subsetAccuracyF S P T = fl ((subsetAccuracy P T : ℚ) : ℝ) ∧
    microPrecisionF P T = fl ((microPrecision P T : ℚ) : ℝ) ∧
    microRecallF P T = fl ((microRecall P T : ℚ) : ℝ) :=
  ⟨subsetF_eq S P T (cells_le hs.2.2.1 hs.2.2.2 hN).1, (microF_eq hP hT hs hN).1, (microF_eq hP hT hs hN).2⟩

theorem abs_fl_sub {x : ℝ} (h : 0 ≤ x) : |fl x - x| ≤ x / 2 ^ 53 := by
  have := fl_error x
  rw [abs_of_nonneg h] at this
  linarith

theorem hammingF_close {P T : Cmp} (hP : P.Binary) (hT : T.Binary) (hs : SameShape P T)
    (hN : T.nMajor * T.nMinor ≤ 2 ^ 53) : |hammingAccuracyF P T - ((hammingAccuracy P T : ℚ) : ℝ)| ≤ 2 / 2 ^ 53 := by
  rw [hammingF_eq hP hT hs hN, (C67_accuracies P T hP hT hs).1]
  have hNpos : (0 : ℝ) < ((T.nMajor * T.nMinor : ℕ) : ℝ) := by exact_mod_cast Nat.mul_pos hs.2.2.1 hs.2.2.2
  push_cast at hNpos ⊢
  set x : ℝ := ((symmDiff (ones P) (ones T)).card : ℝ) / ((T.nMajor : ℝ) * T.nMinor) with hx
  have hx0 : 0 ≤ x := by positivity
  have hx1 : x ≤ 1 := by
    rw [hx, div_le_one hNpos]
    exact_mod_cast symmDiff_card_le hs
  have h1 := abs_fl_sub hx0
  have h2 : 0 ≤ fl x := fl_nonneg hx0
  have h3 : fl x ≤ 1 := fl_le_one hx0 hx1
  have h4 := abs_fl_sub (sub_nonneg.mpr h3)
  have h5 : |fl (1 - fl x) - (1 - x)| ≤ |fl (1 - fl x) - (1 - fl x)| + |fl x - x| := by
    rw [show fl (1 - fl x) - (1 - x) = (fl (1 - fl x) - (1 - fl x)) + -(fl x - x) by ring, ← abs_neg (fl x - x)]
    exact abs_add_le _ _
  have h6 : (1 - fl x) / 2 ^ 53 ≤ 1 / 2 ^ 53 := div_le_div_of_nonneg_right (by linarith) (by positivity)
  have h7 : x / 2 ^ 53 ≤ 1 / 2 ^ 53 := div_le_div_of_nonneg_right hx1 (by positivity)
  have h8 : (2 : ℝ) / 2 ^ 53 = 1 / 2 ^ 53 + 1 / 2 ^ 53 := by ring
  rw [h8]
  linarith

theorem sum_cast (L : ℕ) (f : ℕ → ℚ) :
    (((∑ j ∈ Finset.range L, f j) / L : ℚ) : ℝ) = (∑ j ∈ Finset.range L, (f j : ℝ)) / L := by push_cast; rfl

/-- **C144** On at most `2⁵⁰` cells every reported score is close to the exact one: hamming accuracy within
`2⁻⁵²`, subset accuracy, micro precision and micro recall within a relative error of `2⁻⁵³`, micro F1 within
`28 · 2⁻⁵³`, and the macro averages within a multiple of the number of labels. -/
theorem C144_close (S : Summation) (P T : Cmp) (hP : P.Binary) (hT : T.Binary) (hs : SameShape P T)
    (hN : T.nMajor * T.nMinor ≤ 2 ^ 50) :
    |hammingAccuracyF P T - (hammingAccuracy P T : ℚ)| ≤ 2 / 2 ^ 53 ∧
    |subsetAccuracyF S P T - (subsetAccuracy P T : ℚ)| ≤ (subsetAccuracy P T : ℚ) / 2 ^ 53 ∧
    |microPrecisionF P T - (microPrecision P T : ℚ)| ≤ (microPrecision P T : ℚ) / 2 ^ 53 ∧
    |microRecallF P T - (microRecall P T : ℚ)| ≤ (microRecall P T : ℚ) / 2 ^ 53 ∧
    |microF1F P T - (microF1 P T : ℚ)| ≤ (microF1 P T : ℚ) * (28 / 2 ^ 53) ∧
    |macroPrecisionF S P T - (macroPrecision P T : ℚ)| ≤ (macroPrecision P T : ℚ) * ((4 * T.nMinor + 4) / 2 ^ 53) ∧
    |macroRecallF S P T - (macroRecall P T : ℚ)| ≤ (macroRecall P T : ℚ) * ((4 * T.nMinor + 4) / 2 ^ 53) ∧
    |macroF1F S P T - (macroF1 P T : ℚ)| ≤ (macroF1 P T : ℚ) * ((4 * T.nMinor + 28) / 2 ^ 53) := by
  have hN' : T.nMajor * T.nMinor ≤ 2 ^ 53 := hN.trans (by norm_num)
  obtain ⟨hn, hL⟩ := cells_le hs.2.2.1 hs.2.2.2 hN'
  have hL50 := (cells_le hs.2.2.1 hs.2.2.2 hN).2
  have hr : ∀ f ∈ name2func.map Prod.snd, (0 : ℝ) ≤ (f P T : ℚ) := fun f hf => by
    exact_mod_cast (C67_range P T hP hT hs f hf).1
  obtain ⟨r1, r2, r3⟩ := C144_rounded S P T hP hT hs hN'
  obtain ⟨c1, c2, c3⟩ := C67_macro P T hP hT hs
  have hmp := hr macroPrecision (by simp [name2func])
  have hmr := hr macroRecall (by simp [name2func])
  have hmf := hr macroF1 (by simp [name2func])
  refine ⟨hammingF_close hP hT hs hN', ?_, ?_, ?_, ?_, ?_, ?_, ?_⟩
  · rw [r1]; exact abs_fl_sub (hr _ (by simp [name2func]))
  · rw [r2]; exact abs_fl_sub (hr _ (by simp [name2func]))
  · rw [r3]; exact abs_fl_sub (hr _ (by simp [name2func]))
  · have hp := hr microPrecision (by simp [name2func])
    have hq := hr microRecall (by simp [name2func])
    have h := fScoreF_close hp hq
    rw [← fScore_cast, ← r2, ← r3] at h
    refine (rel_abs (by norm_num) ?_ (hr microF1 (by simp [name2func])) h).trans (le_of_eq ?_)
    · rw [r2, r3]
      exact (fScoreF_range (double_fl _) (fl_nonneg hp)
        (fl_le_one hp (by exact_mod_cast (C67_range P T hP hT hs microPrecision (by simp [name2func])).2)) (fl_nonneg hq)
        (fl_le_one hq (by exact_mod_cast (C67_range P T hP hT hs microRecall (by simp [name2func])).2))).1
    · show ((microF1 P T : ℚ) : ℝ) * _ = _
      norm_num
  · have h := labelMeanF_close S (k := 2) hs.2.2.2 hL
      (f := fun j => prfDivideF (tpSum P T j) (colCount P j))
      (g := fun j => ((share (onesIn P j ∩ onesIn T j).card (onesIn P j).card : ℚ) : ℝ))
      (fun j _ => by rw [(labelF_eq hP hT hs hn j).1]; exact fl_nonneg (share_real (inter_card_le _ _).1).1)
      (fun j _ => by rw [(labelF_eq hP hT hs hn j).1]; exact RelClose.round (share_real (inter_card_le _ _).1).1)
      (fun j _ => (share_real (inter_card_le _ _).1).1)
    rw [← sum_cast, ← c1] at h
    refine (rel_abs (by omega) ?_ hmp h).trans (le_of_eq ?_)
    · exact (labelMeanF_range S hL fun j _ => by
        rw [(labelF_eq hP hT hs hn j).1]
        have := share_real (inter_card_le (onesIn P j) (onesIn T j)).1
        exact ⟨fl_nonneg this.1, fl_le_one this.1 this.2⟩).1
    · push_cast; ring
  · have h := labelMeanF_close S (k := 2) hs.2.2.2 hL
      (f := fun j => prfDivideF (tpSum P T j) (colCount T j))
      (g := fun j => ((share (onesIn P j ∩ onesIn T j).card (onesIn T j).card : ℚ) : ℝ))
      (fun j _ => by rw [(labelF_eq hP hT hs hn j).2]; exact fl_nonneg (share_real (inter_card_le _ _).2).1)
      (fun j _ => by rw [(labelF_eq hP hT hs hn j).2]; exact RelClose.round (share_real (inter_card_le _ _).2).1)
      (fun j _ => (share_real (inter_card_le _ _).2).1)
    rw [← sum_cast, ← c2] at h
    refine (rel_abs (by omega) ?_ hmr h).trans (le_of_eq ?_)
    · exact (labelMeanF_range S hL fun j _ => by
        rw [(labelF_eq hP hT hs hn j).2]
        have := share_real (inter_card_le (onesIn P j) (onesIn T j)).2
        exact ⟨fl_nonneg this.1, fl_le_one this.1 this.2⟩).1
    · push_cast; ring
  · have h := labelMeanF_close S (k := 14) hs.2.2.2 hL
      (f := fun j => fScoreF (prfDivideF (tpSum P T j) (colCount P j)) (prfDivideF (tpSum P T j) (colCount T j)))
      (g := fun j => ((dice (onesIn P j ∩ onesIn T j).card (onesIn P j).card (onesIn T j).card : ℚ) : ℝ))
      (fun j _ => (labelF1_range hP hT hs hn j).1) (fun j _ => labelF1_close hP hT hs hn j)
      (fun j _ => by exact_mod_cast (dice_range (inter_card_le _ _).1 (inter_card_le _ _).2).1)
    rw [← sum_cast, ← c3] at h
    refine (rel_abs (by omega) ?_ hmf h).trans (le_of_eq ?_)
    · exact (labelMeanF_range S hL fun j _ => labelF1_range hP hT hs hn j).1
    · push_cast; ring

/-- **C144** Every reported score lies in the unit interval, rounding included. -/
theorem C144_range (S : Summation) (P T : Cmp) (hP : P.Binary) (hT : T.Binary) (hs : SameShape P T)
    (hN : T.nMajor * T.nMinor ≤ 2 ^ 53) :
    ∀ x ∈ [hammingAccuracyF P T, subsetAccuracyF S P T, microPrecisionF P T, microRecallF P T, microF1F P T,
      macroPrecisionF S P T, macroRecallF S P T, macroF1F S P T], 0 ≤ x ∧ x ≤ 1 := by
  obtain ⟨hn, hL⟩ := cells_le hs.2.2.1 hs.2.2.2 hN
  have hr : ∀ f ∈ name2func.map Prod.snd, (0 : ℝ) ≤ (f P T : ℚ) ∧ ((f P T : ℚ) : ℝ) ≤ 1 := fun f hf =>
    ⟨by exact_mod_cast (C67_range P T hP hT hs f hf).1, by exact_mod_cast (C67_range P T hP hT hs f hf).2⟩
  have hfl : ∀ x : ℝ, 0 ≤ x ∧ x ≤ 1 → 0 ≤ fl x ∧ fl x ≤ 1 := fun x h => ⟨fl_nonneg h.1, fl_le_one h.1 h.2⟩
  obtain ⟨r1, r2, r3⟩ := C144_rounded S P T hP hT hs hN
  have hmp := hfl _ (hr microPrecision (by simp [name2func]))
  have hmr := hfl _ (hr microRecall (by simp [name2func]))
  intro x hx
  simp only [List.mem_cons, List.not_mem_nil, or_false] at hx
  rcases hx with rfl | rfl | rfl | rfl | rfl | rfl | rfl | rfl
  · rw [hammingF_eq hP hT hs hN]
    have hNpos : (0 : ℝ) < ((T.nMajor * T.nMinor : ℕ) : ℝ) := by exact_mod_cast Nat.mul_pos hs.2.2.1 hs.2.2.2
    have h := hfl (((symmDiff (ones P) (ones T)).card : ℝ) / ((T.nMajor * T.nMinor : ℕ) : ℝ))
      ⟨by positivity, by rw [div_le_one hNpos]; exact_mod_cast symmDiff_card_le hs⟩
    exact hfl _ ⟨by linarith [h.2], by linarith [h.1]⟩
  · rw [r1]; exact hfl _ (hr subsetAccuracy (by simp [name2func]))
  · rw [r2]; exact hmp
  · rw [r3]; exact hmr
  · unfold microF1F
    rw [r2, r3]
    exact fScoreF_range (double_fl _) hmp.1 hmp.2 hmr.1 hmr.2
  · exact labelMeanF_range S hL fun j _ => by
      rw [(labelF_eq hP hT hs hn j).1]; exact hfl _ (share_real (inter_card_le _ _).1)
  · exact labelMeanF_range S hL fun j _ => by
      rw [(labelF_eq hP hT hs hn j).2]; exact hfl _ (share_real (inter_card_le _ _).2)
  · exact labelMeanF_range S hL fun j _ => labelF1_range hP hT hs hn j

/-! ### Gaps between exact scores -/

theorem share_gap {a b : ℕ} (h : a ≤ b) : share a b = 1 ∨ 0 < b ∧ share a b ≤ 1 - 1 / b := by
  unfold share
  by_cases hb : b = 0
  · exact Or.inl (if_pos hb)
  · have hb' : (0 : ℚ) < b := by exact_mod_cast Nat.pos_of_ne_zero hb
    rw [if_neg hb]
    rcases h.eq_or_lt with rfl | h
    · exact Or.inl (div_self hb'.ne')
    · refine Or.inr ⟨Nat.pos_of_ne_zero hb, ?_⟩
      rw [le_sub_iff_add_le, ← add_div, div_le_one hb']
      exact_mod_cast h

theorem dice_gap {a p t : ℕ} (hp : a ≤ p) (ht : a ≤ t) :
    dice a p t = 1 ∧ a = p ∧ a = t ∨ 0 < p + t ∧ dice a p t ≤ 1 - 1 / ((p + t : ℕ) : ℚ) := by
  unfold dice
  by_cases hb : p + t = 0
  · exact Or.inl ⟨if_pos hb, by omega, by omega⟩
  · have hb' : (0 : ℚ) < ((p + t : ℕ) : ℚ) := by exact_mod_cast Nat.pos_of_ne_zero hb
    rw [if_neg hb]
    by_cases h : 2 * a = p + t
    · refine Or.inl ⟨?_, by omega, by omega⟩
      push_cast at hb'
      rw [div_eq_one_iff_eq hb'.ne']
      exact_mod_cast h
    · refine Or.inr ⟨Nat.pos_of_ne_zero hb, ?_⟩
      rw [le_sub_iff_add_le, ← Nat.cast_add, ← add_div, div_le_one hb']
      exact_mod_cast (by omega : 2 * a + 1 ≤ p + t)

theorem gap_mono {x : ℚ} {b B : ℕ} (hb : 0 < b) (hB : b ≤ B) (h : x ≤ 1 - 1 / b) : x ≤ 1 - 1 / (B : ℚ) := by
  have h1 : (1 : ℚ) / B ≤ 1 / b := one_div_le_one_div_of_le (by exact_mod_cast hb) (by exact_mod_cast hB)
  linarith

theorem mean_gap {L D : ℕ} (hL : 0 < L) (hD : 0 < D) {f : ℕ → ℚ} (h1 : ∀ j < L, f j = 1 ∨ f j ≤ 1 - 1 / (D : ℚ)) :
    (∀ j < L, f j = 1) ∨ (∑ j ∈ Finset.range L, f j) / L ≤ 1 - 1 / ((D * L : ℕ) : ℚ) := by
  by_cases hall : ∀ j < L, f j = 1
  · exact Or.inl hall
  · push Not at hall
    obtain ⟨k, hk, hne⟩ := hall
    have hDr : (0 : ℚ) < D := by exact_mod_cast hD
    have hLr : (0 : ℚ) < L := by exact_mod_cast hL
    have hle : ∀ j < L, f j ≤ 1 := fun j hj => by
      rcases h1 j hj with h | h
      · exact h.le
      · have : (0 : ℚ) ≤ 1 / D := by positivity
        linarith
    have hk' : f k ≤ 1 - 1 / (D : ℚ) := (h1 k hk).resolve_left hne
    right
    have hsum : ∑ j ∈ Finset.range L, f j ≤ L - 1 / D := by
      rw [← Finset.add_sum_erase _ _ (Finset.mem_range.mpr hk)]
      have : ∑ j ∈ (Finset.range L).erase k, f j ≤ ∑ j ∈ (Finset.range L).erase k, (1 : ℚ) :=
        Finset.sum_le_sum fun j hj => hle j (Finset.mem_range.mp (Finset.mem_of_mem_erase hj))
      rw [Finset.sum_const, Finset.card_erase_of_mem (Finset.mem_range.mpr hk), Finset.card_range, nsmul_eq_mul,
        mul_one, Nat.cast_sub (by omega)] at this
      push_cast at this
      linarith
    rw [div_le_iff₀ hLr]
    refine hsum.trans (le_of_eq ?_)
    push_cast
    field_simp

/-- A score reported with a small error is below 1 if the exact one is. -/
theorem below_one {x : ℝ} {q : ℚ} {B : ℕ} {ε : ℝ} (hc : |x - q| ≤ ε) (hq : q ≤ 1 - 1 / (B : ℚ)) (hε : ε < 1 / B) : x < 1 := by
  have h1 := (Rat.cast_le (K := ℝ)).mpr hq
  push_cast at h1
  have h2 := (abs_le.mp hc).2
  linarith

theorem hamming_gap {P T : Cmp} (hP : P.Binary) (hT : T.Binary) (hs : SameShape P T) :
    hammingAccuracy P T = 1 ∨ hammingAccuracy P T ≤ 1 - 1 / ((T.nMajor * T.nMinor : ℕ) : ℚ) := by
  rw [(C67_accuracies P T hP hT hs).1]
  rcases Nat.eq_zero_or_pos (symmDiff (ones P) (ones T)).card with h | h
  · left; rw [h]; simp
  · right
    have h0 : (0 : ℚ) < ((T.nMajor * T.nMinor : ℕ) : ℚ) := by exact_mod_cast Nat.mul_pos hs.2.2.1 hs.2.2.2
    push_cast at h0 ⊢
    have : (1 : ℚ) / (T.nMajor * T.nMinor) ≤ ((symmDiff (ones P) (ones T)).card : ℚ) / (T.nMajor * T.nMinor) :=
      div_le_div_of_nonneg_right (by exact_mod_cast h) h0.le
    linarith

theorem subset_gap {P T : Cmp} (hs : SameShape P T) :
    subsetAccuracy P T = 1 ∨ subsetAccuracy P T ≤ 1 - 1 / (T.nMajor : ℚ) := by
  unfold subsetAccuracy
  have hc : ((List.range T.nMajor).countP fun i => decide (rowDifferences P T i = 0)) ≤ T.nMajor := by
    simpa using List.countP_le_length (p := fun i => decide (rowDifferences P T i = 0)) (l := List.range T.nMajor)
  rcases share_gap hc with h | h
  · left
    rwa [share, if_neg hs.2.2.1.ne'] at h
  · right
    have h2 := h.2
    rwa [share, if_neg hs.2.2.1.ne'] at h2

theorem hammingF_exact {P T : Cmp} (hP : P.Binary) (hT : T.Binary) (hs : SameShape P T)
    (hN : T.nMajor * T.nMinor ≤ 2 ^ 53) :
    hammingAccuracyF P T = fl (1 - fl (1 - ((hammingAccuracy P T : ℚ) : ℝ))) := by
  rw [hammingF_eq hP hT hs hN, (C67_accuracies P T hP hT hs).1]
  push_cast
  rw [sub_sub_cancel]

/-- **C144** On at most `2⁴⁷` cells a reported 1.0 of hamming accuracy, subset accuracy, micro precision, micro
recall or micro F1 is an exact 1, and an exact 1 is reported as 1.0. -/
theorem C144_perfect (S : Summation) (P T : Cmp) (hP : P.Binary) (hT : T.Binary) (hs : SameShape P T)
    (hN : T.nMajor * T.nMinor ≤ 2 ^ 47) :
    (hammingAccuracyF P T = 1 ↔ hammingAccuracy P T = 1) ∧
    (subsetAccuracyF S P T = 1 ↔ subsetAccuracy P T = 1) ∧
    (microPrecisionF P T = 1 ↔ microPrecision P T = 1) ∧
    (microRecallF P T = 1 ↔ microRecall P T = 1) ∧
    (microF1F P T = 1 ↔ microF1 P T = 1) := by
  have hN' : T.nMajor * T.nMinor ≤ 2 ^ 53 := hN.trans (by norm_num)
  have hNpos : 0 < T.nMajor * T.nMinor := Nat.mul_pos hs.2.2.1 hs.2.2.2
  obtain ⟨k1, k2, k3, k4, k5, -⟩ := C144_close S P T hP hT hs (hN.trans (by norm_num))
  obtain ⟨r1, r2, r3⟩ := C144_rounded S P T hP hT hs hN'
  obtain ⟨b1, b2, b3⟩ := C67_micro P T hP hT hs
  have hle : ∀ f ∈ name2func.map Prod.snd, ((f P T : ℚ) : ℝ) ≤ 1 := fun f hf => by
    exact_mod_cast (C67_range P T hP hT hs f hf).2
  have hbig : ∀ b : ℕ, 0 < b → b ≤ 2 ^ 48 → (28 : ℝ) / 2 ^ 53 < 1 / b := by
    intro b hb hb'
    have h1 : (0 : ℝ) < b := by exact_mod_cast hb
    have h2 : (b : ℝ) ≤ 2 ^ 48 := by exact_mod_cast hb'
    have h3 : (1 : ℝ) / 2 ^ 48 ≤ 1 / b := one_div_le_one_div_of_le h1 h2
    refine lt_of_lt_of_le ?_ h3
    norm_num
  have hsmall : ∀ x : ℝ, x ≤ 1 → x / 2 ^ 53 ≤ 28 / 2 ^ 53 := fun x hx =>
    div_le_div_of_nonneg_right (by linarith) (by positivity)
  have hNP : (ones P).card ≤ 2 ^ 47 := (ones_card_le P).trans (by rw [hs.1, hs.2.1]; exact hN)
  have hNT : (ones T).card ≤ 2 ^ 47 := (ones_card_le T).trans hN
  have hi := inter_card_le (ones P) (ones T)
  refine ⟨⟨fun h => ?_, fun h => ?_⟩, ⟨fun h => ?_, fun h => ?_⟩, ⟨fun h => ?_, fun h => ?_⟩, ⟨fun h => ?_, fun h => ?_⟩,
    ⟨fun h => ?_, fun h => ?_⟩⟩
  · refine (hamming_gap hP hT hs).resolve_right fun hg => ?_
    have := below_one (k1.trans (by norm_num : (2 : ℝ) / 2 ^ 53 ≤ 28 / 2 ^ 53)) hg (hbig _ hNpos (by omega))
    exact this.ne h
  · rw [hammingF_exact hP hT hs hN', h]
    simp [fl_zero, fl_one]
  · refine (subset_gap hs).resolve_right fun hg => ?_
    have := below_one (k2.trans (hsmall _ (hle subsetAccuracy (by simp [name2func])))) hg
      (hbig _ hs.2.2.1 ((cells_le hs.2.2.1 hs.2.2.2 hN).1.trans (by norm_num)))
    exact this.ne h
  · rw [r1, h]; simp [fl_one]
  · rcases share_gap hi.1 with hg | ⟨h0, hg⟩
    · rw [b1]; exact hg
    · rw [← b1] at hg
      have := below_one (k3.trans (hsmall _ (hle microPrecision (by simp [name2func])))) hg (hbig _ h0 (by omega))
      exact absurd h this.ne
  · rw [r2, h]; simp [fl_one]
  · rcases share_gap hi.2 with hg | ⟨h0, hg⟩
    · rw [b2]; exact hg
    · rw [← b2] at hg
      have := below_one (k4.trans (hsmall _ (hle microRecall (by simp [name2func])))) hg (hbig _ h0 (by omega))
      exact absurd h this.ne
  · rw [r3, h]; simp [fl_one]
  · rcases dice_gap hi.1 hi.2 with hg | ⟨h0, hg⟩
    · rw [b3]; exact hg.1
    · rw [← b3] at hg
      have hm := hle microF1 (by simp [name2func])
      have := below_one (k5.trans (show ((microF1 P T : ℚ) : ℝ) * (28 / 2 ^ 53) ≤ 28 / 2 ^ 53 from
        mul_le_of_le_one_left (by positivity) hm)) hg (hbig _ h0 (by omega))
      exact absurd h this.ne
  · rcases dice_gap hi.1 hi.2 with ⟨-, h1, h2⟩ | ⟨h0, hg⟩
    · unfold microF1F
      rw [r2, r3, b1, b2, ← h1, ← h2, share_self]
      simp [fl_one, fScoreF_one]
    · rw [b3] at h
      rw [h] at hg
      have : (0 : ℚ) < 1 / (((ones P).card + (ones T).card : ℕ) : ℚ) := by
        have : (0 : ℚ) < (((ones P).card + (ones T).card : ℕ) : ℚ) := by exact_mod_cast h0
        positivity
      linarith

/-- **C144** The same for the macro averages, as long as the rows times the square of the labels stay below
about `2⁵⁰`. -/
theorem C144_perfect_macro (S : Summation) (P T : Cmp) (hP : P.Binary) (hT : T.Binary) (hs : SameShape P T)
    (hN : 2 * (T.nMajor * T.nMinor) * (4 * T.nMinor + 28) < 2 ^ 53) :
    (macroPrecisionF S P T = 1 ↔ macroPrecision P T = 1) ∧
    (macroRecallF S P T = 1 ↔ macroRecall P T = 1) ∧
    (macroF1F S P T = 1 ↔ macroF1 P T = 1) := by
  have hn0 := hs.2.2.1
  have hL0 := hs.2.2.2
  have hNpos : 0 < T.nMajor * T.nMinor := Nat.mul_pos hn0 hL0
  have hN50 : T.nMajor * T.nMinor ≤ 2 ^ 50 := by nlinarith
  have hN' : T.nMajor * T.nMinor ≤ 2 ^ 53 := hN50.trans (by norm_num)
  obtain ⟨hn, hL⟩ := cells_le hn0 hL0 hN'
  obtain ⟨-, -, -, -, -, k1, k2, k3⟩ := C144_close S P T hP hT hs hN50
  obtain ⟨c1, c2, c3⟩ := C67_macro P T hP hT hs
  have hle : ∀ f ∈ name2func.map Prod.snd, ((f P T : ℚ) : ℝ) ≤ 1 := fun f hf => by
    exact_mod_cast (C67_range P T hP hT hs f hf).2
  have hLq : (T.nMinor : ℚ) ≠ 0 := by exact_mod_cast hL0.ne'
  have hNr : (2 * (T.nMajor * T.nMinor) * (4 * T.nMinor + 28) : ℝ) < 2 ^ 53 := by exact_mod_cast hN
  have hNrpos : (0 : ℝ) < T.nMajor * T.nMinor := by exact_mod_cast hNpos
  have hbig : ((4 : ℝ) * T.nMinor + 28) / 2 ^ 53 < 1 / ((2 * T.nMajor * T.nMinor : ℕ) : ℝ) := by
    rw [div_lt_div_iff₀ (by positivity) (by push_cast; linarith)]
    push_cast
    linarith
  have hone : ∀ f : ℕ → ℚ, (∀ j < T.nMinor, f j = 1) → (∑ j ∈ Finset.range T.nMinor, f j) / T.nMinor = 1 := by
    intro f hf
    rw [Finset.sum_congr rfl fun j hj => hf j (Finset.mem_range.mp hj)]
    simp [div_self hLq]
  have hsh : ∀ a b : ℕ, a ≤ b → b ≤ T.nMajor → share a b = 1 ∨ share a b ≤ 1 - 1 / ((2 * T.nMajor : ℕ) : ℚ) := by
    intro a b hab hb
    rcases share_gap hab with h | ⟨h0, h⟩
    · exact Or.inl h
    · exact Or.inr (gap_mono h0 (by omega) h)
  have hPn : ∀ j, (onesIn P j).card ≤ T.nMajor := fun j => hs.1 ▸ onesIn_card_le P j
  have hTn : ∀ j, (onesIn T j).card ≤ T.nMajor := fun j => onesIn_card_le T j
  have hnot : ∀ x : ℚ, x = 1 → ¬ x ≤ 1 - 1 / ((2 * T.nMajor * T.nMinor : ℕ) : ℚ) := by
    rintro x rfl h
    have : (0 : ℚ) < 1 / ((2 * T.nMajor * T.nMinor : ℕ) : ℚ) := by
      have : (0 : ℚ) < ((2 * T.nMajor * T.nMinor : ℕ) : ℚ) := by
        exact_mod_cast (by rw [mul_assoc]; omega : 0 < 2 * T.nMajor * T.nMinor)
      positivity
    linarith
  have hcl : ∀ (x : ℝ) (q : ℚ) (c : ℝ), (q : ℝ) ≤ 1 → 0 ≤ c → c ≤ 28 → |x - q| ≤ q * ((4 * T.nMinor + c) / 2 ^ 53) →
      q ≤ 1 - 1 / ((2 * T.nMajor * T.nMinor : ℕ) : ℚ) → x < 1 := by
    intro x q c hq hc0 hc hx hg
    refine below_one (hx.trans ?_) hg hbig
    refine (mul_le_of_le_one_left (by positivity) hq).trans ?_
    exact div_le_div_of_nonneg_right (by linarith) (by positivity)
  refine ⟨?_, ?_, ?_⟩
  · have hm := mean_gap hL0 (show 0 < 2 * T.nMajor by omega) (f := fun j =>
      share (onesIn P j ∩ onesIn T j).card (onesIn P j).card) fun j _ => hsh _ _ (inter_card_le _ _).1 (hPn j)
    rw [← c1] at hm
    rcases hm with hm | hm
    · refine iff_of_true ?_ (by rw [c1]; exact hone _ hm)
      refine labelMeanF_one S hL0 hL fun j hj => ?_
      rw [(labelF_eq hP hT hs hn j).1, show share _ _ = 1 from hm j hj]
      simp [fl_one]
    · exact iff_of_false (hcl _ _ 4 (hle macroPrecision (by simp [name2func])) (by norm_num) (by norm_num) k1 hm).ne
        fun h => hnot _ h hm
  · have hm := mean_gap hL0 (show 0 < 2 * T.nMajor by omega) (f := fun j =>
      share (onesIn P j ∩ onesIn T j).card (onesIn T j).card) fun j _ => hsh _ _ (inter_card_le _ _).2 (hTn j)
    rw [← c2] at hm
    rcases hm with hm | hm
    · refine iff_of_true ?_ (by rw [c2]; exact hone _ hm)
      refine labelMeanF_one S hL0 hL fun j hj => ?_
      rw [(labelF_eq hP hT hs hn j).2, show share _ _ = 1 from hm j hj]
      simp [fl_one]
    · exact iff_of_false (hcl _ _ 4 (hle macroRecall (by simp [name2func])) (by norm_num) (by norm_num) k2 hm).ne
        fun h => hnot _ h hm
  · have hm := mean_gap hL0 (show 0 < 2 * T.nMajor by omega) (f := fun j =>
      dice (onesIn P j ∩ onesIn T j).card (onesIn P j).card (onesIn T j).card) fun j _ => by
        rcases dice_gap (inter_card_le (onesIn P j) (onesIn T j)).1 (inter_card_le (onesIn P j) (onesIn T j)).2 with
          h | ⟨h0, h⟩
        · exact Or.inl h.1
        · exact Or.inr (gap_mono h0 (by have := hPn j; have := hTn j; omega) h)
    rw [← c3] at hm
    rcases hm with hm | hm
    · refine iff_of_true ?_ (by rw [c3]; exact hone _ hm)
      refine labelMeanF_one S hL0 hL fun j hj => ?_
      have hd : dice (onesIn P j ∩ onesIn T j).card (onesIn P j).card (onesIn T j).card = 1 := hm j hj
      rcases dice_gap (inter_card_le (onesIn P j) (onesIn T j)).1 (inter_card_le (onesIn P j) (onesIn T j)).2 with
        ⟨-, h1, h2⟩ | ⟨h0, h⟩
      · rw [(labelF_eq hP hT hs hn j).1, (labelF_eq hP hT hs hn j).2, ← h1, ← h2, share_self]
        simp [fl_one, fScoreF_one]
      · rw [hd] at h
        have : (0 : ℚ) < 1 / (((onesIn P j).card + (onesIn T j).card : ℕ) : ℚ) := by
          have : (0 : ℚ) < (((onesIn P j).card + (onesIn T j).card : ℕ) : ℚ) := by exact_mod_cast h0
          positivity
        linarith
    · exact iff_of_false (hcl _ _ 28 (hle macroF1 (by simp [name2func])) (by norm_num) (by norm_num) k3 hm).ne
        fun h => hnot _ h hm

/-! ### Rankings -/

/-- A monotone report with gaps keeps the order. -/
theorem rank_iff {a b : ℚ} {x y : ℝ} (h1 : a < b → x < y) (h2 : b < a → y < x) (h3 : a = b → x = y) :
    x < y ↔ a < b := by
  refine ⟨fun h => ?_, h1⟩
  rcases lt_trichotomy a b with h4 | h4 | h4
  · exact h4
  · exact absurd h (h3 h4).not_lt
  · exact absurd h (h2 h4).not_gt

theorem apart {a b : ℚ} {x y ε δ : ℝ} (hx : |x - a| ≤ ε) (hy : |y - b| ≤ ε) (hd : (a : ℝ) + δ ≤ b) (hε : 2 * ε < δ) :
    x < y := by
  have h1 := (abs_le.mp hx).2
  have h2 := (abs_le.mp hy).1
  linarith

theorem count_ratio_gap {a b D : ℕ} (hD : 0 < D) (h : (a : ℚ) / D < b / D) : ((a : ℚ) / D : ℚ) + 1 / (D : ℝ) ≤ ((b : ℚ) / D : ℚ) := by
  have hD' : (0 : ℚ) < D := by exact_mod_cast hD
  have h1 : a < b := by exact_mod_cast (div_lt_div_iff_of_pos_right hD').mp h
  have h2 : ((a : ℝ) + 1) / D ≤ b / D := div_le_div_of_nonneg_right (by exact_mod_cast h1) (by positivity)
  push_cast
  rwa [← add_div]

/-- **C144** Two predictions for the same data of at most `2⁵⁰` cells are ranked by reported hamming accuracy, subset
accuracy and micro recall exactly as by the exact scores; ties are reported as ties. -/
theorem C144_rank (S : Summation) (P P' T : Cmp) (hP : P.Binary) (hP' : P'.Binary) (hT : T.Binary)
    (hs : SameShape P T) (hs' : SameShape P' T) (hN : T.nMajor * T.nMinor ≤ 2 ^ 50) :
    (hammingAccuracyF P T < hammingAccuracyF P' T ↔ hammingAccuracy P T < hammingAccuracy P' T) ∧
    (subsetAccuracyF S P T < subsetAccuracyF S P' T ↔ subsetAccuracy P T < subsetAccuracy P' T) ∧
    (microRecallF P T < microRecallF P' T ↔ microRecall P T < microRecall P' T) := by
  have hN' : T.nMajor * T.nMinor ≤ 2 ^ 53 := hN.trans (by norm_num)
  have hNpos : 0 < T.nMajor * T.nMinor := Nat.mul_pos hs.2.2.1 hs.2.2.2
  have hbig : ∀ b : ℕ, 0 < b → b ≤ 2 ^ 50 → 2 * ((2 : ℝ) / 2 ^ 53) < 1 / b := by
    intro b hb hb'
    have h1 : (0 : ℝ) < b := by exact_mod_cast hb
    have h2 : (b : ℝ) ≤ 2 ^ 50 := by exact_mod_cast hb'
    have h3 : (1 : ℝ) / 2 ^ 50 ≤ 1 / b := one_div_le_one_div_of_le h1 h2
    refine lt_of_lt_of_le ?_ h3
    norm_num
  have hsmall : ∀ x : ℝ, x ≤ 1 → x / 2 ^ 53 ≤ 2 / 2 ^ 53 := fun x hx =>
    div_le_div_of_nonneg_right (by linarith) (by positivity)
  have ham : ∀ A B : Cmp, A.Binary → B.Binary → SameShape A T → SameShape B T →
      hammingAccuracy A T < hammingAccuracy B T → hammingAccuracyF A T < hammingAccuracyF B T := by
    intro A B hA hB sA sB h
    refine apart (hammingF_close hA hT sA hN') (hammingF_close hB hT sB hN') (δ := 1 / ((T.nMajor * T.nMinor : ℕ) : ℝ))
      ?_ (hbig _ hNpos hN)
    rw [(C67_accuracies A T hA hT sA).1, (C67_accuracies B T hB hT sB).1] at h ⊢
    have h1 := count_ratio_gap hNpos (a := (symmDiff (ones B) (ones T)).card) (b := (symmDiff (ones A) (ones T)).card)
      (by push_cast; linarith)
    push_cast at h1 ⊢
    linarith
  have sub : ∀ A B : Cmp, A.Binary → B.Binary → SameShape A T → SameShape B T →
      subsetAccuracy A T < subsetAccuracy B T → subsetAccuracyF S A T < subsetAccuracyF S B T := by
    intro A B hA hB sA sB h
    have e : ∀ C : Cmp, C.Binary → SameShape C T → |subsetAccuracyF S C T - (subsetAccuracy C T : ℚ)| ≤ 2 / 2 ^ 53 :=
      fun C hC sC => (C144_close S C T hC hT sC hN).2.1.trans
        (hsmall _ (by exact_mod_cast (C67_range C T hC hT sC subsetAccuracy (by simp [name2func])).2))
    refine apart (e A hA sA) (e B hB sB) (δ := 1 / (T.nMajor : ℝ)) ?_
      (hbig _ hs.2.2.1 (cells_le hs.2.2.1 hs.2.2.2 hN).1)
    exact count_ratio_gap hs.2.2.1 h
  have hrc : ∀ A B : Cmp, A.Binary → B.Binary → SameShape A T → SameShape B T →
      microRecall A T < microRecall B T → microRecallF A T < microRecallF B T := by
    intro A B hA hB sA sB h
    have e : ∀ C : Cmp, C.Binary → SameShape C T → |microRecallF C T - (microRecall C T : ℚ)| ≤ 2 / 2 ^ 53 :=
      fun C hC sC => (C144_close S C T hC hT sC hN).2.2.2.1.trans
        (hsmall _ (by exact_mod_cast (C67_range C T hC hT sC microRecall (by simp [name2func])).2))
    have hne : (ones T).card ≠ 0 := by
      intro h0
      rw [(C67_micro A T hA hT sA).2.1, (C67_micro B T hB hT sB).2.1] at h
      simp [share, h0] at h
    have hpos := Nat.pos_of_ne_zero hne
    refine apart (e A hA sA) (e B hB sB) (δ := 1 / ((ones T).card : ℝ)) ?_
      (hbig _ hpos ((ones_card_le T).trans hN))
    rw [(C67_micro A T hA hT sA).2.1, (C67_micro B T hB hT sB).2.1] at h ⊢
    rw [share, share, if_neg hne, if_neg hne] at h ⊢
    exact count_ratio_gap hpos h
  obtain ⟨r1, -, r3⟩ := C144_rounded S P T hP hT hs hN'
  obtain ⟨r1', -, r3'⟩ := C144_rounded S P' T hP' hT hs' hN'
  exact ⟨rank_iff (ham P P' hP hP' hs hs') (ham P' P hP' hP hs' hs) fun h => by
      rw [hammingF_exact hP hT hs hN', hammingF_exact hP' hT hs' hN', h],
    rank_iff (sub P P' hP hP' hs hs') (sub P' P hP' hP hs' hs) fun h => by rw [r1, r1', h],
    rank_iff (hrc P P' hP hP' hs hs') (hrc P' P hP' hP hs' hs) fun h => by rw [r3, r3', h]⟩

theorem share_apart {a b c d : ℕ} (hb : 0 < b) (hd : 0 < d) (h : share a b < share c d) :
    ((share a b : ℚ) : ℝ) + 1 / ((b : ℝ) * d) ≤ (share c d : ℚ) := by
  unfold share at h ⊢
  rw [if_neg hb.ne', if_neg hd.ne'] at h ⊢
  have hb' : (0 : ℚ) < b := by exact_mod_cast hb
  have hd' : (0 : ℚ) < d := by exact_mod_cast hd
  have hb2 : (0 : ℝ) < b := by exact_mod_cast hb
  have hd2 : (0 : ℝ) < d := by exact_mod_cast hd
  rw [div_lt_div_iff₀ hb' hd'] at h
  have h1 : a * d + 1 ≤ c * b := by exact_mod_cast h
  have h2 : (a : ℝ) * d + 1 ≤ c * b := by exact_mod_cast h1
  push_cast
  rw [show (a : ℝ) / b + 1 / (b * d) = (a * d + 1) / (b * d) by field_simp,
    show (c : ℝ) / d = (c * b) / (b * d) by field_simp]
  exact div_le_div_of_nonneg_right h2 (by positivity)

/-- **C144** On at most `2²⁶` cells micro precision is ranked exactly too, for any two evaluations. -/
theorem C144_rank_precision (P P' T T' : Cmp) (hP : P.Binary) (hP' : P'.Binary) (hT : T.Binary) (hT' : T'.Binary)
    (hs : SameShape P T) (hs' : SameShape P' T') (hN : T.nMajor * T.nMinor ≤ 2 ^ 26)
    (hN' : T'.nMajor * T'.nMinor ≤ 2 ^ 26) :
    microPrecisionF P T < microPrecisionF P' T' ↔ microPrecision P T < microPrecision P' T' := by
  have key : ∀ A B U V : Cmp, A.Binary → B.Binary → U.Binary → V.Binary → SameShape A U → SameShape B V →
      U.nMajor * U.nMinor ≤ 2 ^ 26 → V.nMajor * V.nMinor ≤ 2 ^ 26 →
      microPrecision A U < microPrecision B V → microPrecisionF A U < microPrecisionF B V := by
    intro A B U V hA hB hU hV sA sB nU nV h
    rw [(microF_eq hA hU sA (nU.trans (by norm_num))).1, (microF_eq hB hV sB (nV.trans (by norm_num))).1]
    have rA := share_real (inter_card_le (ones A) (ones U)).1
    have rB := share_real (inter_card_le (ones B) (ones V)).1
    rw [(C67_micro A U hA hU sA).1, (C67_micro B V hB hV sB).1] at h ⊢
    set p := share (ones A ∩ ones U).card (ones A).card with hp
    set q := share (ones B ∩ ones V).card (ones B).card with hq
    have hpq : (p : ℝ) < q := by exact_mod_cast h
    have hAc : (ones A).card ≤ 2 ^ 26 := (ones_card_le A).trans (by rw [sA.1, sA.2.1]; exact nU)
    have hBc : (ones B).card ≤ 2 ^ 26 := (ones_card_le B).trans (by rw [sB.1, sB.2.1]; exact nV)
    have hgap : (p : ℝ) + 1 / 2 ^ 52 ≤ q := by
      have hA0 : (ones A).card ≠ 0 := by
        intro h0
        rw [hp, share, if_pos h0] at hpq
        push_cast at hpq
        linarith [rB.2]
      by_cases hB0 : (ones B).card = 0
      · have hq1 : q = 1 := by rw [hq, share, if_pos hB0]
        rcases share_gap (inter_card_le (ones A) (ones U)).1 with h1 | ⟨h1, h2⟩
        · rw [hq1] at h; exact absurd h1 h.ne
        · have h3 := (Rat.cast_le (K := ℝ)).mpr (gap_mono h1 (hAc.trans (by norm_num : 2 ^ 26 ≤ 2 ^ 52)) h2)
          rw [hq1]
          push_cast at h3 ⊢
          linarith
      · refine le_trans ?_ (share_apart (Nat.pos_of_ne_zero hA0) (Nat.pos_of_ne_zero hB0) h)
        have hA1 : (0 : ℝ) < (ones A).card := by exact_mod_cast Nat.pos_of_ne_zero hA0
        have hB1 : (0 : ℝ) < (ones B).card := by exact_mod_cast Nat.pos_of_ne_zero hB0
        have hAr : ((ones A).card : ℝ) ≤ 2 ^ 26 := by exact_mod_cast hAc
        have hBr : ((ones B).card : ℝ) ≤ 2 ^ 26 := by exact_mod_cast hBc
        have h4 : ((ones A).card : ℝ) * (ones B).card ≤ 2 ^ 52 := by
          calc _ ≤ (2 : ℝ) ^ 26 * 2 ^ 26 := mul_le_mul hAr hBr hB1.le (by positivity)
            _ = 2 ^ 52 := by norm_num
        have := one_div_le_one_div_of_le (by positivity) h4
        linarith
    have e1 := (abs_le.mp (abs_fl_sub rA.1)).2
    have e2 := (abs_le.mp (abs_fl_sub rB.1)).1
    have e3 : (p : ℝ) / 2 ^ 53 + (q : ℝ) / 2 ^ 53 < 1 / 2 ^ 52 := by
      rw [← add_div, div_lt_div_iff₀ (by positivity) (by positivity)]
      have : (p : ℝ) + q < 2 := by linarith [rB.2]
      calc ((p : ℝ) + q) * 2 ^ 52 < 2 * 2 ^ 52 := mul_lt_mul_of_pos_right this (by positivity)
        _ = 1 * 2 ^ 53 := by norm_num
    linarith
  refine rank_iff (key P P' T T' hP hP' hT hT' hs hs' hN hN') (key P' P T' T hP' hP hT' hT hs' hs hN' hN) fun h => ?_
  rw [(microF_eq hP hT hs (hN.trans (by norm_num))).1, (microF_eq hP' hT' hs' (hN'.trans (by norm_num))).1, h]

/-! ### Swapping -/

/-- **C144** Swapping predictions and ground truth exchanges reported precision and recall and changes no bit of the
other scores. -/
theorem C144_swap (S : Summation) (P T : Cmp) (hP : P.Binary) (hT : T.Binary) (hs : SameShape P T)
    (hN : T.nMajor * T.nMinor ≤ 2 ^ 53) :
    hammingAccuracyF T P = hammingAccuracyF P T ∧ subsetAccuracyF S T P = subsetAccuracyF S P T ∧
    microPrecisionF T P = microRecallF P T ∧ microRecallF T P = microPrecisionF P T ∧ microF1F T P = microF1F P T ∧
    macroPrecisionF S T P = macroRecallF S P T ∧ macroRecallF S T P = macroPrecisionF S P T ∧
    macroF1F S T P = macroF1F S P T := by
  have hs' : SameShape T P := ⟨hs.1.symm, hs.2.1.symm, hs.1 ▸ hs.2.2.1, hs.2.1 ▸ hs.2.2.2⟩
  have hN' : P.nMajor * P.nMinor ≤ 2 ^ 53 := by rw [hs.1, hs.2.1]; exact hN
  obtain ⟨a1, a2, a3, a4, -⟩ := C67_swap P T hP hT hs
  obtain ⟨r1, r2, r3⟩ := C144_rounded S P T hP hT hs hN
  obtain ⟨r1', r2', r3'⟩ := C144_rounded S T P hT hP hs' hN'
  have m1 : microPrecisionF T P = microRecallF P T := by rw [r2', r3, a3]
  have m2 : microRecallF T P = microPrecisionF P T := by rw [r3', r2, a4]
  have l1 : ∀ j, tpSum T P j = tpSum P T j := fun j => by
    rw [tpSum_eq hP hT hs.1, tpSum_eq hT hP hs'.1, Finset.inter_comm]
  have hn := (cells_le hs.2.2.1 hs.2.2.2 hN).1
  refine ⟨?_, by rw [r1', r1, a2], m1, m2, ?_, ?_, ?_, ?_⟩
  · rw [hammingF_exact hT hP hs' hN', hammingF_exact hP hT hs hN, a1]
  · unfold microF1F
    rw [m1, m2, r2, r3]
    exact fScoreF_comm (double_fl _) (double_fl _)
  · unfold macroPrecisionF macroRecallF
    rw [hs.2.1]
    simp only [l1]
  · unfold macroPrecisionF macroRecallF
    rw [hs.2.1]
    simp only [l1]
  · unfold macroF1F
    rw [hs.2.1]
    congr 1
    funext j
    rw [l1, (labelF_eq hP hT hs hn j).1, (labelF_eq hP hT hs hn j).2]
    exact fScoreF_comm (double_fl _) (double_fl _)

/-! ### Ten examples with two labels -/

/-- Ten rows that carry both labels. -/
def tenFull : Cmp :=
  { nMajor := 10, nMinor := 2, indptr := (List.range 11).map (2 * ·), indices := (List.range 20).map (· % 2),
    data := List.replicate 20 1 }

/-- The first row carries both labels, the others none. -/
def tenFirst : Cmp :=
  { nMajor := 10, nMinor := 2, indptr := 0 :: List.replicate 10 2, indices := [0, 1], data := [1, 1] }

theorem tenFull_binary : tenFull.Binary :=
  { len_indptr := by decide, ptr_zero := by decide, ptr_mono := by decide, ptr_last := by decide,
    len_data := by decide, idx_lt := by decide, data_one := by decide, nodup := by decide }

theorem tenFirst_binary : tenFirst.Binary :=
  { len_indptr := by decide, ptr_zero := by decide, ptr_mono := by decide, ptr_last := by decide,
    len_data := by decide, idx_lt := by decide, data_one := by decide, nodup := by decide }

/-- The hypotheses of the theorems above are met by these matrices, with scores that are not 1. -/
example : SameShape tenFirst tenFull ∧ tenFull.nMajor * tenFull.nMinor ≤ 2 ^ 26 ∧
    2 * (tenFull.nMajor * tenFull.nMinor) * (4 * tenFull.nMinor + 28) < 2 ^ 53 ∧
    hammingAccuracy tenFirst tenFull = 1 / 10 ∧ microF1 tenFirst tenFull = 2 / 11 := by
  refine ⟨by unfold SameShape; decide, by decide, by decide, by decide +kernel, by decide +kernel⟩

/-- **C144** Rounding can reverse a relation between two metrics: subset accuracy never exceeds hamming accuracy, but
on these ten rows both are 1/10 and the reported subset accuracy is the larger one. -/
theorem C144_subset_above_hamming (S : Summation) :
    hammingAccuracyF tenFirst tenFull < subsetAccuracyF S tenFirst tenFull ∧
    subsetAccuracy tenFirst tenFull = 1 / 10 ∧ hammingAccuracy tenFirst tenFull = 1 / 10 := by
  have hh : hammingAccuracy tenFirst tenFull = 1 / 10 := by decide +kernel
  have hsu : subsetAccuracy tenFirst tenFull = 1 / 10 := by decide +kernel
  refine ⟨?_, hsu, hh⟩
  rw [hammingF_exact tenFirst_binary tenFull_binary (by unfold SameShape; decide) (by decide),
    subsetF_eq S _ _ (by decide), hh, hsu]
  have h1 : fl (1 - ((1 / 10 : ℚ) : ℝ)) = 8106479329266893 * 2 ^ (-53 : ℤ) := by
    rw [fl_eq_flp, flp_eval 52 (-1) 8106479329266893 (by norm_num) (by norm_num) (by rw [abs_lt]; norm_num)]
    norm_num
  have h2 : fl (1 - 8106479329266893 * 2 ^ (-53 : ℤ)) = 900719925474099 * 2 ^ (-53 : ℤ) := by
    rw [fl_of_double ⟨900719925474099, -53, by norm_num, by norm_num⟩]
    norm_num
  have h3 : fl ((1 / 10 : ℚ) : ℝ) = 7205759403792794 * 2 ^ (-56 : ℤ) := by
    rw [fl_eq_flp, flp_eval 52 (-4) 7205759403792794 (by norm_num) (by norm_num) (by rw [abs_lt]; norm_num)]
    norm_num
  rw [h1, h2, h3]
  norm_num

end Verif
