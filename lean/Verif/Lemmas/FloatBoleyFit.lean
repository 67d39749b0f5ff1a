/-
Lemmas on fitting the Boley sampler in double precision, and on its acceptance test.
-/
import Verif.Lemmas.FloatBoleySelect
import Verif.Lemmas.Boley

namespace Verif

open Cftp

namespace CftpD

variable {d : CftpD} {S : Dbl.Order} {c : Cftp} {ip iq : ℕ → ℕ}

/-! ### Every result -/

theorem valid_stepRD (hpos : ∀ s, c.Valid s → ∀ x, c.ValidDraw x → 0 < d.rD s x.1 x.2.1 → 0 < c.W x.1 x.2.1) {s : St}
    (hs : c.Valid s) {x : ℕ × ℕ × ℝ} (hx : c.ValidDraw x) : c.Valid (stepR d.rD s x) := by
  unfold stepR
  split
  · rename_i h
    intro p n he
    cases he
    exact ⟨hx.1, hx.2.1, hpos s hs x hx (lt_of_le_of_lt hx.2.2.2.2 h)⟩
  · exact hs

theorem valid_foldlRD (hpos : ∀ s, c.Valid s → ∀ x, c.ValidDraw x → 0 < d.rD s x.1 x.2.1 → 0 < c.W x.1 x.2.1) :
    ∀ (ds : List (ℕ × ℕ × ℝ)), (∀ x ∈ ds, c.ValidDraw x) → ∀ s, c.Valid s → c.Valid (ds.foldl (stepR d.rD) s)
  | [], _, s, hs => hs
  | x :: ds, hv, s, hs => valid_foldlRD hpos ds (fun y hy => hv y (List.mem_cons_of_mem _ hy)) _
      (valid_stepRD hpos hs (hv x List.mem_cons_self))

theorem sampleLoop_result (hf : d.Follows S c ip iq)
    (hpos : ∀ s, c.Valid s → ∀ x, c.ValidDraw x → 0 < d.rD s x.1 x.2.1 → 0 < c.W x.1 x.2.1) {ω : List ℕ}
    (hω : ∀ x ∈ ω, x < 2 ^ 53) {K : ℕ} (h1 : 2 ^ K > c.maxIters) (h2 : lenBefore K ≤ c.maxIters)
    (hl : 3 * laterCount K 0 ≤ ω.length) (k : ℕ) :
    ∀ (i : ℕ) (s : CftpState), i + k = K → s.us.length = lenBefore i → s.ps.length = lenBefore i →
      s.ns.length = lenBefore i → CftpState.draws s = later ip iq i 0 ω →
      ∃ D, d.sampleLoop S i s (ω.drop (3 * laterCount i 0)) = .ok (D, reset) ∧ c.Valid D := by
  induction k with
  | zero =>
    intro i s hi e1 e2 e3 hd
    rw [Nat.add_zero] at hi
    subst hi
    exact ⟨none, by rw [sampleLoop, if_pos (by rw [hf.maxIters]; exact h1)], valid_none c⟩
  | succ k ih =>
    intro i s hi e1 e2 e3 hd
    have hpos' : 0 < 2 ^ i := by positivity
    have hLle := lenBefore_le i
    have hle : 2 ^ i ≤ c.maxIters := by
      refine le_trans ?_ h2
      rw [← hi, show i + (k + 1) = (i + k) + 1 by omega, lenBefore_succ]
      exact Nat.pow_le_pow_right (by norm_num) (by omega)
    have hcount : laterCount (i + 1) 0 = laterCount i 0 + (2 ^ i - lenBefore i) := by
      rw [laterCount_zero, laterCount_zero, lenBefore_succ]
      omega
    have hmono : laterCount (i + 1) 0 ≤ laterCount K 0 := by
      rw [laterCount_zero, laterCount_zero, lenBefore_succ, ← hi, show i + (k + 1) = (i + k) + 1 by omega, lenBefore_succ]
      exact Nat.pow_le_pow_right (by norm_num) (by omega)
    have hω' : ∀ x ∈ ω.drop (3 * laterCount i 0), x < 2 ^ 53 := fun x hx => hω x (List.mem_of_mem_drop hx)
    obtain ⟨s', hadd, g1, g2, g3, hdr⟩ := expandHorizon_eq hf e1 e2 e3 hpos' hLle hω'
      (by rw [List.length_drop]; omega)
    have hdr' : CftpState.draws s' = later ip iq (i + 1) 0 ω := by
      rw [hdr, hd, later_succ i 0 ω, Nat.zero_add]
    have hdrop : (((ω.drop (3 * laterCount i 0)).drop (2 ^ i - lenBefore i)).drop (2 ^ i - lenBefore i)).drop
        (2 ^ i - lenBefore i) = ω.drop (3 * laterCount (i + 1) 0) := by
      rw [List.drop_drop, List.drop_drop, List.drop_drop, hcount]
      congr 1
      ring
    rw [hdrop] at hadd
    have hsim : d.simulate s' = (later ip iq (i + 1) 0 ω).foldl (stepR d.rD) none := by
      rw [simulate_eq d (by rw [hdr']; exact later_unit hω _ _), hdr']
    rw [sampleLoop, if_neg (by rw [hf.maxIters]; omega), if_neg hf.sums, hadd]
    show ∃ D, (match d.simulate s' with
      | some pr => (.ok (some pr, reset) : Py (Option (ℕ × ℕ) × CftpState))
      | none => d.sampleLoop S (i + 1) s' (ω.drop (3 * laterCount (i + 1) 0))) = .ok (D, reset) ∧ c.Valid D
    cases hD : d.simulate s' with
    | none =>
      exact ih (i + 1) s' (by omega) (by rw [lenBefore_succ]; exact g1) (by rw [lenBefore_succ]; exact g2)
        (by rw [lenBefore_succ]; exact g3) hdr'
    | some pr =>
      refine ⟨some pr, rfl, ?_⟩
      rw [← hD, hsim]
      exact valid_foldlRD hpos _ (later_ok hf hω _ _) _ (valid_none c)

theorem sample_result (hf : d.Follows S c ip iq)
    (hpos : ∀ s, c.Valid s → ∀ x, c.ValidDraw x → 0 < d.rD s x.1 x.2.1 → 0 < c.W x.1 x.2.1) {ω : List ℕ}
    (hω : ∀ x ∈ ω, x < 2 ^ 53) {K : ℕ} (h1 : 2 ^ K > c.maxIters) (h2 : lenBefore K ≤ c.maxIters)
    (hl : 3 * lenBefore K ≤ ω.length) : ∃ D, d.sample S reset ω = .ok (D, reset) ∧ c.Valid D :=
  sampleLoop_result hf hpos hω h1 h2 (by rw [laterCount_zero]; exact hl) K 0 reset (by omega)
    (by simp [lenBefore, reset]) (by simp [lenBefore, reset]) (by simp [lenBefore, reset]) rfl

end CftpD

/-! ### Powers of two -/

theorem fl_two_pow (n : ℕ) : fl (2 ^ n) = 2 ^ n := fl_of_double ⟨1, n, by norm_num, by simp⟩

theorem IsDouble.mul_two_pow {x : ℝ} (h : IsDouble x) (m : ℕ) : IsDouble (x * 2 ^ m) := by
  obtain ⟨k, e, hk, rfl⟩ := h
  refine ⟨k, e + m, hk, ?_⟩
  rw [zpow_add₀ (by norm_num), zpow_natCast]
  ring

/-- `2ⁿ - 1`, rounded. -/
noncomputable def onesD (n : ℕ) : ℝ := fl (2 ^ n - 1)

theorem ones_exact (n : ℕ) : (0 : ℝ) ≤ 2 ^ n - 1 := by
  have : (1 : ℝ) ≤ 2 ^ n := one_le_pow₀ (by norm_num)
  linarith

theorem ones_nonneg (n : ℕ) : 0 ≤ onesD n := fl_nonneg (ones_exact n)

theorem ones_le (n : ℕ) : onesD n ≤ 2 ^ n := by
  rw [← fl_two_pow n]
  exact fl_mono (ones_exact n) (by linarith)

theorem ones_close (n : ℕ) : RelClose 2 (onesD n) (2 ^ n - 1) := RelClose.round (ones_exact n)

theorem one_le_ones {n : ℕ} (h : n ≠ 0) : 1 ≤ onesD n := by
  have : (2 : ℝ) ≤ 2 ^ n := by
    calc (2 : ℝ) = 2 ^ 1 := (pow_one 2).symm
      _ ≤ 2 ^ n := pow_le_pow_right₀ (by norm_num) (Nat.one_le_iff_ne_zero.mpr h)
  have h1 := fl_mono zero_le_one (show (1 : ℝ) ≤ 2 ^ n - 1 by linarith)
  rwa [fl_one] at h1

theorem two_pow_lt {a b : ℕ} (h : a < b) : (2 : ℝ) ^ a < 2 ^ b := pow_lt_pow_right₀ (by norm_num) h

theorem two_pow_le {a b : ℕ} (h : a ≤ b) : (2 : ℝ) ^ a ≤ 2 ^ b := pow_le_pow_right₀ (by norm_num) h

namespace Dbl

theorem pow2_num {n : ℕ} (h : n < 1024) : pow2 n = num (2 ^ n) := by
  unfold pow2
  rw [round_num (by rw [fl_two_pow]; exact two_pow_lt h), fl_two_pow]

theorem pow2_inf {n : ℕ} (h : 1024 ≤ n) : pow2 n = inf := by
  unfold pow2 round
  rw [if_neg]
  rw [fl_two_pow, not_lt]
  exact two_pow_le h

theorem sub1_pow2 {n : ℕ} (h : n < 1024) : (pow2 n).sub1 = num (onesD n) := by
  rw [pow2_num h]
  exact round_num (lt_of_le_of_lt (ones_le n) (two_pow_lt h))

theorem sub1_pow2_inf {n : ℕ} (h : 1024 ≤ n) : (pow2 n).sub1 = inf := by rw [pow2_inf h]; rfl

theorem sub1_pow2_cases (n : ℕ) : (pow2 n).sub1 = inf ∨ (pow2 n).sub1 = num (onesD n) := by
  rcases lt_or_ge n 1024 with h | h
  · exact Or.inr (sub1_pow2 h)
  · exact Or.inl (sub1_pow2_inf h)

end Dbl

/-! ### Fitting -/

/-- The weight of a row, in closed form. -/
noncomputable def boleyWeightOfD (rows : List (Finset ℕ)) (pos : List ℕ) (i : ℕ) : Dbl :=
  if i ∈ pos then (Dbl.pow2 (rows.getD i ∅).card).sub1 else .num 1

/-- The `BoleyCFTP` object that `fit` constructs. -/
noncomputable def boleyCftpD (rows : List (Finset ℕ)) (n : ℕ) (y : List ℤ) : CftpD :=
  { posList := posIndices y, negList := negIndices y,
    wPos := fun i => ((List.range n).map (boleyWeightOfD rows (posIndices y))).getD i .nan,
    wNeg := fun i => ((List.range n).map (boleyWeightOfD rows (posIndices y))).getD i .nan,
    weight := boleyWeightD rows, maxIters := 1024 }

theorem boleyWeightD_getD {rows : List (Finset ℕ)} {n : ℕ} {pos : List ℕ} {i : ℕ} (h : i < n) :
    ((List.range n).map (boleyWeightOfD rows pos)).getD i .nan = boleyWeightOfD rows pos i := by
  rw [List.getD_eq_getElem _ _ (by simpa using h)]
  simp

theorem boleyWeightOfD_ok (rows : List (Finset ℕ)) (pos : List ℕ) (i : ℕ) :
    (boleyWeightOfD rows pos i).NonNegative ∧ ¬ (boleyWeightOfD rows pos i).Negative := by
  unfold boleyWeightOfD
  split
  · rcases Dbl.sub1_pow2_cases (rows.getD i ∅).card with h | h <;> rw [h]
    · exact ⟨trivial, id⟩
    · exact ⟨ones_nonneg _, not_lt.mpr (ones_nonneg _)⟩
  · exact ⟨zero_le_one, not_lt.mpr zero_le_one⟩

theorem boleyWeightsD {s : BoleySamplerD} {X : Cmp} (hlen : (boleyRowsD s X).length = X.nMajor) (y : List ℤ) :
    (List.range X.nMajor).mapM (boleyRowWeightD (boleyRowsD s X) (posIndices y)) =
      .ok ((List.range X.nMajor).map (boleyWeightOfD (boleyRowsD s X) (posIndices y))) := by
  refine mapM_ok_of_forall fun i hi => ?_
  rw [List.mem_range] at hi
  unfold boleyRowWeightD boleyWeightOfD
  split
  · rw [pyGet_getD (by rw [hlen]; exact hi) ∅]
    rfl
  · rfl

theorem boleyCheckOverflowD_ok (rows : List (Finset ℕ)) (n : ℕ) (pos : List ℕ) :
    boleyCheckOverflowD ((List.range n).map (boleyWeightOfD rows pos)) = .ok () := by
  unfold boleyCheckOverflowD
  rw [if_neg]
  rintro ⟨x, hx, hlt⟩
  obtain ⟨i, -, rfl⟩ := List.mem_map.mp hx
  exact (boleyWeightOfD_ok rows pos i).2 hlt

theorem boleyFitD_of {s : BoleySamplerD} {X : Cmp} {y : List ℤ} (hy : y.toFinset = {0, 1})
    (hlen : (boleyRowsD s X).length = X.nMajor) (hyl : y.length ≤ X.nMajor) :
    boleyFitD s X y = .ok {
      rows := some (boleyRowsD s X), cftp := some (boleyCftpD (boleyRowsD s X) X.nMajor y), lists := reset } := by
  have hp : ∀ p ∈ posIndices y, p < X.nMajor := fun p h => lt_of_lt_of_le (mem_posIndices.mp h).1 hyl
  have hn : ∀ p ∈ negIndices y, p < X.nMajor := fun p h => lt_of_lt_of_le (mem_negIndices.mp h).1 hyl
  have h4 : boleyCheckWeightsD ((List.range X.nMajor).map (boleyWeightOfD (boleyRowsD s X) (posIndices y)))
      (posIndices y ++ negIndices y) = .ok () := by
    unfold boleyCheckWeightsD
    rw [if_pos]
    intro i hi
    have : i < X.nMajor := by
      rcases List.mem_append.mp hi with h | h
      · exact hp i h
      · exact hn i h
    rw [boleyWeightD_getD this]
    exact (boleyWeightOfD_ok _ _ _).1
  have h5 : checkLabels y = .ok () := if_pos hy
  have h6 : checkKeys X.nMajor (posIndices y) = .ok () := if_pos hp
  have h7 : checkKeys X.nMajor (negIndices y) = .ok () := if_pos hn
  unfold boleyFitD
  rw [h5, boleyWeightsD hlen]
  simp only [Bind.bind, Except.bind, boleyCheckOverflowD_ok, h6, h7, h4]
  rfl

theorem boleyFitD_cases {s : BoleySamplerD} {X : Cmp} (hlen : (boleyRowsD s X).length = X.nMajor) (y : List ℤ) :
    (y.toFinset ≠ {0, 1} → boleyFitD s X y = .error .assertionError) ∧
    (y.toFinset = {0, 1} → X.nMajor < y.length → boleyFitD s X y = .error .keyError) := by
  constructor
  · intro h
    unfold boleyFitD checkLabels
    rw [if_neg h]
    rfl
  · intro hy hlt
    have h5 : checkLabels y = .ok () := if_pos hy
    unfold boleyFitD
    rw [h5, boleyWeightsD hlen]
    simp only [Bind.bind, Except.bind, boleyCheckOverflowD_ok]
    unfold checkKeys
    by_cases h1 : ∀ i ∈ posIndices y, i < X.nMajor
    · rw [if_pos h1]
      simp only
      rw [if_neg]
      intro h2
      exact absurd (labels_le_of_keys hy h1 h2) (by omega)
    · rw [if_neg h1]

theorem boleyFitD_inv {s s' : BoleySamplerD} {X : Cmp} {y : List ℤ} (hlen : (boleyRowsD s X).length = X.nMajor)
    (h : boleyFitD s X y = .ok s') :
    y.toFinset = {0, 1} ∧ y.length ≤ X.nMajor ∧ s' = {
      rows := some (boleyRowsD s X), cftp := some (boleyCftpD (boleyRowsD s X) X.nMajor y), lists := reset } := by
  obtain ⟨h1, h2⟩ := boleyFitD_cases hlen y
  by_cases hy : y.toFinset = {0, 1}
  · by_cases hyl : y.length ≤ X.nMajor
    · rw [boleyFitD_of hy hlen hyl] at h
      exact ⟨hy, hyl, (Except.ok.inj h).symm⟩
    · rw [h2 hy (by omega)] at h
      cases h
  · rw [h1 hy] at h
    cases h

/-! ### The ratio -/

/-- The weight of a pair, in doubles. -/
noncomputable def pairD (P N : Finset ℕ) : ℝ := onesD (P \ N).card * 2 ^ (P ∩ N).card

theorem card_split (P N : Finset ℕ) : (P \ N).card + (P ∩ N).card = P.card := Finset.card_sdiff_add_card_inter P N

theorem pairD_nonneg (P N : Finset ℕ) : 0 ≤ pairD P N := mul_nonneg (ones_nonneg _) (by positivity)

theorem pairD_le (P N : Finset ℕ) : pairD P N ≤ 2 ^ P.card := by
  unfold pairD
  rw [← card_split P N, pow_add]
  exact mul_le_mul_of_nonneg_right (ones_le _) (by positivity)

theorem pairD_close (P N : Finset ℕ) : RelClose 2 (pairD P N) ((2 ^ (P \ N).card - 1) * 2 ^ (P ∩ N).card) := by
  unfold pairD
  exact (ones_close _).mul (RelClose.refl (by positivity) 0) (ones_nonneg _) (ones_exact _) (by positivity) (by positivity)

theorem one_le_pairD {P N : Finset ℕ} (h : 0 < pairD P N) : 1 ≤ pairD P N := by
  unfold pairD at h ⊢
  have h0 : (P \ N).card ≠ 0 := by
    intro e
    rw [e] at h
    unfold onesD at h
    rw [pow_zero, sub_self, fl_zero, zero_mul] at h
    exact lt_irrefl _ h
  exact one_le_mul_of_one_le_of_one_le (one_le_ones h0) (one_le_pow₀ (by norm_num))

theorem weight_num {rows : List (Finset ℕ)} {n : ℕ} {y : List ℤ} {p : ℕ} (h : (rows.getD p ∅).card < 1024) (q : ℕ) :
    (boleyCftpD rows n y).weight p q = .num (pairD (rows.getD p ∅) (rows.getD q ∅)) := by
  have hs := card_split (rows.getD p ∅) (rows.getD q ∅)
  have e : fl (pairD (rows.getD p ∅) (rows.getD q ∅)) = pairD (rows.getD p ∅) (rows.getD q ∅) :=
    fl_of_double ((double_fl _).mul_two_pow _)
  show boleyWeightD rows p q = _
  unfold boleyWeightD
  show ((Dbl.pow2 (rows.getD p ∅ \ rows.getD q ∅).card).sub1).mul (Dbl.pow2 (rows.getD p ∅ ∩ rows.getD q ∅).card) = _
  rw [Dbl.sub1_pow2 (by omega), Dbl.pow2_num (by omega)]
  show Dbl.round (pairD (rows.getD p ∅) (rows.getD q ∅)) = _
  rw [Dbl.round_num (by rw [e]; exact lt_of_le_of_lt (pairD_le _ _) (two_pow_lt h)), e]

theorem wPosD_num {rows : List (Finset ℕ)} {n : ℕ} {y : List ℤ} (hyl : y.length ≤ n) {p : ℕ} (hp : p ∈ posIndices y)
    (h : (rows.getD p ∅).card < 1024) : (boleyCftpD rows n y).wPos p = .num (onesD (rows.getD p ∅).card) := by
  have hpn : p < n := lt_of_lt_of_le (mem_posIndices.mp hp).1 hyl
  show ((List.range n).map (boleyWeightOfD rows (posIndices y))).getD p .nan = _
  rw [boleyWeightD_getD hpn, boleyWeightOfD, if_pos hp, Dbl.sub1_pow2 h]

theorem neg_not_pos {y : List ℤ} {q : ℕ} (hq : q ∈ negIndices y) : q ∉ posIndices y := fun h => by
  have a := (mem_negIndices.mp hq).2
  have b := (mem_posIndices.mp h).2
  omega

theorem wNegD_num {rows : List (Finset ℕ)} {n : ℕ} {y : List ℤ} (hyl : y.length ≤ n) {q : ℕ} (hq : q ∈ negIndices y) :
    (boleyCftpD rows n y).wNeg q = .num 1 := by
  have hqn : q < n := lt_of_lt_of_le (mem_negIndices.mp hq).1 hyl
  show ((List.range n).map (boleyWeightOfD rows (posIndices y))).getD q .nan = _
  rw [boleyWeightD_getD hqn, boleyWeightOfD, if_neg (neg_not_pos hq)]

theorem wPos_exact {rows : List (Finset ℕ)} {n : ℕ} {y : List ℤ} (hyl : y.length ≤ n) {p : ℕ} (hp : p ∈ posIndices y) :
    (boleyCftp rows n y).wPos p = 2 ^ (rows.getD p ∅).card - 1 := by
  have hpn : p < n := lt_of_lt_of_le (mem_posIndices.mp hp).1 hyl
  show ((List.range n).map (boleyWeightOf rows (posIndices y))).getD p 0 = _
  rw [boleyWeight_getD hpn, boleyWeightOf, if_pos hp]

theorem wNeg_exact {rows : List (Finset ℕ)} {n : ℕ} {y : List ℤ} (hyl : y.length ≤ n) {q : ℕ} (hq : q ∈ negIndices y) :
    (boleyCftp rows n y).wNeg q = 1 := by
  have hqn : q < n := lt_of_lt_of_le (mem_negIndices.mp hq).1 hyl
  show ((List.range n).map (boleyWeightOf rows (posIndices y))).getD q 0 = _
  rw [boleyWeight_getD hqn, boleyWeightOf, if_neg (neg_not_pos hq)]

theorem fl_ones (n : ℕ) : fl (onesD n) = onesD n := fl_idem _

theorem barD_num {rows : List (Finset ℕ)} {n : ℕ} {y : List ℤ} (hyl : y.length ≤ n) {p q : ℕ} (hp : p ∈ posIndices y)
    (hq : q ∈ negIndices y) (h : (rows.getD p ∅).card < 1024) :
    ((boleyCftpD rows n y).wPos p).mul ((boleyCftpD rows n y).wNeg q) = .num (onesD (rows.getD p ∅).card) := by
  rw [wPosD_num hyl hp h, wNegD_num hyl hq]
  show Dbl.round (onesD (rows.getD p ∅).card * 1) = _
  rw [mul_one, Dbl.round_num (by rw [fl_ones]; exact lt_of_le_of_lt (ones_le _) (two_pow_lt h)), fl_ones]

/-- The weights that the chain remembers, as numbers. -/
theorem chainOf_num {rows : List (Finset ℕ)} {n : ℕ} {y : List ℤ} (hyl : y.length ≤ n)
    (hsz : ∀ p ∈ posIndices y, (rows.getD p ∅).card ≤ 511) {s : St} (hs : (boleyCftp rows n y).Valid s) :
    ∃ a b, ((boleyCftpD rows n y).chainOf s).wD = .num a ∧ ((boleyCftpD rows n y).chainOf s).wDBar = .num b ∧
      1 ≤ a ∧ a ≤ 2 ^ 511 ∧ 0 ≤ b ∧ b ≤ 2 ^ 511 ∧ RelClose 2 a ((boleyCftp rows n y).wOf s) ∧
      RelClose 2 b ((boleyCftp rows n y).barOf s) ∧ 0 < (boleyCftp rows n y).wOf s ∧
      0 ≤ (boleyCftp rows n y).barOf s := by
  rcases s with _ | ⟨p, q⟩
  · refine ⟨1, 1, rfl, rfl, le_rfl, ?_, zero_le_one, ?_, RelClose.refl zero_le_one 2, RelClose.refl zero_le_one 2,
      one_pos, zero_le_one⟩ <;> exact one_le_pow₀ (by norm_num)
  · obtain ⟨hp, hq, hW⟩ := hs p q rfl
    have hp' : p ∈ posIndices y := hp
    have hq' : q ∈ negIndices y := hq
    have hc := hsz p hp'
    have hcl := pairD_close (rows.getD p ∅) (rows.getD q ∅)
    have hbar : (boleyCftp rows n y).barOf (some (p, q)) = 2 ^ (rows.getD p ∅).card - 1 := by
      show (boleyCftp rows n y).wPos p * (boleyCftp rows n y).wNeg q = _
      rw [wPos_exact hyl hp', wNeg_exact hyl hq', mul_one]
    refine ⟨pairD (rows.getD p ∅) (rows.getD q ∅), onesD (rows.getD p ∅).card, weight_num (n := n) (y := y) (by omega) q,
      barD_num hyl hp' hq' (by omega), one_le_pairD (hcl.pos_iff.mpr hW),
      (pairD_le _ _).trans (two_pow_le hc), ones_nonneg _, (ones_le _).trans (two_pow_le hc), hcl, ?_, hW, ?_⟩
    · rw [hbar]; exact ones_close _
    · rw [hbar]; exact ones_exact _

/-- However wide the rows, as long as their weights are numbers: a pair that no pattern separates has the ratio 0, even
when products of weights overflow. -/
theorem rD_pos_weight {rows : List (Finset ℕ)} {n : ℕ} {y : List ℤ} (hyl : y.length ≤ n)
    (hsz : ∀ p ∈ posIndices y, (rows.getD p ∅).card < 1024) {s : St} (hs : (boleyCftp rows n y).Valid s) {p q : ℕ}
    (hp : p ∈ posIndices y) (hq : q ∈ negIndices y) (hw : 0 < (boleyCftp rows n y).wPos p)
    (h : 0 < (boleyCftpD rows n y).rD s p q) : 0 < (boleyCftp rows n y).W p q := by
  by_contra hW
  have hchain : ∃ a b, ((boleyCftpD rows n y).chainOf s).wD = .num a ∧ ((boleyCftpD rows n y).chainOf s).wDBar = .num b ∧
      1 ≤ a := by
    rcases s with _ | ⟨p', q'⟩
    · exact ⟨1, 1, rfl, rfl, le_rfl⟩
    · obtain ⟨hp', hq', hW'⟩ := hs p' q' rfl
      exact ⟨_, _, weight_num (n := n) (y := y) (hsz p' hp') q', barD_num hyl hp' hq' (hsz p' hp'),
        one_le_pairD ((pairD_close _ _).pos_iff.mpr hW')⟩
  obtain ⟨a, b, e1, e2, ha⟩ := hchain
  have hw0 : pairD (rows.getD p ∅) (rows.getD q ∅) = 0 :=
    le_antisymm (not_lt.mp fun h' => hW ((pairD_close _ _).pos_iff.mp h')) (pairD_nonneg _ _)
  rw [wPos_exact hyl hp] at hw
  have hop1 : 1 ≤ onesD (rows.getD p ∅).card := one_le_ones fun e => by
    rw [e, pow_zero, sub_self] at hw
    exact lt_irrefl _ hw
  have hD1 : 1 ≤ fl (onesD (rows.getD p ∅).card * a) := by
    have := fl_mono zero_le_one (one_le_mul_of_one_le_of_one_le hop1 ha)
    rwa [fl_one] at this
  have z : ∀ x : ℝ, x = 0 → Dbl.round x = .num 0 := by
    intro x hx
    rw [hx, Dbl.round_num (by rw [fl_zero]; positivity), fl_zero]
  have hr : CftpD.ratio ((boleyCftpD rows n y).chainOf s) ((boleyCftpD rows n y).weight p q)
      (((boleyCftpD rows n y).wPos p).mul ((boleyCftpD rows n y).wNeg q)) = .num 0 := by
    unfold CftpD.ratio
    rw [weight_num (hsz p hp), barD_num hyl hp hq (hsz p hp), e1, e2, hw0]
    have m1 : Dbl.mul (.num 0) (.num b) = .num 0 := z _ (zero_mul b)
    rw [m1]
    show Dbl.div (.num 0) (Dbl.round (onesD (rows.getD p ∅).card * a)) = _
    unfold Dbl.round
    split
    · show (if fl (onesD (rows.getD p ∅).card * a) = 0 then _ else Dbl.round _) = _
      rw [if_neg (by linarith)]
      exact z _ (zero_div _)
    · rfl
  unfold CftpD.rD at h
  rw [hr] at h
  exact lt_irrefl _ h

/-- The ratio in doubles is a number close to the exact one. -/
theorem rD_close {rows : List (Finset ℕ)} {n : ℕ} {y : List ℤ} (hyl : y.length ≤ n)
    (hsz : ∀ p ∈ posIndices y, (rows.getD p ∅).card ≤ 511) {s : St} (hs : (boleyCftp rows n y).Valid s) {p q : ℕ}
    (hp : p ∈ posIndices y) (hq : q ∈ negIndices y) (hw : 0 < (boleyCftp rows n y).wPos p) :
    0 ≤ (boleyCftpD rows n y).rD s p q ∧ 0 ≤ (boleyCftp rows n y).ratio s p q ∧
      RelClose 14 ((boleyCftpD rows n y).rD s p q) ((boleyCftp rows n y).ratio s p q) := by
  obtain ⟨a, b, e1, e2, ha1, ha2, hb0, hb1, ca, cb, hw0, hbar0⟩ := chainOf_num hyl hsz hs
  have hc := hsz p hp
  rw [wPos_exact hyl hp] at hw
  have hcp := ones_close (rows.getD p ∅).card
  have hcw := pairD_close (rows.getD p ∅) (rows.getD q ∅)
  have hop : 0 < onesD (rows.getD p ∅).card := hcp.pos_iff.mpr hw
  have hop1 : 1 ≤ onesD (rows.getD p ∅).card := one_le_ones fun e => by
    rw [e, pow_zero, sub_self] at hw
    exact lt_irrefl _ hw
  have hoU := (ones_le (rows.getD p ∅).card).trans (two_pow_le hc)
  have hpw := pairD_nonneg (rows.getD p ∅) (rows.getD q ∅)
  have hpU := (pairD_le (rows.getD p ∅) (rows.getD q ∅)).trans (two_pow_le hc)
  set o := onesD (rows.getD p ∅).card with ho
  set w := pairD (rows.getD p ∅) (rows.getD q ∅) with hwd
  have hexW : 0 ≤ ((2 : ℝ) ^ (rows.getD p ∅ \ rows.getD q ∅).card - 1) * 2 ^ (rows.getD p ∅ ∩ rows.getD q ∅).card :=
    mul_nonneg (ones_exact _) (by positivity)
  have hprod : ∀ x z : ℝ, 0 ≤ x → x ≤ 2 ^ 511 → 0 ≤ z → z ≤ 2 ^ 511 → fl (x * z) ≤ 2 ^ 1022 := by
    intro x z hx0 hx hz0 hz
    rw [← fl_two_pow 1022]
    refine fl_mono (mul_nonneg hx0 hz0) ?_
    rw [show (1022 : ℕ) = 511 + 511 by norm_num, pow_add]
    exact mul_le_mul hx hz hz0 (by positivity)
  have hlt : ∀ x : ℝ, x ≤ 2 ^ 1022 → x < 2 ^ 1024 := fun x hx => lt_of_le_of_lt hx (two_pow_lt (by norm_num))
  have hN := hprod w b hpw hpU hb0 hb1
  have hDn := hprod o a hop.le hoU (by linarith) ha2
  have hD1 : 1 ≤ fl (o * a) := by
    have := fl_mono zero_le_one (one_le_mul_of_one_le_of_one_le hop1 ha1)
    rwa [fl_one] at this
  have hnum0 : 0 ≤ fl (w * b) := fl_nonneg (mul_nonneg hpw hb0)
  have hq2 : fl (fl (w * b) / fl (o * a)) ≤ 2 ^ 1022 := by
    rw [← fl_two_pow 1022]
    refine fl_mono (div_nonneg hnum0 (by linarith)) ?_
    exact (div_le_self hnum0 hD1).trans hN
  have hratio : CftpD.ratio ((boleyCftpD rows n y).chainOf s) ((boleyCftpD rows n y).weight p q)
      (((boleyCftpD rows n y).wPos p).mul ((boleyCftpD rows n y).wNeg q)) = .num (fl (fl (w * b) / fl (o * a))) := by
    unfold CftpD.ratio
    rw [weight_num (by omega), barD_num hyl hp hq (by omega), e1, e2, ← hwd, ← ho]
    have m1 : Dbl.mul (.num w) (.num b) = .num (fl (w * b)) := Dbl.round_num (hlt _ hN)
    have m2 : Dbl.mul (.num o) (.num a) = .num (fl (o * a)) := Dbl.round_num (hlt _ hDn)
    rw [m1, m2]
    show (if fl (o * a) = 0 then _ else Dbl.round (fl (w * b) / fl (o * a))) = _
    rw [if_neg (by linarith), Dbl.round_num (hlt _ hq2)]
  have hrD : (boleyCftpD rows n y).rD s p q = fl (fl (w * b) / fl (o * a)) := by
    unfold CftpD.rD
    rw [hratio]
  have hex : (boleyCftp rows n y).ratio s p q =
      (((2 : ℝ) ^ (rows.getD p ∅ \ rows.getD q ∅).card - 1) * 2 ^ (rows.getD p ∅ ∩ rows.getD q ∅).card *
        (boleyCftp rows n y).barOf s) / ((2 ^ (rows.getD p ∅).card - 1) * (boleyCftp rows n y).wOf s) := by
    unfold Cftp.ratio
    rw [wPos_exact hyl hp, wNeg_exact hyl hq, mul_one]
    rfl
  have c1 := (RelClose.round (mul_nonneg hpw hb0)).trans (hcw.mul cb hpw hexW hb0 hbar0)
  have c2 := (RelClose.round (mul_nonneg hop.le (by linarith : (0 : ℝ) ≤ a))).trans
    (hcp.mul ca hop.le (ones_exact _) (by linarith) hw0.le)
  have hdpos : 0 < (2 ^ (rows.getD p ∅).card - 1) * (boleyCftp rows n y).wOf s := mul_pos hw hw0
  have hnn : 0 ≤ ((2 : ℝ) ^ (rows.getD p ∅ \ rows.getD q ∅).card - 1) * 2 ^ (rows.getD p ∅ ∩ rows.getD q ∅).card *
        (boleyCftp rows n y).barOf s := mul_nonneg hexW hbar0
  have c3 := (RelClose.round (div_nonneg hnum0 (by linarith : (0 : ℝ) ≤ fl (o * a)))).trans
    (c1.div c2 hnum0 hnn (by linarith) hdpos)
  rw [hrD, hex]
  exact ⟨fl_nonneg (div_nonneg hnum0 (by linarith)), div_nonneg hnn hdpos.le, c3⟩

/-- How often two thresholds give different answers. -/
theorem share_split {M : ℕ} (hM : 0 < M) {x y : ℝ} (hx : 0 ≤ x) (hy : 0 ≤ y) :
    shareOf M (fun j => ¬ ((j : ℝ) / M < x ↔ (j : ℝ) / M < y)) ≤ |min 1 x - min 1 y| + 1 / M := by
  have main : ∀ x y : ℝ, 0 ≤ x → x ≤ y →
      shareOf M (fun j => ¬ ((j : ℝ) / M < x ↔ (j : ℝ) / M < y)) ≤ |min 1 x - min 1 y| + 1 / M := by
    intro x y hx hxy
    classical
    have hset : shareOf M (fun j => ¬ ((j : ℝ) / M < x ↔ (j : ℝ) / M < y)) =
        (((Finset.range M).filter fun k : ℕ => min 1 x ≤ (k : ℝ) / M ∧ (k : ℝ) / M < min 1 y).card : ℝ) / M := by
      unfold shareOf
      congr 2
      congr 1
      ext k
      simp only [Finset.mem_filter, Finset.mem_range]
      refine and_congr_right fun hk => ?_
      have hk1 : (k : ℝ) / M < 1 := by
        rw [div_lt_one (by positivity)]
        exact_mod_cast hk
      constructor
      · intro h
        by_cases h1 : (k : ℝ) / M < x
        · exact absurd ⟨fun _ => lt_of_lt_of_le h1 hxy, fun _ => h1⟩ h
        · by_cases h2 : (k : ℝ) / M < y
          · exact ⟨(min_le_right _ _).trans (not_lt.mp h1), lt_min hk1 h2⟩
          · exact absurd ⟨fun h => absurd h h1, fun h => absurd h h2⟩ h
      · rintro ⟨h1, h2⟩ h
        have h3 := h.mpr (lt_of_lt_of_le h2 (min_le_right _ _))
        exact absurd (lt_min hk1 h3) (not_lt.mpr h1)
    rw [hset]
    have hsh := share_interval M hM (a := min 1 x) (b := min 1 y) (le_min zero_le_one hx) (min_le_min_left _ hxy)
      (min_le_left _ _)
    have h1 := (abs_le.mp hsh).2
    have h2 := neg_abs_le (min 1 x - min 1 y)
    linarith
  rcases le_total x y with h | h
  · exact main x y hx h
  · rw [abs_sub_comm]
    refine le_trans (le_of_eq ?_) (main y x hy h)
    apply shareOf_congr
    intro k _
    rw [not_iff_not]
    exact iff_comm

theorem tracks_boley {rows : List (Finset ℕ)} {n : ℕ} {y : List ℤ} (hyl : y.length ≤ n)
    (hsz : ∀ p ∈ posIndices y, (rows.getD p ∅).card ≤ 511) {ip iq : ℕ → ℕ}
    (hpos : ∀ k < 2 ^ 53, ip k ∈ posIndices y ∧ 0 < (boleyCftp rows n y).wPos (ip k))
    (hneg : ∀ k < 2 ^ 53, iq k ∈ negIndices y ∧ 0 < (boleyCftp rows n y).wNeg (iq k)) :
    Tracks (boleyCftpD rows n y).rD (boleyCftp rows n y).ratio (2 ^ 53) ip iq (boleyCftp rows n y).Valid (29 / 2 ^ 53) := by
  constructor
  · intro s hs k hk l hl j hj
    exact valid_stepT (boleyCftp_dominated rows hyl) hs ⟨(hpos k hk).1, (hneg l hl).1, (hpos k hk).2, (hneg l hl).2,
      show (0 : ℝ) ≤ (j : ℝ) / (2 ^ 53 : ℕ) by positivity⟩
  · intro s hs k hk l hl
    obtain ⟨h1, h2, h3⟩ := rD_close hyl hsz hs (hpos k hk).1 (hneg l hl).1 (hpos k hk).2
    refine (share_split (by positivity) h1 h2).trans ?_
    have h4 := rel_min (j := 14) (by norm_num) h1 h2 h3
    have e : (29 : ℝ) / 2 ^ 53 = 2 * (14 : ℕ) / 2 ^ 53 + 1 / ((2 ^ 53 : ℕ) : ℝ) := by
      norm_num
    rw [e]
    exact add_le_add h4 le_rfl

end Verif
