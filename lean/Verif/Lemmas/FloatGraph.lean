/-
Rounding to a given number of significant bits, and label graphs computed with rounding.
-/
import Verif.Model.FloatGraph
import Verif.Lemmas.Float
import Verif.Lemmas.Graph

namespace Verif

/-! ### Rounding to `m + 1` significant bits -/

/-- Numbers with `m + 1` significant bits. -/
def IsFloat (m : ℕ) (x : ℝ) : Prop := ∃ k e : ℤ, |k| ≤ 2 ^ (m + 1) ∧ x = k * (2 : ℝ) ^ e

theorem fl_eq_flp (x : ℝ) : fl x = flp 52 x := rfl

theorem flp_zero (m : ℕ) : flp m 0 = 0 := by simp [flp]

theorem flp_error (m : ℕ) (x : ℝ) : |flp m x - x| ≤ (1 / 2 ^ (m + 1)) * |x| := by
  by_cases hx : x = 0
  · simp [hx, flp_zero]
  unfold flp
  rw [if_neg hx]
  set e := Int.log 2 |x| - m with he
  have h2 : (0 : ℝ) < 2 ^ e := by positivity
  have h := roundEven_error (x / 2 ^ e)
  have e1 : (roundEven (x / 2 ^ e) : ℝ) * 2 ^ e - x = ((roundEven (x / 2 ^ e) : ℝ) - x / 2 ^ e) * 2 ^ e := by
    field_simp
  rw [e1, abs_mul, abs_of_pos h2]
  have h3 := two_log_le hx
  have e2 : (2 : ℝ) ^ e = 2 ^ (Int.log 2 |x|) / 2 ^ m := by
    rw [he, zpow_sub₀ (by norm_num)]
    norm_cast
  have h5 : |(roundEven (x / 2 ^ e) : ℝ) - x / 2 ^ e| * 2 ^ e ≤ 1 / 2 * 2 ^ e :=
    mul_le_mul_of_nonneg_right h h2.le
  refine h5.trans ?_
  rw [e2]
  have h6 : (1 / 2 : ℝ) * (2 ^ Int.log 2 |x| / 2 ^ m) = (1 / 2 ^ (m + 1)) * 2 ^ Int.log 2 |x| := by
    rw [pow_succ]; field_simp
  rw [h6]
  exact mul_le_mul_of_nonneg_left h3 (by positivity)

theorem flp_of_float {m : ℕ} {x : ℝ} (h : IsFloat m x) : flp m x = x := by
  by_cases hx : x = 0
  · simp [hx, flp_zero]
  obtain ⟨k, e, hm, hxe⟩ := h
  have key : ∃ n : ℤ, x / 2 ^ (Int.log 2 |x| - m) = n := by
    set L := Int.log 2 |x| with hL
    have h1 := two_log_le hx
    have hmR : |(k : ℝ)| ≤ 2 ^ (m + 1) := by exact_mod_cast hm
    have h3 : |x| ≤ (2 : ℝ) ^ ((m : ℤ) + 1 + e) := by
      rw [hxe, abs_mul, abs_of_pos (show (0 : ℝ) < 2 ^ e by positivity), zpow_add₀ (by norm_num)]
      exact mul_le_mul_of_nonneg_right (by exact_mod_cast hmR) (by positivity)
    have h4 : L ≤ m + 1 + e := (zpow_le_zpow_iff_right₀ (by norm_num : (1 : ℝ) < 2)).mp (h1.trans h3)
    rcases le_or_gt (L - m) e with hle | hgt
    · refine ⟨k * 2 ^ (e - (L - m)).toNat, ?_⟩
      rw [hxe, mul_div_assoc, ← zpow_sub₀ (by norm_num)]
      push_cast
      congr 1
      rw [← zpow_natCast, Int.toNat_of_nonneg (by omega)]
    · have hL' : L = m + 1 + e := by omega
      have habs : |x| = (2 : ℝ) ^ ((m : ℤ) + 1 + e) := le_antisymm h3 (hL' ▸ h1)
      have e52 : (2 : ℝ) ^ ((m : ℤ) + 1 + e) / 2 ^ (L - m) = ((2 ^ m : ℤ) : ℝ) := by
        rw [← zpow_sub₀ (by norm_num), show (m : ℤ) + 1 + e - (L - m) = m by omega]
        push_cast
        exact zpow_natCast _ _
      rcases abs_choice x with hc | hc
      · exact ⟨2 ^ m, by rw [← e52, ← habs, hc]⟩
      · refine ⟨-2 ^ m, ?_⟩
        have : x = -(2 : ℝ) ^ ((m : ℤ) + 1 + e) := by rw [← habs, hc]; ring
        rw [show x / 2 ^ (L - m) = -((2 : ℝ) ^ ((m : ℤ) + 1 + e) / 2 ^ (L - m)) by rw [this]; ring, e52]
        push_cast
        ring
  obtain ⟨n, hn⟩ := key
  unfold flp
  rw [if_neg hx, hn, roundEven_int, ← hn]
  field_simp

theorem float_flp (m : ℕ) (x : ℝ) : IsFloat m (flp m x) := by
  by_cases hx : x = 0
  · exact ⟨0, 0, by simp, by simp [hx, flp_zero]⟩
  unfold flp
  rw [if_neg hx]
  refine ⟨_, _, ?_, rfl⟩
  set e := Int.log 2 |x| - m with he
  have h1 := lt_two_log (x := x)
  have h2 : |x / 2 ^ e| < 2 ^ (m + 1) := by
    rw [abs_div, abs_of_pos (show (0 : ℝ) < 2 ^ e by positivity), div_lt_iff₀ (by positivity)]
    have : (2 : ℝ) ^ (m + 1) * 2 ^ e = 2 ^ (Int.log 2 |x| + 1) := by
      rw [← zpow_natCast, ← zpow_add₀ (by norm_num)]
      congr 1
      push_cast
      omega
    rw [this]
    exact h1
  rw [abs_lt] at h2
  rw [abs_le]
  constructor
  · have := roundEven_mono (show ((-2 ^ (m + 1) : ℤ) : ℝ) ≤ x / 2 ^ e by push_cast; linarith [h2.1])
    rwa [roundEven_int] at this
  · have := roundEven_mono (show x / 2 ^ e ≤ ((2 ^ (m + 1) : ℤ) : ℝ) by push_cast; linarith [h2.2])
    rwa [roundEven_int] at this

theorem flp_idem (m : ℕ) (x : ℝ) : flp m (flp m x) = flp m x := flp_of_float (float_flp m x)

theorem flp_one (m : ℕ) : flp m 1 = 1 :=
  flp_of_float ⟨1, 0, by rw [abs_one]; exact one_le_pow₀ (by norm_num), by simp⟩

theorem flp_nonneg (m : ℕ) {x : ℝ} (h : 0 ≤ x) : 0 ≤ flp m x := by
  have := flp_error m x
  rw [abs_of_nonneg h, abs_le] at this
  have h2 : (1 / 2 ^ (m + 1) : ℝ) * x ≤ x := by
    have : (1 / 2 ^ (m + 1) : ℝ) ≤ 1 := by
      rw [div_le_one (by positivity)]
      exact one_le_pow₀ (by norm_num)
    nlinarith
  linarith [this.1]

theorem flp_mono (m : ℕ) {x y : ℝ} (h0 : 0 ≤ x) (h : x ≤ y) : flp m x ≤ flp m y := by
  by_cases hx : x = 0
  · rw [hx, flp_zero]
    exact flp_nonneg m (h0.trans h)
  have hxp : 0 < x := lt_of_le_of_ne h0 (Ne.symm hx)
  have hyp : 0 < y := hxp.trans_le h
  have hlog : Int.log 2 |x| ≤ Int.log 2 |y| := by
    rw [abs_of_pos hxp, abs_of_pos hyp]
    exact Int.log_mono_right hxp h
  rcases hlog.lt_or_eq with hlt | heq
  · have hupper : flp m x ≤ 2 ^ (Int.log 2 |x| + 1) := by
      unfold flp
      rw [if_neg hx]
      set e := Int.log 2 |x| - m with he
      have e1 : (2 : ℝ) ^ (Int.log 2 |x| + 1) = ((2 ^ (m + 1) : ℤ) : ℝ) * 2 ^ e := by
        push_cast
        rw [← zpow_natCast, ← zpow_add₀ (by norm_num)]
        congr 1
        push_cast
        omega
      rw [e1]
      refine mul_le_mul_of_nonneg_right ?_ (by positivity)
      have h1 := lt_two_log (x := x)
      rw [abs_of_pos hxp] at h1
      have h2 : x / 2 ^ e ≤ ((2 ^ (m + 1) : ℤ) : ℝ) := by
        rw [div_le_iff₀ (by positivity), ← e1, abs_of_pos hxp]
        exact h1.le
      have := roundEven_mono h2
      rw [roundEven_int] at this
      exact_mod_cast this
    have hlower : (2 : ℝ) ^ (Int.log 2 |y|) ≤ flp m y := by
      unfold flp
      rw [if_neg hyp.ne']
      set e := Int.log 2 |y| - m with he
      have e1 : (2 : ℝ) ^ (Int.log 2 |y|) = ((2 ^ m : ℤ) : ℝ) * 2 ^ e := by
        push_cast
        rw [← zpow_natCast, ← zpow_add₀ (by norm_num)]
        congr 1
        omega
      rw [e1]
      refine mul_le_mul_of_nonneg_right ?_ (by positivity)
      have h1 := two_log_le hyp.ne'
      have h2 : ((2 ^ m : ℤ) : ℝ) ≤ y / 2 ^ e := by
        rw [le_div_iff₀ (by positivity), ← e1]
        rwa [abs_of_pos hyp] at h1 ⊢
      have := roundEven_mono h2
      rw [roundEven_int] at this
      exact_mod_cast this
    refine hupper.trans (le_trans ?_ hlower)
    exact zpow_le_zpow_right₀ (by norm_num) (by omega)
  · unfold flp
    rw [if_neg hx, if_neg hyp.ne', heq]
    refine mul_le_mul_of_nonneg_right ?_ (by positivity)
    exact_mod_cast roundEven_mono (div_le_div_of_nonneg_right h (by positivity))

/-- Fewer significant bits are also significant bits of a longer format. -/
theorem IsFloat.mono {m n : ℕ} (h : m ≤ n) {x : ℝ} (hx : IsFloat m x) : IsFloat n x := by
  obtain ⟨k, e, hk, rfl⟩ := hx
  exact ⟨k, e, hk.trans (pow_le_pow_right₀ (by norm_num) (by omega)), rfl⟩

/-- Rounding a number in `[0,1]` moves it by at most half a unit in the last place of one. -/
theorem flp_error_unit (m : ℕ) {x : ℝ} (h0 : 0 ≤ x) (h1 : x ≤ 1) : |flp m x - x| ≤ 1 / 2 ^ (m + 1) := by
  refine (flp_error m x).trans ?_
  rw [abs_of_nonneg h0]
  exact mul_le_of_le_one_right (by positivity) h1

theorem flp_le_one (m : ℕ) {x : ℝ} (h0 : 0 ≤ x) (h1 : x ≤ 1) : flp m x ≤ 1 := by
  have := flp_mono m h0 h1
  rwa [flp_one] at this

/-- Evaluating a rounding: `x` lies in the binade of `2^k` and next to the multiple `n` of the unit. -/
theorem flp_eval (m : ℕ) {x : ℝ} (k n : ℤ) (h1 : (2 : ℝ) ^ k ≤ x) (h2 : x < 2 ^ (k + 1))
    (h3 : |x / 2 ^ (k - m) - n| < 1 / 2) : flp m x = n * 2 ^ (k - m) := by
  have hpos : 0 < x := lt_of_lt_of_le (by positivity) h1
  have hlog : Int.log 2 |x| = k := by
    rw [abs_of_pos hpos]
    apply le_antisymm
    · have := (Int.lt_zpow_iff_log_lt (b := 2) (by norm_num) hpos (x := k + 1)).mp (by exact_mod_cast h2)
      omega
    · exact (Int.zpow_le_iff_le_log (b := 2) (by norm_num) hpos (x := k)).mp (by exact_mod_cast h1)
  unfold flp
  rw [if_neg hpos.ne', hlog]
  congr 1
  norm_cast
  have h := roundEven_error (x / 2 ^ (k - m))
  have hlt : |((roundEven (x / 2 ^ (k - m)) - n : ℤ) : ℝ)| < 1 := by
    push_cast
    rw [abs_lt] at h3 ⊢
    rw [abs_le] at h
    constructor <;> linarith [h.1, h.2, h3.1, h3.2]
  have : |roundEven (x / 2 ^ (k - m)) - n| < 1 := by exact_mod_cast hlt
  have := Int.abs_lt_one_iff.mp this
  omega

theorem roundEven_even {x : ℝ} {n : ℤ} (hn : Even n) (h : |x - n| ≤ 1 / 2) : roundEven x = n := by
  rw [abs_le] at h
  have hf := Int.floor_add_fract x
  have h0 := Int.fract_nonneg x
  have h1 := Int.fract_lt_one x
  have hc : ⌊x⌋ = n ∨ ⌊x⌋ = n - 1 := by
    have a1 : ((n - 1 : ℤ) : ℝ) ≤ x := by push_cast; linarith [h.1]
    have a2 : x < ((n + 1 : ℤ) : ℝ) := by push_cast; linarith [h.2]
    have b1 := Int.le_floor.mpr a1
    have b2 := Int.floor_lt.mpr a2
    omega
  unfold roundEven
  rcases hc with hc | hc
  · have hcR : ((⌊x⌋ : ℤ) : ℝ) = n := by exact_mod_cast hc
    rw [if_neg (show ¬ 1 / 2 < Int.fract x by linarith [h.2]), hc, if_pos hn]
    split <;> rfl
  · have hcR : ((⌊x⌋ : ℤ) : ℝ) = n - 1 := by rw [hc]; push_cast; ring
    rw [if_neg (show ¬ Int.fract x < 1 / 2 by linarith [h.1])]
    split
    · omega
    · rw [if_neg (by rw [hc, Int.even_sub_one]; exact not_not_intro hn)]
      omega

/-- The same on a tie, which goes to the even neighbour. -/
theorem flp_eval_even (m : ℕ) {x : ℝ} (k n : ℤ) (h1 : (2 : ℝ) ^ k ≤ x) (h2 : x < 2 ^ (k + 1)) (hn : Even n)
    (h3 : |x / 2 ^ (k - m) - n| ≤ 1 / 2) : flp m x = n * 2 ^ (k - m) := by
  have hpos : 0 < x := lt_of_lt_of_le (by positivity) h1
  have hlog : Int.log 2 |x| = k := by
    rw [abs_of_pos hpos]
    apply le_antisymm
    · have := (Int.lt_zpow_iff_log_lt (b := 2) (by norm_num) hpos (x := k + 1)).mp (by exact_mod_cast h2)
      omega
    · exact (Int.zpow_le_iff_le_log (b := 2) (by norm_num) hpos (x := k)).mp (by exact_mod_cast h1)
  unfold flp
  rw [if_neg hpos.ne', hlog, roundEven_even hn h3]

/-! ### Comparing rounded ratios -/

theorem ratio_lt {a b c d : ℕ} (hb : 0 < b) (hd : 0 < d) (h : a * d + c * b < 2 ^ 53)
    (hlt : (a : ℝ) / b < (c : ℝ) / d) : fl ((a : ℝ) / b) < fl ((c : ℝ) / d) := by
  have hbR : (0 : ℝ) < b := by exact_mod_cast hb
  have hdR : (0 : ℝ) < d := by exact_mod_cast hd
  have ha0 : (0 : ℝ) ≤ (a : ℝ) / b := by positivity
  refine lt_of_le_of_ne (fl_mono ha0 hlt.le) fun heq => ?_
  have e1 := fl_error ((a : ℝ) / b)
  have e2 := fl_error ((c : ℝ) / d)
  rw [abs_of_nonneg ha0] at e1
  rw [abs_of_nonneg (by positivity : (0 : ℝ) ≤ (c : ℝ) / d)] at e2
  rw [abs_le] at e1 e2
  have h1 : (c : ℝ) / d - a / b ≤ 1 / 2 ^ 53 * (a / b + c / d) := by
    rw [heq] at e1
    linarith [e1.2, e2.1]
  have h2 : (c : ℝ) / d - a / b = (c * b - a * d) / (b * d) := by field_simp
  have h3 : (a : ℝ) / b + c / d = (a * d + c * b) / (b * d) := by field_simp
  rw [h2, h3, ← mul_div_assoc, div_le_div_iff_of_pos_right (by positivity)] at h1
  rw [div_lt_div_iff₀ hbR hdR] at hlt
  have h4 : a * d + 1 ≤ c * b := by exact_mod_cast hlt
  have h5 : (a : ℝ) * d + 1 ≤ c * b := by exact_mod_cast h4
  have h6 : ((a : ℝ) * d + c * b) < 2 ^ 53 := by exact_mod_cast h
  have h7 : (1 / 2 ^ 53 : ℝ) * (a * d + c * b) < 1 := by
    rw [div_mul_eq_mul_div, one_mul, div_lt_one (by positivity)]
    exact h6
  linarith

theorem ratio_le_iff {a b c d : ℕ} (hb : 0 < b) (hd : 0 < d) (h : a * d + c * b < 2 ^ 53) :
    fl ((a : ℝ) / b) ≤ fl ((c : ℝ) / d) ↔ (a : ℝ) / b ≤ (c : ℝ) / d := by
  constructor
  · intro hle
    by_contra hgt
    exact absurd (ratio_lt hd hb (by omega) (not_le.mp hgt)) (not_lt.mpr hle)
  · exact fl_mono (by positivity)

theorem ratio_lt_iff {a b c d : ℕ} (hb : 0 < b) (hd : 0 < d) (h : a * d + c * b < 2 ^ 53) :
    fl ((a : ℝ) / b) < fl ((c : ℝ) / d) ↔ (a : ℝ) / b < (c : ℝ) / d := by
  rw [← not_le, ← not_le, ratio_le_iff hd hb (by omega)]

/-! ### Arithmetic on probabilities -/

/-- Doubles in `[0,1]`. -/
def Prob53 (x : ℝ) : Prop := IsFloat 52 x ∧ 0 ≤ x ∧ x ≤ 1

/-- C `float`s in `[0,1]`. -/
def Prob24 (x : ℝ) : Prop := IsFloat 23 x ∧ 0 ≤ x ∧ x ≤ 1

theorem mul_unit {x y : ℝ} (hx : 0 ≤ x ∧ x ≤ 1) (hy : 0 ≤ y ∧ y ≤ 1) : 0 ≤ x * y ∧ x * y ≤ 1 :=
  ⟨mul_nonneg hx.1 hy.1, mul_le_one₀ hx.2 hy.1 hy.2⟩

theorem fl_unit {x : ℝ} (h : 0 ≤ x ∧ x ≤ 1) : 0 ≤ fl x ∧ fl x ≤ 1 :=
  ⟨flp_nonneg 52 h.1, flp_le_one 52 h.1 h.2⟩

theorem single_unit {x : ℝ} (h : 0 ≤ x ∧ x ≤ 1) : 0 ≤ single x ∧ single x ≤ 1 :=
  ⟨flp_nonneg 23 h.1, flp_le_one 23 h.1 h.2⟩

theorem prob53_fl {x : ℝ} (h : 0 ≤ x ∧ x ≤ 1) : Prob53 (fl x) :=
  ⟨float_flp 52 x, fl_unit h⟩

theorem prob24_single {x : ℝ} (h : 0 ≤ x ∧ x ≤ 1) : Prob24 (single x) :=
  ⟨float_flp 23 x, single_unit h⟩

theorem doubleOps_lawful : doubleOps.Lawful Prob53 where
  one := ⟨⟨1, 0, by norm_num, by simp [doubleOps]⟩, by norm_num [doubleOps], by norm_num [doubleOps]⟩
  mul := fun p w hp hw => prob53_fl (mul_unit hp.2 hw.2)
  le_left := fun p w hp hw => by
    have := flp_mono 52 (mul_unit hp.2 hw.2).1 (mul_le_of_le_one_right hp.2.1 hw.2.2)
    rwa [flp_of_float hp.1] at this
  le_right := fun p w hp hw => by
    have := flp_mono 52 (mul_unit hp.2 hw.2).1 (mul_le_of_le_one_left hw.2.1 hp.2.2)
    rwa [flp_of_float hw.1] at this
  mono := fun p q w hp _ hw h =>
    flp_mono 52 (mul_unit hp.2 hw.2).1 (mul_le_mul_of_nonneg_right h hw.2.1)

theorem singleOps_lawful : singleOps.Lawful Prob24 where
  one := ⟨⟨1, 0, by norm_num, by simp [singleOps]⟩, by norm_num [singleOps], by norm_num [singleOps]⟩
  mul := fun p w hp hw => prob24_single (fl_unit (mul_unit hp.2 hw.2))
  le_left := fun p w hp hw => by
    have h1 := flp_mono 52 (mul_unit hp.2 hw.2).1 (mul_le_of_le_one_right hp.2.1 hw.2.2)
    rw [flp_of_float (hp.1.mono (by norm_num))] at h1
    have h2 := flp_mono 23 (fl_unit (mul_unit hp.2 hw.2)).1 h1
    rwa [flp_of_float hp.1] at h2
  le_right := fun p w hp hw => by
    have h1 := flp_mono 52 (mul_unit hp.2 hw.2).1 (mul_le_of_le_one_left hw.2.1 hp.2.2)
    rw [flp_of_float (hw.1.mono (by norm_num))] at h1
    have h2 := flp_mono 23 (fl_unit (mul_unit hp.2 hw.2)).1 h1
    rwa [flp_of_float hw.1] at h2
  mono := fun p q w hp _ hw h =>
    flp_mono 23 (fl_unit (mul_unit hp.2 hw.2)).1
      (flp_mono 52 (mul_unit hp.2 hw.2).1 (mul_le_mul_of_nonneg_right h hw.2.1))

/-- A product of two `float`s is a double, so `dfs_v2` rounds each product once. -/
theorem fl_mul_single {x y : ℝ} (hx : IsFloat 23 x) (hy : IsFloat 23 y) : fl (x * y) = x * y := by
  obtain ⟨a, e, ha, rfl⟩ := hx
  obtain ⟨b, f, hb, rfl⟩ := hy
  apply flp_of_float (m := 52)
  refine ⟨a * b, e + f, ?_, ?_⟩
  · rw [abs_mul]
    calc |a| * |b| ≤ 2 ^ (23 + 1) * 2 ^ (23 + 1) := mul_le_mul ha hb (abs_nonneg b) (by positivity)
      _ ≤ 2 ^ (52 + 1) := by norm_num
  · rw [zpow_add₀ (by norm_num)]
    push_cast
    ring

theorem doubleOps_error {x y : ℝ} (hx : 0 ≤ x ∧ x ≤ 1) (hy : 0 ≤ y ∧ y ≤ 1) :
    |doubleOps.mul x y - x * y| ≤ 1 / 2 ^ 53 := by
  have h := mul_unit hx hy
  exact flp_error_unit 52 h.1 h.2

theorem singleOps_error {x y : ℝ} (hx : Prob24 x) (hy : Prob24 y) :
    |singleOps.mul x y - x * y| ≤ 1 / 2 ^ 24 := by
  have h := mul_unit hx.2 hy.2
  show |single (fl (x * y)) - x * y| ≤ _
  rw [fl_mul_single hx.1 hy.1]
  exact flp_error_unit 23 h.1 h.2

/-! ### Error of a clique probability -/

theorem abs_mul_sub {a b x y : ℝ} (ha : 0 ≤ a ∧ a ≤ 1) (hy : 0 ≤ y ∧ y ≤ 1) :
    |a * b - x * y| ≤ |a - x| + |b - y| := by
  have : a * b - x * y = a * (b - y) + (a - x) * y := by ring
  rw [this]
  refine (abs_add_le _ _).trans ?_
  rw [abs_mul, abs_mul, abs_of_nonneg ha.1, abs_of_nonneg hy.1]
  have h1 := mul_le_of_le_one_left (abs_nonneg (b - y)) ha.2
  have h2 := mul_le_of_le_one_right (abs_nonneg (a - x)) hy.2
  linarith

section error
variable {ops : ProbOps ℝ} {Valid : ℝ → Prop} {g₁ : UGraph ℝ} {g : UGraph ℚ} {mu eta : ℝ}

/-- The weight of the pair in `g₁` differs from that in `g` by at most `eta`. -/
def CloseAt (g₁ : UGraph ℝ) (g : UGraph ℚ) (eta : ℝ) (u v : ℕ) : Prop :=
  ∃ (w' : ℝ) (w : ℚ), g₁.weight u v = some w' ∧ g.weight u v = some w ∧ |w' - (w : ℝ)| ≤ eta

theorem extendAll_error (hl : ops.Lawful Valid) (hu : ∀ x, Valid x → 0 ≤ x ∧ x ≤ 1)
    (hm : ∀ x y, Valid x → Valid y → |ops.mul x y - x * y| ≤ mu) (h₁ : g₁.AllWeights Valid)
    (hg : g.AllWeights fun p => 0 ≤ p ∧ p ≤ 1) (u : ℕ) :
    ∀ (vs : List ℕ) (_ : ∀ v ∈ vs, CloseAt g₁ g eta u v) (p' : ℝ) (p : ℚ), Valid p' → 0 ≤ p ∧ p ≤ 1 →
      |extendAll ops g₁ u vs p' - (extendAll ratOps g u vs p : ℚ)| ≤ |p' - p| + vs.length * (mu + eta)
  | [], _, p', p, _, _ => by simp [extendAll]
  | v :: vs, hv, p', p, hp', hp => by
    obtain ⟨w', w, e1, e2, hw⟩ := hv v (by simp)
    have hw' := UGraph.weight_valid h₁ e1
    have hwr := UGraph.weight_valid hg e2
    have ih := extendAll_error hl hu hm h₁ hg u vs (fun x hx => hv x (by simp [hx])) (ops.mul p' w') (p * w)
      (hl.mul _ _ hp' hw') ⟨mul_nonneg hp.1 hwr.1, mul_le_one₀ hp.2 hwr.1 hwr.2⟩
    unfold extendAll at ih ⊢
    rw [List.foldl_cons, List.foldl_cons, e1, e2]
    simp only [Option.getD_some]
    refine ih.trans ?_
    have hwR : (0 : ℝ) ≤ w ∧ (w : ℝ) ≤ 1 := ⟨by exact_mod_cast hwr.1, by exact_mod_cast hwr.2⟩
    have h1 := hm _ _ hp' hw'
    have h2 := abs_mul_sub (b := w') (x := (p : ℝ)) (hu _ hp') hwR
    have h3 : |ops.mul p' w' - ((p * w : ℚ) : ℝ)| ≤ mu + (|p' - p| + eta) := by
      have : ops.mul p' w' - ((p * w : ℚ) : ℝ) = (ops.mul p' w' - p' * w') + (p' * w' - p * w) := by
        push_cast; ring
      rw [this]
      refine (abs_add_le _ _).trans ?_
      linarith
    rw [List.length_cons]
    push_cast at h3 ⊢
    linarith

theorem orderedProbAux_error (hl : ops.Lawful Valid) (hu : ∀ x, Valid x → 0 ≤ x ∧ x ≤ 1)
    (hm : ∀ x y, Valid x → Valid y → |ops.mul x y - x * y| ≤ mu) (h₁ : g₁.AllWeights Valid)
    (hg : g.AllWeights fun p => 0 ≤ p ∧ p ≤ 1) :
    ∀ (us pre : List ℕ) (_ : (pre ++ us).Pairwise fun a b => CloseAt g₁ g eta b a) (p' : ℝ) (p : ℚ),
      Valid p' → 0 ≤ p ∧ p ≤ 1 →
      |orderedProbAux ops g₁ pre us p' - (orderedProbAux ratOps g pre us p : ℚ)| ≤
        |p' - p| + (((pre.length + us.length).choose 2 : ℝ) - (pre.length.choose 2 : ℝ)) * (mu + eta)
  | [], pre, _, p', p, _, _ => by simp [orderedProbAux]
  | u :: us, pre, hc, p', p, hp', hp => by
    have hv : ∀ v ∈ pre, CloseAt g₁ g eta u v := by
      intro v hv
      exact (List.pairwise_append.mp hc).2.2 v hv u (by simp)
    have he := extendAll_error hl hu hm h₁ hg u pre hv p' p hp' hp
    have ih := orderedProbAux_error hl hu hm h₁ hg us (pre ++ [u]) (by simpa using hc)
      (extendAll ops g₁ u pre p') (extendAll ratOps g u pre p) (extendAll_valid hl h₁ u pre p' hp')
      (extendAll_valid ratOps_lawful hg u pre p hp)
    rw [orderedProbAux, orderedProbAux]
    refine ih.trans ?_
    rw [List.length_append, List.length_singleton, List.length_cons,
      show pre.length + 1 + us.length = pre.length + (us.length + 1) by omega]
    have hch : ((pre.length + 1).choose 2 : ℝ) = pre.length + (pre.length.choose 2 : ℝ) := by
      rw [show (2 : ℕ) = 1 + 1 from rfl, Nat.choose_succ_succ, Nat.choose_one_right]
      push_cast
      ring
    rw [hch]
    linarith

/-- A clique probability computed with rounding, against the exact one. -/
theorem orderedProb_error (hl : ops.Lawful Valid) (hu : ∀ x, Valid x → 0 ≤ x ∧ x ≤ 1)
    (hm : ∀ x y, Valid x → Valid y → |ops.mul x y - x * y| ≤ mu) (hone : ops.one = 1)
    (h₁ : g₁.AllWeights Valid) (hg : g.AllWeights fun p => 0 ≤ p ∧ p ≤ 1) (T : List ℕ)
    (hs : T.Pairwise (· < ·)) (hc : T.Pairwise fun a b => CloseAt g₁ g eta b a) :
    |orderedProb ops g₁ T - (g.cliqueProb T.toFinset : ℚ)| ≤ (T.length.choose 2 : ℝ) * (mu + eta) := by
  have h := orderedProbAux_error hl hu hm h₁ hg T [] (by simpa using hc) ops.one 1 hl.one (by norm_num)
  rw [← orderedProb_rat g hs]
  unfold orderedProb
  refine h.trans ?_
  rw [hone]
  simp

end error

/-! ### The graph in doubles -/

theorem mapM_map_py {α α' β β' : Type} {f : α → Py β} {f' : α' → Py β'} {a : α → α'} {b : β → β'} :
    ∀ (l : List α), (∀ x ∈ l, f' (a x) = (f x).map b) → (l.map a).mapM f' = (l.mapM f).map (List.map b)
  | [], _ => rfl
  | x :: l, h => by
    have ih := mapM_map_py l fun y hy => h y (by simp [hy])
    rw [List.map_cons, List.mapM_cons, List.mapM_cons, h x (by simp), ih]
    rcases f x with e | y
    · rfl
    · rcases l.mapM f with e | ys <;> rfl

/-- The digraph with every weight rounded. -/
noncomputable def DiG.rounded (g : DiG) : DiGF :=
  { nodes := g.nodes, edges := g.edges.map fun e => (e.1, fl ((e.2 : ℚ) : ℝ)) }

theorem lookup_map_snd {α β γ : Type} [BEq α] (f : β → γ) (k : α) :
    ∀ l : List (α × β), (l.map fun e => (e.1, f e.2)).lookup k = (l.lookup k).map f
  | [] => rfl
  | (a, b) :: l => by
    rw [List.map_cons, List.lookup_cons, List.lookup_cons]
    cases k == a
    · exact lookup_map_snd f k l
    · rfl

theorem weight_rounded (g : DiG) (u v : ℕ) : g.rounded.weight u v = (g.weight u v).map fun p : ℚ => fl ((p : ℚ) : ℝ) :=
  lookup_map_snd (fun p : ℚ => fl ((p : ℚ) : ℝ)) (u, v) g.edges

theorem intDivF_eq (a b : ℕ) : intDivF a b = (pyDiv (a : ℤ) (b : ℤ)).map fun p => fl ((p : ℚ) : ℝ) := by
  unfold intDivF pyDiv
  by_cases hb : b = 0
  · simp [hb, Except.map]
  · rw [if_neg hb, if_neg (by exact_mod_cast hb)]
    simp [Except.map]

theorem confidenceGraphF_eq (Y : Cmp) : confidenceGraphF Y = (confidenceGraph Y).map DiG.rounded := by
  have hc : ∀ e ∈ corNonzero Y, confidenceF Y (id e) =
      (confidence Y e).map fun e : (ℕ × ℕ) × ℚ => (e.1, fl ((e.2 : ℚ) : ℝ)) := by
    intro e _
    unfold confidenceF confidence
    rw [id, intDivF_eq]
    rcases pyDiv _ _ with er | p <;> rfl
  have hm := mapM_map_py (corNonzero Y) hc
  rw [List.map_id] at hm
  unfold confidenceGraphF confidenceGraph
  rw [hm]
  rcases (corNonzero Y).mapM (confidence Y) with er | es
  · rfl
  · show Except.ok _ = Except.ok _
    congr 1
    unfold DiG.rounded
    simp only
    congr 1
    rw [List.filter_map]
    rfl

/-- The undirected weight in doubles, from the exact directed weights. -/
noncomputable def weightF (g : DiG) (e : ℕ × ℕ) : ℝ :=
  connectF (fl (((g.weight e.1 e.2).getD 0 : ℚ) : ℝ)) (fl (((g.weight e.2 e.1).getD 0 : ℚ) : ℝ))

theorem connectF_comm (p q : ℝ) : connectF p q = connectF q p := by
  unfold connectF
  rw [mul_comm]

theorem weightF_swap (g : DiG) (u v : ℕ) : weightF g (u, v) = weightF g (v, u) := connectF_comm _ _

/-- The graph with other weights. -/
def UGraph.reweigh {K K' : Type} (h : ℕ × ℕ → K') (g : UGraph K) : UGraph K' :=
  { nodes := g.nodes, edges := g.edges.map fun e => (e.1, h e.1) }

theorem weight_reweigh {K K' : Type} {h : ℕ × ℕ → K'} (hs : ∀ u v, h (u, v) = h (v, u)) (g : UGraph K)
    (u v : ℕ) : (g.reweigh h).weight u v = (g.weight u v).map fun _ => h (u, v) := by
  unfold UGraph.weight UGraph.reweigh
  simp only [List.find?_map]
  have hf : (UGraph.joins u v ∘ fun e : (ℕ × ℕ) × K => (e.1, h e.1)) = UGraph.joins u v := rfl
  rw [hf]
  rcases hfind : g.edges.find? (UGraph.joins u v) with _ | e
  · rfl
  · have := List.find?_some hfind
    simp only [Option.map_some, Option.some.injEq]
    unfold UGraph.joins at this
    simp only [Bool.or_eq_true, beq_iff_eq] at this
    rcases this with h1 | h1
    · rw [h1]
    · rw [h1, hs]

theorem adj_reweigh {K K' : Type} {h : ℕ × ℕ → K'} (hs : ∀ u v, h (u, v) = h (v, u)) (g : UGraph K)
    (u v : ℕ) : (g.reweigh h).Adj u v ↔ g.Adj u v := by
  unfold UGraph.Adj
  rw [weight_reweigh hs]
  simp only [Option.map_eq_some_iff]
  constructor
  · rintro ⟨_, w, hw, _⟩; exact ⟨w, hw⟩
  · rintro ⟨w, hw⟩; exact ⟨_, w, hw, rfl⟩

theorem wf_reweigh {K K' : Type} {h : ℕ × ℕ → K'} (hs : ∀ u v, h (u, v) = h (v, u)) {g : UGraph K}
    (hg : g.WF) : (g.reweigh h).WF := by
  refine ⟨hg.nodup, ?_, ?_⟩
  · intro e he
    obtain ⟨d, hd, rfl⟩ := List.mem_map.mp he
    exact hg.ends d hd
  · intro e he
    obtain ⟨d, hd, rfl⟩ := List.mem_map.mp he
    simp only
    rw [weight_reweigh hs, hg.simple d hd]
    rfl

theorem connectivityGraphF_eq (g : DiG) :
    connectivityGraphF g.rounded = (connectivityGraph g).map (UGraph.reweigh (weightF g)) := by
  have hc : ∀ e ∈ g.edges, connectEdgeF g.rounded ((fun e : (ℕ × ℕ) × ℚ => (e.1, fl ((e.2 : ℚ) : ℝ))) e) =
      (connectEdge g e).map (Option.map fun e : (ℕ × ℕ) × ℚ => (e.1, weightF g e.1)) := by
    intro e _
    unfold connectEdgeF connectEdge
    simp only [weight_rounded]
    by_cases hlt : e.1.1 < e.1.2
    · rw [if_pos hlt, if_pos hlt]
      rcases h1 : g.weight e.1.1 e.1.2 with _ | p <;> rcases h2 : g.weight e.1.2 e.1.1 with _ | q
      · rfl
      · rfl
      · rfl
      · simp [Except.map, weightF, h1, h2]
    · rw [if_neg hlt, if_neg hlt]
      rfl
  have hm := mapM_map_py g.edges hc
  unfold connectivityGraphF connectivityGraph
  show (do let es ← (g.edges.map _).mapM (connectEdgeF g.rounded); _) = _
  rw [hm]
  rcases g.edges.mapM (connectEdge g) with er | es
  · rfl
  · show Except.ok _ = Except.ok _
    congr 1
    unfold UGraph.reweigh
    congr 1
    induction es with
    | nil => rfl
    | cons o es ih =>
      cases o with
      | none => simpa [List.reduceOption] using ih
      | some e => simpa [List.reduceOption] using ih

theorem connectF_error {p q : ℝ} (hp : 0 ≤ p ∧ p ≤ 1) (hq : 0 ≤ q ∧ q ≤ 1) :
    Prob53 (connectF (fl p) (fl q)) ∧
      |connectF (fl p) (fl q) - (1 - (1 - p) * (1 - q))| ≤ 6 / 2 ^ 53 := by
  have side : ∀ {x : ℝ}, 0 ≤ x ∧ x ≤ 1 →
      (0 ≤ fl (1 - fl x) ∧ fl (1 - fl x) ≤ 1) ∧ |fl (1 - fl x) - (1 - x)| ≤ 2 / 2 ^ 53 := by
    intro x hx
    have h1 := fl_unit hx
    have h2 : 0 ≤ 1 - fl x ∧ 1 - fl x ≤ 1 := ⟨by linarith [h1.2], by linarith [h1.1]⟩
    refine ⟨fl_unit h2, ?_⟩
    have e1 : |fl x - x| ≤ 1 / 2 ^ 53 := flp_error_unit 52 hx.1 hx.2
    have e2 : |fl (1 - fl x) - (1 - fl x)| ≤ 1 / 2 ^ 53 := flp_error_unit 52 h2.1 h2.2
    rw [abs_le] at *
    constructor <;> linarith [e1.1, e1.2, e2.1, e2.2]
  obtain ⟨hA, eA⟩ := side hp
  obtain ⟨hB, eB⟩ := side hq
  have hAB := mul_unit hA hB
  have hq' : 0 ≤ 1 - q ∧ 1 - q ≤ 1 := ⟨by linarith [hq.2], by linarith [hq.1]⟩
  have e1 := abs_mul_sub (b := fl (1 - fl q)) (x := 1 - p) hA hq'
  have e2 : |fl (fl (1 - fl p) * fl (1 - fl q)) - fl (1 - fl p) * fl (1 - fl q)| ≤ 1 / 2 ^ 53 :=
    flp_error_unit 52 hAB.1 hAB.2
  have hM := fl_unit hAB
  have hW : 0 ≤ 1 - fl (fl (1 - fl p) * fl (1 - fl q)) ∧ 1 - fl (fl (1 - fl p) * fl (1 - fl q)) ≤ 1 :=
    ⟨by linarith [hM.2], by linarith [hM.1]⟩
  refine ⟨prob53_fl hW, ?_⟩
  have e3 : |connectF (fl p) (fl q) - (1 - fl (fl (1 - fl p) * fl (1 - fl q)))| ≤ 1 / 2 ^ 53 :=
    flp_error_unit 52 hW.1 hW.2
  have e4 := e1.trans (add_le_add eA eB)
  rw [abs_le] at e2 e3 e4 ⊢
  constructor <;> linarith [e4.1, e4.2, e2.1, e2.2, e3.1, e3.2]

end Verif
