import Verif.Model.Rule
import Mathlib.Analysis.SpecialFunctions.Log.Basic

namespace Verif

/-- Binary KL divergence with Lean's conventions (`log 0 = 0`, `x / 0 = 0`). -/
noncomputable def klBin (p q : ℝ) : ℝ :=
  p * Real.log (p / q) + (1 - p) * Real.log ((1 - p) / (1 - q))

/-- `x log (x/y) ≥ x - y`, strictly unless `x = y`. -/
theorem mul_log_div_ge {x y : ℝ} (hx : 0 ≤ x) (hy : 0 < y) : x - y ≤ x * Real.log (x / y) := by
  rcases hx.eq_or_lt with rfl | hx
  · simp; exact hy.le
  · have h := Real.log_le_sub_one_of_pos (div_pos hy hx)
    rw [← inv_div x y, Real.log_inv] at h
    have : 1 - (x / y)⁻¹ ≤ Real.log (x / y) := by linarith
    have h2 := mul_le_mul_of_nonneg_left this hx.le
    have : x * (1 - (x / y)⁻¹) = x - y := by field_simp
    linarith

theorem mul_log_div_gt {x y : ℝ} (hx : 0 ≤ x) (hy : 0 < y) (hne : x ≠ y) :
    x - y < x * Real.log (x / y) := by
  rcases hx.eq_or_lt with rfl | hx
  · simp; exact hy
  · have h := Real.log_lt_sub_one_of_pos (div_pos hy hx) (by
      intro h; rw [div_eq_one_iff_eq hx.ne'] at h; exact hne h.symm)
    rw [← inv_div x y, Real.log_inv] at h
    have : 1 - (x / y)⁻¹ < Real.log (x / y) := by linarith
    have h2 := mul_lt_mul_of_pos_left this hx
    have : x * (1 - (x / y)⁻¹) = x - y := by field_simp
    linarith

theorem klBin_nonneg {p q : ℝ} (hp : 0 ≤ p) (hp1 : p ≤ 1) (hq : 0 < q) (hq1 : q < 1) :
    0 ≤ klBin p q := by
  have h1 := mul_log_div_ge hp hq
  have h2 := mul_log_div_ge (x := 1 - p) (y := 1 - q) (by linarith) (by linarith)
  unfold klBin; linarith

theorem klBin_pos {p q : ℝ} (hp : 0 ≤ p) (hp1 : p ≤ 1) (hq : 0 < q) (hq1 : q < 1) (hne : p ≠ q) :
    0 < klBin p q := by
  have h1 := mul_log_div_gt hp hq hne
  have h2 := mul_log_div_ge (x := 1 - p) (y := 1 - q) (by linarith) (by linarith)
  unfold klBin; linarith

@[simp] theorem klBin_self (p : ℝ) : klBin p p = 0 := by
  unfold klBin
  rcases eq_or_ne p 0 with rfl | h0
  · simp
  · rcases eq_or_ne (1 - p) 0 with h1 | h1
    · have : p = 1 := by linarith
      subst this; simp
    · rw [div_self h0, div_self h1]; simp

theorem klBin_strictMono {p1 p2 q : ℝ} (hq : 0 < q) (hq1 : q < 1) (h1 : q ≤ p1) (h12 : p1 < p2)
    (h2 : p2 ≤ 1) : klBin p1 q < klBin p2 q := by
  rcases h1.eq_or_lt with rfl | h1
  · rw [klBin_self]
    exact klBin_pos (by linarith) h2 hq hq1 h12.ne'
  · have hp1 : 0 < p1 := by linarith
    have hp1' : p1 < 1 := by linarith
    have hpos := klBin_pos (p := p2) (q := p1) (by linarith) h2 hp1 hp1' h12.ne'
    have hA : 0 < Real.log (p1 / q) := Real.log_pos (by rw [lt_div_iff₀ hq]; linarith)
    have hB : Real.log ((1 - p1) / (1 - q)) < 0 :=
      Real.log_neg (div_pos (by linarith) (by linarith)) (by rw [div_lt_one (by linarith)]; linarith)
    have e1 : p2 * Real.log (p2 / q) = p2 * Real.log (p2 / p1) + p2 * Real.log (p1 / q) := by
      rw [← mul_add, ← Real.log_mul (div_ne_zero (by linarith) hp1.ne') (div_ne_zero hp1.ne' hq.ne')]
      congr 2; field_simp
    have e2 : (1 - p2) * Real.log ((1 - p2) / (1 - q)) =
        (1 - p2) * Real.log ((1 - p2) / (1 - p1)) + (1 - p2) * Real.log ((1 - p1) / (1 - q)) := by
      rcases eq_or_ne (1 - p2) 0 with h0 | h0
      · simp [h0]
      · have hq' : (1 - q) ≠ 0 := by linarith
        have hp' : (1 - p1) ≠ 0 := by linarith
        rw [← mul_add, ← Real.log_mul (div_ne_zero h0 hp') (div_ne_zero hp' hq')]
        congr 2; field_simp
    have key : klBin p2 q - klBin p1 q = klBin p2 p1 + (p2 - p1) * Real.log (p1 / q)
        + (p1 - p2) * Real.log ((1 - p1) / (1 - q)) := by
      unfold klBin
      rw [e1, e2]; ring
    nlinarith [mul_pos (sub_pos.mpr h12) hA, mul_pos (sub_pos.mpr h12) (neg_pos.mpr hB)]

theorem relEntr_real {x y : ℝ} (hx : 0 ≤ x) (hy : 0 < y) :
    relEntr x y = ((x * Real.log (x / y) : ℝ) : EReal) := by
  unfold relEntr
  rcases hx.eq_or_lt with rfl | hx
  · simp [hy.le]
  · rw [if_pos ⟨hx, hy⟩]

theorem relEntr_zero : relEntr 0 0 = 0 := by simp [relEntr]

/-- With `0 ≤ p ≤ 1` and `p`, `q` simultaneously extreme, `scipy.stats.entropy` is the finite binary
KL divergence. -/
theorem scipyEntropy_eq {p q : ℝ} (hp : 0 ≤ p) (hp1 : p ≤ 1) (hq : 0 ≤ q) (hq1 : q ≤ 1)
    (h0 : q = 0 → p = 0) (h1 : q = 1 → p = 1) :
    scipyEntropy p (1 - p) q (1 - q) = ((klBin p q : ℝ) : EReal) := by
  unfold scipyEntropy
  simp only [add_sub_cancel, div_one]
  rcases hq.eq_or_lt with rfl | hq
  · rw [h0 rfl, relEntr_zero, relEntr_real (by norm_num) (by norm_num), klBin_self]; simp
  · rcases hq1.eq_or_lt with rfl | hq1
    · rw [h1 rfl, klBin_self]
      simp only [sub_self]
      rw [relEntr_zero, relEntr_real (by norm_num) (by norm_num)]; simp
    · rw [relEntr_real hp hq, relEntr_real (by linarith) (by linarith), ← EReal.coe_add]
      rfl

end Verif
