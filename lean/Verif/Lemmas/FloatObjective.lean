/-
Error bounds for the objectives in double precision.
-/
import Verif.Lemmas.FloatGraph
import Verif.Lemmas.Approx
import Verif.Props.FloatGraph
import Verif.Model.FloatObjective
import Verif.Spec.FloatObjective

namespace Verif
open Cmp

/-- Half a unit in the last place of one. -/
local notation "u" => (1 / 2 ^ 53 : ℝ)

theorem u_pos : (0 : ℝ) < u := by positivity

theorem u_small : u ≤ 1 / 1024 := by norm_num

theorem abs_log_one_add {a η : ℝ} (h : |a| ≤ η) (hη : η ≤ 1 / 4) : |Real.log (1 + a)| ≤ 2 * η := by
  rw [abs_le] at h ⊢
  have hpos : 0 < 1 + a := by linarith
  have h1 := Real.log_le_sub_one_of_pos hpos
  have h2 := Real.one_sub_inv_le_log_of_pos hpos
  refine ⟨?_, by linarith [h.1, h.2]⟩
  have h3 : -(2 * η) ≤ 1 - (1 + a)⁻¹ := by
    have : (1 + a)⁻¹ ≤ 1 + 2 * η := by
      rw [inv_le_iff_one_le_mul₀ hpos]
      nlinarith [h.1, h.2]
    linarith
  linarith

/-- Dividing an approximate value by an approximate one. -/
theorem div_error {a s x m : ℝ} (hx : 0 < x) (hm : 0 ≤ m) (hm1 : m ≤ 1 / 16) (ha : |a - x| ≤ m * x)
    (hs : |s - 1| ≤ 3 * u) : |fl (a / s) - x| ≤ (m + 6 * u) * x ∧ 0 < a / s := by
  have hu := u_pos
  have hu1 := u_small
  generalize hug : u = v at *
  rw [abs_le] at ha hs
  have hs0 : 0 < s := by linarith [hs.1]
  have ha0 : 0 < a := by nlinarith [ha.1]
  have hd0 : 0 < a / s := by positivity
  have he := fl_error (a / s)
  rw [hug, abs_of_pos hd0, abs_le] at he
  refine ⟨?_, hd0⟩
  have hup : a / s ≤ x * (1 + m) / (1 - 3 * v) := by
    rw [div_le_div_iff₀ hs0 (by linarith)]
    have k1 : a ≤ x * (1 + m) := by linarith [ha.2]
    have k2 : 1 - 3 * v ≤ s := by linarith [hs.1]
    exact mul_le_mul k1 k2 (by linarith) (by positivity)
  have hlo : x * (1 - m) / (1 + 3 * v) ≤ a / s := by
    rw [div_le_div_iff₀ (by linarith) hs0]
    have k1 : x * (1 - m) ≤ a := by linarith [ha.1]
    have k2 : s ≤ 1 + 3 * v := by linarith [hs.2]
    exact mul_le_mul k1 k2 hs0.le ha0.le
  have hup2 : x * (1 + m) / (1 - 3 * v) * (1 + v) ≤ x * (1 + m + 6 * v) := by
    rw [div_mul_eq_mul_div, div_le_iff₀ (by linarith)]
    have : (1 + m) * (1 + v) ≤ (1 + m + 6 * v) * (1 - 3 * v) := by nlinarith
    nlinarith
  have hlo2 : x * (1 - m - 6 * v) ≤ x * (1 - m) / (1 + 3 * v) * (1 - v) := by
    rw [div_mul_eq_mul_div, le_div_iff₀ (by linarith)]
    have : (1 - m - 6 * v) * (1 + 3 * v) ≤ (1 - m) * (1 - v) := by nlinarith
    nlinarith
  rw [abs_le]
  constructor
  · have := mul_le_mul_of_nonneg_right hlo (by linarith : (0 : ℝ) ≤ 1 - v)
    nlinarith [he.1]
  · have := mul_le_mul_of_nonneg_right hup (by linarith : (0 : ℝ) ≤ 1 + v)
    nlinarith [he.2]

/-- A pair of complementary probabilities, rounded and normalised. -/
theorem normalise_error {p N : ℝ} (hp : 0 < p) (hN : 1 ≤ N) (hN2 : N ≤ 2 ^ 26) (h1 : 1 ≤ N * (1 - p)) :
    (|fl (fl p / fl (fl p + fl (1 - fl p))) - p| ≤ (N + 8) * u * p ∧
      fl (fl p / fl (fl p + fl (1 - fl p))) ≤ 1) ∧
    (|fl (fl (1 - fl p) / fl (fl p + fl (1 - fl p))) - (1 - p)| ≤ (N + 8) * u * (1 - p) ∧
      fl (fl (1 - fl p) / fl (fl p + fl (1 - fl p))) ≤ 1) := by
  have hu := u_pos
  have hu1 := u_small
  have huN : N * u ≤ 1 / 2 ^ 27 := by
    calc N * u ≤ 2 ^ 26 * u := mul_le_mul_of_nonneg_right hN2 hu.le
      _ = 1 / 2 ^ 27 := by norm_num
  have hq : 0 < 1 - p := by nlinarith
  have e1 := fl_error p
  have e2 := fl_error (1 - fl p)
  have e3 := fl_error (fl p + fl (1 - fl p))
  have hu27 : (1 / 2 ^ 27 : ℝ) ≤ 1 / 100 := by norm_num
  have hfp : fl p ≤ 1 := by simpa [fl_one] using fl_mono hp.le (show p ≤ 1 by linarith)
  have hp'0 : 0 ≤ fl p := fl_nonneg hp.le
  have hp10 : 0 ≤ fl (1 - fl p) := fl_nonneg (by linarith)
  have g0 : fl p ≤ fl (fl p + fl (1 - fl p)) := fl_add_ge (double_fl _) hp'0 hp10
  have g1 : fl (1 - fl p) ≤ fl (fl p + fl (1 - fl p)) := by
    rw [add_comm]
    exact fl_add_ge (double_fl _) hp10 hp'0
  generalize fl p = p' at *
  generalize fl (1 - p') = p1 at *
  generalize fl (p' + p1) = s at *
  have div := fun (a x m : ℝ) => div_error (a := a) (s := s) (x := x) (m := m)
  generalize hug : u = v at *
  rw [abs_of_pos hp, abs_le] at e1
  rw [abs_of_nonneg (by linarith : (0:ℝ) ≤ 1 - p'), abs_le] at e2
  have hsum : |p' + p1 - 1| ≤ v := by
    rw [abs_le]
    have : v * (1 - p') ≤ v := by nlinarith [e1.1, e1.2]
    constructor <;> linarith [e2.1, e2.2]
  have hs : |s - 1| ≤ 3 * v := by
    rw [abs_le] at hsum
    rw [abs_of_nonneg (by linarith : (0:ℝ) ≤ p' + p1), abs_le] at e3
    rw [abs_le]
    constructor <;> nlinarith [e3.1, e3.2, hsum.1, hsum.2]
  have m1 : |p1 - (1 - p)| ≤ (N + 2) * v * (1 - p) := by
    have k1 : v * p ≤ N * v * (1 - p) := by nlinarith
    have k2 : v * (1 - p') ≤ 2 * v * (1 - p) := by
      have : 1 - p' ≤ 2 * (1 - p) := by nlinarith [e1.1]
      nlinarith
    rw [abs_le]
    constructor <;> nlinarith [e1.1, e1.2, e2.1, e2.2]
  have d0 := div p' p v hp hu.le (by linarith) (by rw [abs_le]; exact ⟨by linarith [e1.1], by linarith [e1.2]⟩) hs
  have d1 := div p1 (1 - p) ((N + 2) * v) hq (by positivity) (by linarith) m1 hs
  have hNv : 0 ≤ N * v := by positivity
  have r0 : |fl (p' / s) - p| ≤ (N + 8) * v * p := by
    refine d0.1.trans (mul_le_mul_of_nonneg_right ?_ hp.le)
    linarith
  have r1 : |fl (p1 / s) - (1 - p)| ≤ (N + 8) * v * (1 - p) := by
    refine d1.1.trans (mul_le_mul_of_nonneg_right ?_ hq.le)
    linarith
  have hs0 : 0 < s := by rw [abs_le] at hs; linarith [hs.1]
  have le1 : ∀ a, 0 ≤ a → a ≤ s → fl (a / s) ≤ 1 := by
    intro a ha has
    have := fl_mono (div_nonneg ha hs0.le) ((div_le_one hs0).mpr has)
    rwa [fl_one] at this
  exact ⟨⟨r0, le1 _ hp'0 g0⟩, r1, le1 _ hp10 g1⟩

/-- The error of one term of the divergence. -/
theorem term_error {ε : ℝ} {rel : ℝ → ℝ → ℝ} (hrel : RelEntrAccurate ε rel) (hε : 0 ≤ ε) {x y x' y' η L : ℝ}
    (hx : 0 < x) (hx1 : x ≤ 1) (hy : 0 < y) (hη : η ≤ 1 / 16) (hL : |Real.log (x / y)| ≤ L)
    (hx'1 : x' ≤ 1) (ex : |x' - x| ≤ η * x) (ey : |y' - y| ≤ η * y) :
    |rel x' y' - x * Real.log (x / y)| ≤ (η + ε) * (L + 5) := by
  have hη0 : 0 ≤ η := by
    have := (abs_nonneg _).trans ex
    by_contra hc
    push Not at hc
    nlinarith
  have hL0 : 0 ≤ L := (abs_nonneg _).trans hL
  have hx'0 : 0 < x' := by rw [abs_le] at ex; nlinarith [ex.1]
  have hy'0 : 0 < y' := by rw [abs_le] at ey; nlinarith [ey.1]
  have lx : |Real.log (x' / x)| ≤ 2 * η := by
    have : x' / x = 1 + (x' - x) / x := by field_simp; ring
    rw [this]
    refine abs_log_one_add ?_ (by linarith)
    rw [abs_div, abs_of_pos hx, div_le_iff₀ hx]
    exact ex
  have ly : |Real.log (y' / y)| ≤ 2 * η := by
    have : y' / y = 1 + (y' - y) / y := by field_simp; ring
    rw [this]
    refine abs_log_one_add ?_ (by linarith)
    rw [abs_div, abs_of_pos hy, div_le_iff₀ hy]
    exact ey
  have hlog : Real.log (x' / y') = Real.log (x / y) + Real.log (x' / x) - Real.log (y' / y) := by
    rw [Real.log_div hx'0.ne' hy'0.ne', Real.log_div hx.ne' hy.ne', Real.log_div hx'0.ne' hx.ne',
      Real.log_div hy'0.ne' hy.ne']
    ring
  have hc := hrel.close x' y' hx'0 hx'1 hy'0
  have hdl : |Real.log (x' / y') - Real.log (x / y)| ≤ 4 * η := by
    rw [hlog]
    have : Real.log (x / y) + Real.log (x' / x) - Real.log (y' / y) - Real.log (x / y) =
      Real.log (x' / x) - Real.log (y' / y) := by ring
    rw [this]
    exact (abs_sub _ _).trans (by linarith)
  have hl' : |Real.log (x' / y')| ≤ L + 4 * η := by
    have := abs_add_le (Real.log (x' / y') - Real.log (x / y)) (Real.log (x / y))
    rw [sub_add_cancel] at this
    linarith
  have hv : |x' * Real.log (x' / y') - x * Real.log (x / y)| ≤ η * (L + 4 * η) + 4 * η := by
    have : x' * Real.log (x' / y') - x * Real.log (x / y) =
      (x' - x) * Real.log (x' / y') + x * (Real.log (x' / y') - Real.log (x / y)) := by ring
    rw [this]
    refine (abs_add_le _ _).trans ?_
    rw [abs_mul, abs_mul, abs_of_pos hx]
    refine add_le_add (mul_le_mul (ex.trans (by nlinarith)) hl' (abs_nonneg _) hη0) ?_
    calc x * |Real.log (x' / y') - Real.log (x / y)| ≤ 1 * (4 * η) :=
          mul_le_mul hx1 hdl (abs_nonneg _) (by norm_num)
      _ = 4 * η := one_mul _
  have hm : |x' * Real.log (x' / y')| ≤ L + 4 * η := by
    rw [abs_mul, abs_of_pos hx'0]
    calc x' * |Real.log (x' / y')| ≤ 1 * (L + 4 * η) :=
          mul_le_mul hx'1 hl' (abs_nonneg _) (by norm_num)
      _ = _ := one_mul _
  have := abs_add_le (rel x' y' - x' * Real.log (x' / y')) (x' * Real.log (x' / y') - x * Real.log (x / y))
  rw [sub_add_sub_cancel] at this
  refine this.trans ?_
  have hc2 : |rel x' y' - x' * Real.log (x' / y')| ≤ ε * (1 + (L + 4 * η)) :=
    hc.trans (mul_le_mul_of_nonneg_left (by linarith) hε)
  have k1 : ε * (1 + (L + 4 * η)) ≤ ε * (L + 5) := mul_le_mul_of_nonneg_left (by linarith) hε
  have k2 : η * (L + 4 * η) + 4 * η ≤ η * (L + 5) := by nlinarith
  linarith

/-- Two numbers between `1/N` and one have logarithms that differ by at most `log N`. -/
theorem abs_log_div_le {x y N : ℝ} (hN : 1 ≤ N) (hx : 1 ≤ N * x) (hx1 : x ≤ 1) (hy : 1 ≤ N * y) (hy1 : y ≤ 1) :
    |Real.log (x / y)| ≤ Real.log N := by
  have hx0 : 0 < x := by nlinarith
  have hy0 : 0 < y := by nlinarith
  have k : ∀ z : ℝ, 0 < z → 1 ≤ N * z → z ≤ 1 → -Real.log N ≤ Real.log z ∧ Real.log z ≤ 0 := by
    intro z hz h1 h2
    refine ⟨?_, Real.log_nonpos hz.le h2⟩
    have := Real.log_nonneg h1
    rw [Real.log_mul (by positivity) hz.ne'] at this
    linarith
  rw [Real.log_div hx0.ne' hy0.ne', abs_le]
  have a := k x hx0 hx hx1
  have b := k y hy0 hy hy1
  constructor <;> linarith [a.1, a.2, b.1, b.2]

/-- What is known of one of the two terms of the divergence. -/
def Coord (L η x y x' y' : ℝ) : Prop :=
  (x = 0 ∧ x' = 0 ∧ 0 ≤ y') ∨
  (0 < x ∧ x ≤ 1 ∧ 0 < y ∧ |Real.log (x / y)| ≤ L ∧ x' ≤ 1 ∧ |x' - x| ≤ η * x ∧ |y' - y| ≤ η * y)

theorem Coord.error {ε : ℝ} {rel : ℝ → ℝ → ℝ} (hrel : RelEntrAccurate ε rel) (hε : 0 ≤ ε) {x y x' y' η L : ℝ}
    (hη0 : 0 ≤ η) (hη : η ≤ 1 / 16) (hL : 0 ≤ L) (h : Coord L η x y x' y') :
    |rel x' y' - x * Real.log (x / y)| ≤ (η + ε) * (L + 5) ∧ |x * Real.log (x / y)| ≤ L := by
  rcases h with ⟨rfl, rfl, hy⟩ | ⟨h1, h2, h3, h4, h5, h6, h7⟩
  · rw [hrel.zero y' hy]
    simp only [zero_mul, sub_self, abs_zero]
    exact ⟨by positivity, hL⟩
  · refine ⟨term_error hrel hε h1 h2 h3 hη h4 h5 h6 h7, ?_⟩
    rw [abs_mul, abs_of_pos h1]
    calc x * |Real.log (x / y)| ≤ 1 * L := mul_le_mul h2 h4 (abs_nonneg _) (by norm_num)
      _ = L := one_mul L

/-- The exact divergence of two Bernoulli laws. -/
theorem entropyF_error {ε : ℝ} {rel : ℝ → ℝ → ℝ} (hrel : RelEntrAccurate ε rel) (hε : 0 ≤ ε) {p q : ℝ} {N : ℕ}
    (hN : 1 ≤ N) (hN2 : N ≤ 2 ^ 26) (hp : p = 0 ∨ 1 ≤ N * p) (hp1 : p = 1 ∨ 1 ≤ N * (1 - p))
    (hq : q = 0 ∨ 1 ≤ N * q) (hq1 : q = 1 ∨ 1 ≤ N * (1 - q)) (h0 : p = 0 → q = 0) (h0' : q = 0 → p = 0)
    (h1 : q = 1 → p = 1) :
    |entropyF rel (fl p) (fl (1 - fl p)) (fl q) (fl (1 - fl q)) -
      (p * Real.log (p / q) + (1 - p) * Real.log ((1 - p) / (1 - q)))| ≤ klSlack ε N ∧
    |p * Real.log (p / q) + (1 - p) * Real.log ((1 - p) / (1 - q))| ≤ 2 * Real.log N := by
  have hNr : (1 : ℝ) ≤ N := by exact_mod_cast hN
  have hN2r : (N : ℝ) ≤ 2 ^ 26 := by exact_mod_cast hN2
  have hL : 0 ≤ Real.log N := Real.log_nonneg hNr
  have hu := u_pos
  have hη0 : (0 : ℝ) ≤ ((N : ℝ) + 8) * u := by positivity
  have hη : ((N : ℝ) + 8) * u ≤ 1 / 16 := by
    calc ((N : ℝ) + 8) * u ≤ (2 ^ 26 + 8) * u := mul_le_mul_of_nonneg_right (by linarith) hu.le
      _ ≤ 1 / 16 := by norm_num
  have fl01 : fl (1 - fl 0) = 1 := by rw [fl_zero, sub_zero, fl_one]
  have fl11 : fl (1 - fl 1) = 0 := by rw [fl_one, sub_self, fl_zero]
  have key : Coord (Real.log N) (((N : ℝ) + 8) * u) p q (fl (fl p / fl (fl p + fl (1 - fl p))))
        (fl (fl q / fl (fl q + fl (1 - fl q)))) ∧
      Coord (Real.log N) (((N : ℝ) + 8) * u) (1 - p) (1 - q) (fl (fl (1 - fl p) / fl (fl p + fl (1 - fl p))))
        (fl (fl (1 - fl q) / fl (fl q + fl (1 - fl q)))) := by
    rcases hq with rfl | hq
    · have := h0' rfl
      subst this
      rw [fl01, fl_zero, zero_add, fl_one, zero_div, fl_zero, div_one, fl_one, sub_zero]
      refine ⟨Or.inl ⟨rfl, rfl, le_rfl⟩, Or.inr ⟨one_pos, le_rfl, one_pos, by simpa using hL, le_rfl, ?_, ?_⟩⟩ <;>
        simpa using hη0
    rcases hq1 with rfl | hq1
    · have := h1 rfl
      subst this
      rw [fl11, fl_one, add_zero, fl_one, zero_div, fl_zero, div_one, fl_one, sub_self]
      refine ⟨Or.inr ⟨one_pos, le_rfl, one_pos, by simpa using hL, le_rfl, ?_, ?_⟩, Or.inl ⟨rfl, rfl, le_rfl⟩⟩ <;>
        simpa using hη0
    have hq0 : 0 < q := by nlinarith
    have hq10 : 0 < 1 - q := by nlinarith
    obtain ⟨⟨b1, b2⟩, b3, b4⟩ := normalise_error hq0 hNr hN2r hq1
    have hpN : 1 ≤ N * p := by
      rcases hp with rfl | h
      · exact absurd (h0 rfl) hq0.ne'
      · exact h
    have hp0 : 0 < p := by nlinarith
    have hq1le : q ≤ 1 := by linarith
    rcases hp1 with rfl | hp1
    · rw [fl11, fl_one, add_zero, fl_one, zero_div, fl_zero, div_one, fl_one, sub_self]
      refine ⟨Or.inr ⟨one_pos, le_rfl, hq0, abs_log_div_le hNr hpN le_rfl hq hq1le, le_rfl, by simpa using hη0, b1⟩,
        Or.inl ⟨rfl, rfl, ?_⟩⟩
      rw [abs_le] at b3
      nlinarith [b3.1]
    have hp10 : 0 < 1 - p := by nlinarith
    obtain ⟨⟨a1, a2⟩, a3, a4⟩ := normalise_error hp0 hNr hN2r hp1
    exact ⟨Or.inr ⟨hp0, by linarith, hq0, abs_log_div_le hNr hpN (by linarith) hq hq1le, a2, a1, b1⟩,
      Or.inr ⟨hp10, by linarith, hq10, abs_log_div_le hNr hp1 (by linarith) hq1 (by linarith), a4, a3, b3⟩⟩
  obtain ⟨t1, s1⟩ := key.1.error hrel hε hη0 hη hL
  obtain ⟨t2, s2⟩ := key.2.error hrel hε hη0 hη hL
  have hsum : |p * Real.log (p / q) + (1 - p) * Real.log ((1 - p) / (1 - q))| ≤ 2 * Real.log N :=
    (abs_add_le _ _).trans (by linarith)
  refine ⟨?_, hsum⟩
  unfold entropyF
  generalize rel _ _ = A at *
  generalize rel _ _ = B at *
  generalize p * Real.log (p / q) = a at *
  generalize (1 - p) * Real.log ((1 - p) / (1 - q)) = b at *
  have hf := fl_error (A + B)
  have hT : klSlack ε N = 3 * ((((N : ℝ) + 8) * u + ε) * (Real.log N + 5)) := by unfold klSlack; ring
  rw [hT]
  have hT8 : 8 * u * (Real.log N + 5) ≤ (((N : ℝ) + 8) * u + ε) * (Real.log N + 5) :=
    mul_le_mul_of_nonneg_right (by nlinarith) (by linarith)
  generalize (((N : ℝ) + 8) * u + ε) * (Real.log N + 5) = T at *
  generalize Real.log N = L at *
  have hu1 := u_small
  generalize u = v at *
  have hAB : |A + B - (a + b)| ≤ 2 * T := by
    have : A + B - (a + b) = (A - a) + (B - b) := by ring
    rw [this]
    exact (abs_add_le _ _).trans (by linarith)
  have hABs : |A + B| ≤ 2 * L + 2 * T := by
    have := abs_add_le (A + B - (a + b)) (a + b)
    rw [sub_add_cancel] at this
    linarith
  have := abs_add_le (fl (A + B) - (A + B)) (A + B - (a + b))
  rw [sub_add_sub_cancel] at this
  refine this.trans ?_
  have hT0 : 0 ≤ T := by nlinarith
  have : v * |A + B| ≤ v * (2 * L + 2 * T) := mul_le_mul_of_nonneg_left hABs hu.le
  nlinarith

/-- A ratio of counts out of at most `N` is zero or at least `1/N`, and one or at most `1 - 1/N`. -/
theorem ratio_gap {a h N : ℕ} (hh : 0 < h) (hhN : h ≤ N) (ha : a ≤ h) :
    ((a : ℝ) / h = 0 ∨ 1 ≤ N * ((a : ℝ) / h)) ∧ ((a : ℝ) / h = 1 ∨ 1 ≤ N * (1 - (a : ℝ) / h)) := by
  have hhr : (0 : ℝ) < h := by exact_mod_cast hh
  have hNr : (h : ℝ) ≤ N := by exact_mod_cast hhN
  constructor
  · rcases Nat.eq_zero_or_pos a with rfl | h0
    · left; simp
    · right
      have : (1 : ℝ) ≤ a := by exact_mod_cast h0
      rw [← mul_div_assoc, le_div_iff₀ hhr]
      nlinarith
  · rcases ha.eq_or_lt with rfl | h0
    · left; exact div_self hhr.ne'
    · right
      have : (a : ℝ) + 1 ≤ h := by exact_mod_cast h0
      have e : 1 - (a : ℝ) / h = ((h : ℝ) - a) / h := by field_simp
      rw [e, ← mul_div_assoc, le_div_iff₀ hhr]
      nlinarith

/-- The divergence of a bound rule in doubles. -/
theorem klF_error {ε : ℝ} {rel : ℝ → ℝ → ℝ} (hrel : RelEntrAccurate ε rel) (hε : 0 ≤ ε) {X Y : Cmp}
    (hn : X.nMajor = Y.nMajor) (hN : X.nMajor < 2 ^ 26) {b : BRule} (hb : BoundTo X Y b) :
    ∃ k kF, b.klReal = .ok k ∧ b.KL = .ok (k : EReal) ∧ b.klF rel = .ok kF ∧ |kF - k| ≤ klSlack ε X.nMajor ∧
      |k| ≤ 2 * Real.log X.nMajor := by
  obtain ⟨⟨head, tail, hbind⟩, h0, -⟩ := hb
  have ht := bindDataset_toRule hbind
  have h0' : ∀ l ∈ tail, 0 ≤ l := by
    intro l hl
    apply h0
    rw [ht]; exact (Rule.mem_new_tail _ _ _).mpr hl
  have h0'' : ∀ l ∈ (Rule.new head tail).tail, 0 ≤ l := fun l hl => h0' l ((Rule.mem_new_tail _ _ _).mp hl)
  obtain ⟨p, q, k, hp, hq, hk, hk0, hkz, hkf⟩ := C12_KL X.flip Y.flip (wf_flip X) (wf_flip Y)
    (by simpa using hn) head tail h0' b hbind
  obtain ⟨p', q', hp', hq', hp0, hp1, hq0, hq1, hz, ho⟩ := rates_for_KL X.flip Y.flip (wf_flip X) (wf_flip Y)
    (by simpa using hn) head tail h0' b hbind
  rw [hp] at hp'; cases hp'
  rw [hq] at hq'; cases hq'
  have hX := wf_flip X
  have hY := wf_flip Y
  obtain ⟨h1, -, -, -, i, hi⟩ := bindDataset_inv hX hY h0'' hbind
  have hbr := bindDataset_eq hX hY (by simpa using hn) h0'' hbind
  have hhN : b.headSupport.card ≤ X.nMajor := by
    rw [hbr]
    exact (Finset.card_le_card (Finset.filter_subset _ _)).trans (by simp)
  have htN : b.tailSupport.card ≤ X.nMajor := by
    rw [hbr]
    exact (Finset.card_le_card (Finset.filter_subset _ _)).trans (by simp [hn])
  have hsh : b.support.card ≤ b.headSupport.card := by
    rw [hbr]
    exact Finset.card_le_card fun x hx => by
      simp only [boundRule, Finset.mem_filter] at hx ⊢
      exact ⟨hx.1, hx.2.1⟩
  have hhp : 0 < b.headSupport.card := by
    rw [hbr]
    exact Finset.card_pos.mpr ⟨i, Finset.mem_filter.mpr ⟨Finset.mem_range.mpr (hi.lt hX h1), hi⟩⟩
  have hNb : b.N = X.nMajor := by rw [hbr]; simp [boundRule]
  have hNp : 0 < X.nMajor := by omega
  have hpe : (p : ℝ) = (b.support.card : ℝ) / b.headSupport.card := by
    unfold BRule.precision pyDiv at hp
    rw [if_neg (by exact_mod_cast hhp.ne')] at hp
    have := Except.ok.inj hp
    rw [← this]; push_cast; rfl
  have hqe : (q : ℝ) = (b.tailSupport.card : ℝ) / X.nMajor := by
    unfold BRule.baseRate pyDiv at hq
    rw [hNb, if_neg (by exact_mod_cast hNp.ne')] at hq
    have := Except.ok.inj hq
    rw [← this]; push_cast; rfl
  have hkr : b.klReal = .ok k := by simp [BRule.klReal, hk, bind, Except.bind, pure, Except.pure]
  have hkF : b.klF rel = .ok (if (p : ℝ) < q then 0 else
      entropyF rel (fl p) (fl (1 - fl p)) (fl q) (fl (1 - fl q))) := by
    have hbr2 := (C129_kl X.flip Y.flip hX hY (by simpa using hn) (by simpa using hN) (Rule.new head tail) h0'' b
      hbind).1
    unfold klBranchF klBranch intDivF at hbr2
    rw [hp, hq, if_neg hhp.ne', hNb, if_neg hNp.ne', ← hpe, ← hqe] at hbr2
    have hiff : fl (p : ℝ) < fl (q : ℝ) ↔ (p : ℝ) < q := by
      have := decide_eq_decide.mp (Except.ok.inj hbr2)
      rw [this]
      exact_mod_cast Iff.rfl
    unfold BRule.klF intDivF
    rw [if_neg hhp.ne', hNb, if_neg hNp.ne', ← hpe, ← hqe]
    simp only [bind, Except.bind, pure, Except.pure, hiff]
    split <;> rfl
  have hslack : 0 ≤ klSlack ε X.nMajor := by
    have : 0 ≤ Real.log X.nMajor := Real.log_natCast_nonneg _
    unfold klSlack
    positivity
  by_cases hlt : (p : ℝ) < q
  · rw [if_pos hlt] at hkF
    have : k = 0 := hkz.mpr (by exact_mod_cast hlt.le)
    subst this
    refine ⟨0, 0, hkr, hk, hkF, by simpa using hslack, ?_⟩
    rw [abs_zero]
    have := Real.log_natCast_nonneg X.nMajor
    positivity
  · rw [if_neg hlt] at hkF
    have hqp : q ≤ p := by exact_mod_cast not_lt.mp hlt
    rw [hkf hqp] at hkr hk
    have g1 := ratio_gap hhp hhN hsh
    have g2 := ratio_gap hNp le_rfl htN
    rw [← hpe] at g1
    rw [← hqe] at g2
    have := entropyF_error hrel hε (p := p) (q := q) (N := X.nMajor) hNp hN.le g1.1 g1.2 g2.1 g2.2
      (fun h => by
        have h' : p = 0 := by exact_mod_cast h
        have : q = 0 := le_antisymm (h' ▸ hqp) hq0
        exact_mod_cast this)
      (fun h => by exact_mod_cast hz (by exact_mod_cast h))
      (fun h => by exact_mod_cast ho (by exact_mod_cast h))
    exact ⟨_, _, hkr, hk, hkF, this.1, this.2⟩

end Verif
