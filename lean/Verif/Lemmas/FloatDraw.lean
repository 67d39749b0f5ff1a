/-
A weighted draw in double precision when the probabilities need not sum to one exactly.
-/
import Verif.Lemmas.FloatCftpRun

namespace Verif

theorem quotient_close {c L q K J : ℝ} (hq0 : 0 ≤ q) (hq1 : q ≤ 1001 / 1000) (hJ0 : 0 ≤ J) (hK0 : 0 ≤ K)
    (hK1 : K ≤ 1 / 1000) (h1 : |c - q| ≤ J) (hL : |L - 1| ≤ K) :
    |c / L - q| ≤ J * (1003 / 1000) + K * (1003 / 1000) := by
  rw [abs_le] at hL
  have hL1 : (999 : ℝ) / 1000 ≤ L := by linarith [hL.1]
  have hLpos : 0 < L := by linarith
  have e : c / L - q = (c - q * L) / L := by field_simp
  rw [e, abs_div, abs_of_pos hLpos, div_le_iff₀ hLpos]
  rw [abs_le] at h1 ⊢
  have h3 : q * (L - 1) ≤ 1001 / 1000 * K := by nlinarith [hL.1, hL.2]
  have h4 : -(1001 / 1000 * K) ≤ q * (L - 1) := by nlinarith [hL.1, hL.2]
  have h5 : 1001 / 1000 * K ≤ K * (1003 / 1000) * L := by nlinarith
  have h6 : J ≤ J * (1003 / 1000) * L := by nlinarith
  constructor <;> nlinarith [h1.1, h1.2]

theorem kahan_general {u : ℝ} (hu : u = 1 / 2 ^ 53) (p : List ℝ) (hp : ∀ q ∈ p, 0 ≤ q)
    (hn : p.length ≤ 2 ^ 23) {η : ℝ} (hη : η ≤ 1 / 2 ^ 28 + 1 / 2 ^ 30) (hs : |p.sum - 1| ≤ η) :
    |fl (kahanSum p - 1)| ≤ (2 : ℝ) ^ (-26 : ℤ) := by
  have hu0 : 0 < u := by rw [hu]; positivity
  have hη1 : η ≤ 1 / 10000 := hη.trans (by norm_num)
  have hs' := abs_le.mp hs
  have hNu : (p.length : ℝ) * u ≤ 1 / 2 ^ 30 := by
    have : (p.length : ℝ) ≤ 2 ^ 23 := by exact_mod_cast hn
    refine (mul_le_mul_of_nonneg_right this hu0.le).trans ?_
    rw [hu]
    norm_num
  have h1 := kahanSum_error hu p hp (by linarith) hn
  have h2 := fl_error (kahanSum p - 1)
  rw [← hu] at h2
  rw [abs_le] at h1
  have e8 : 8 * (p.length : ℝ) * u ≤ 1 / 2 ^ 27 := by
    have : 8 * (p.length : ℝ) * u = 8 * (p.length * u) := by ring
    rw [this]
    have : (8 : ℝ) * (1 / 2 ^ 30) = 1 / 2 ^ 27 := by norm_num
    linarith
  have h3 : |kahanSum p - 1| ≤ 1 / 2 ^ 27 + (1 / 2 ^ 28 + 1 / 2 ^ 30) := by
    rw [abs_le]
    constructor <;> linarith [h1.1, h1.2]
  have h4 : |kahanSum p - 1| ≤ 1 := h3.trans (by norm_num)
  have h5 : |fl (kahanSum p - 1) - (kahanSum p - 1)| ≤ u := h2.trans (by nlinarith)
  have h6 : (2 : ℝ) ^ (-26 : ℤ) = 1 / 2 ^ 26 := by norm_num
  have h7 : (1 : ℝ) / 2 ^ 27 + (1 / 2 ^ 28 + 1 / 2 ^ 30) + u ≤ 1 / 2 ^ 26 := by rw [hu]; norm_num
  rw [h6]
  rw [abs_le] at h3 h5 ⊢
  constructor <;> linarith [h3.1, h3.2, h5.1, h5.2]

/-- What the draw does with any probabilities whose sum is close to one. -/
theorem draw_general {u : ℝ} (hu : u = 1 / 2 ^ 53) (p : List ℝ) (hd : ∀ q ∈ p, IsDouble q) (hp : ∀ q ∈ p, 0 ≤ q)
    (hlp : 0 < p.length) (hn : p.length ≤ 2 ^ 23) {η : ℝ} (hη : η ≤ 1 / 2 ^ 28 + 1 / 2 ^ 30) (hs : |p.sum - 1| ≤ η) :
    lowerF p 0 = 0 ∧ lowerF p p.length = 1 ∧ (∀ i < p.length, lowerF p i ≤ lowerF p (i + 1)) ∧
    (∀ i < p.length, p.getD i 0 = 0 → lowerF p (i + 1) = lowerF p i) ∧
    (∀ i ≤ p.length, |lowerF p i - (p.take i).sum| ≤ 5 * p.length * u + 3 * η + u) ∧
    |fl (kahanSum p - 1)| ≤ (2 : ℝ) ^ (-26 : ℤ) := by
  have hu0 : 0 < u := by rw [hu]; positivity
  have hu1 : u ≤ 1 / 1000000 := by rw [hu]; norm_num
  have hη0 : 0 ≤ η := (abs_nonneg _).trans hs
  have hη1 : η ≤ 1 / 10000 := hη.trans (by norm_num)
  have hs' := abs_le.mp hs
  have hNu : (p.length : ℝ) * u ≤ 1 / 2 ^ 30 := by
    have : (p.length : ℝ) ≤ 2 ^ 23 := by exact_mod_cast hn
    refine (mul_le_mul_of_nonneg_right this hu0.le).trans ?_
    rw [hu]
    norm_num
  have hNu' : (p.length : ℝ) * u ≤ 1 / 10000 := hNu.trans (by norm_num)
  have hNu0 : 0 ≤ (p.length : ℝ) * u := by positivity
  set C : ℕ → ℝ := fun i => (cumsumF p).getD i 0 with hC
  have hCerr : ∀ i < p.length, |C i - (p.take (i + 1)).sum| ≤ 2 * p.length * u := fun i hi =>
    cumsumF_error hu p hp (by linarith) hn i hi
  have hClast : |C (p.length - 1) - 1| ≤ 2 * p.length * u + η := by
    have := hCerr (p.length - 1) (by omega)
    rw [show p.length - 1 + 1 = p.length by omega, List.take_length] at this
    rw [abs_le] at this ⊢
    constructor <;> linarith [this.1, this.2]
  set K := 2 * p.length * u + η with hK
  have hK0 : 0 ≤ K := by positivity
  have hK1 : K ≤ 1 / 1000 := by
    have : K = 2 * (p.length * u) + η := by rw [hK]; ring
    linarith
  have hLpos : 0 < C (p.length - 1) := by
    rw [abs_le] at hClast
    linarith [hClast.1]
  have hCnn : ∀ i < p.length, 0 ≤ C i := fun i hi => (cumsumF_double _ hd hp i hi).2
  have hstep := fun i (h : i + 1 < p.length) => cumsumF_step p hd hp i h
  have hmono : ∀ i j, i ≤ j → j < p.length → C i ≤ C j := by
    intro i j hij
    induction j, hij using Nat.le_induction with
    | base => intro _; exact le_rfl
    | succ j hij ih => intro hj; exact (ih (by omega)).trans (hstep j hj).1
  have hA : ∀ i < p.length, lowerF p (i + 1) = fl (C i / C (p.length - 1)) := by
    intro i hi
    rw [lowerF, if_neg (by omega), Nat.add_sub_cancel, cdfF_getD _ hi]
  have hC0 : C 0 = p.getD 0 0 := by
    simp only [hC]
    cases hpw : p with
    | nil => rw [hpw] at hlp; simp at hlp
    | cons a l => rfl
  refine ⟨by simp [lowerF], ?_, ?_, ?_, ?_, ?_⟩
  · have := hA (p.length - 1) (by omega)
    rw [show p.length - 1 + 1 = p.length by omega, div_self hLpos.ne', fl_one] at this
    exact this
  · intro i hi
    rw [hA i hi]
    cases i with
    | zero =>
      rw [lowerF, if_pos rfl]
      exact fl_nonneg (div_nonneg (hCnn 0 hi) hLpos.le)
    | succ i =>
      rw [hA i (by omega)]
      exact fl_mono (div_nonneg (hCnn i (by omega)) hLpos.le)
        (div_le_div_of_nonneg_right (hmono i (i + 1) (by omega) hi) hLpos.le)
  · intro i hi h0
    rw [hA i hi]
    cases i with
    | zero => rw [lowerF, if_pos rfl, hC0, h0, zero_div, fl_zero]
    | succ i =>
      rw [hA i (by omega)]
      have := (hstep i hi).2 h0
      simp only [hC]
      rw [this]
  · intro i hi
    cases i with
    | zero =>
      simp only [lowerF, if_pos, List.take_zero, List.sum_nil, sub_zero, abs_zero]
      positivity
    | succ i =>
      rw [hA i (by omega)]
      set q := (p.take (i + 1)).sum with hq
      have hq0 : 0 ≤ q := List.sum_nonneg fun x hx => hp x (List.mem_of_mem_take hx)
      have hq1 : q ≤ 1001 / 1000 := by
        have h1 := List.sum_take_add_sum_drop p (i + 1)
        have h2 : 0 ≤ (p.drop (i + 1)).sum := List.sum_nonneg fun x hx => hp x (List.mem_of_mem_drop hx)
        rw [← hq] at h1
        linarith [hs'.2]
      have h1 := hCerr i (by omega)
      set L := C (p.length - 1) with hL
      have hle1 : C i / L ≤ 1 := by
        rw [div_le_one hLpos]
        exact hmono i _ (by omega) (by omega)
      have hnn := div_nonneg (hCnn i (by omega)) hLpos.le
      have h2 : |C i / L - q| ≤ 2 * p.length * u * (1003 / 1000) + K * (1003 / 1000) :=
        quotient_close hq0 hq1 (by positivity) hK0 hK1 h1 hClast
      have h6 := fl_error (C i / L)
      rw [← hu, abs_of_nonneg hnn] at h6
      have h7 : u * (C i / L) ≤ u := by nlinarith
      rw [abs_le] at h2 h6 ⊢
      have e8 : 2 * p.length * u * (1003 / 1000) + K * (1003 / 1000) ≤ 5 * p.length * u + 3 * η := by
        rw [hK]
        have : 2 * (p.length : ℝ) * u * (1003 / 1000) + (2 * p.length * u + η) * (1003 / 1000) =
          (4012 / 1000) * (p.length * u) + (1003 / 1000) * η := by ring
        rw [this]
        have : 5 * (p.length : ℝ) * u = 5 * (p.length * u) := by ring
        linarith
      constructor <;> linarith [h2.1, h2.2, h6.1, h6.2]
  · exact kahan_general hu p hp hn hη hs

/-- The share of the outputs for which such a draw gives an index. -/
theorem chance_general (p : List ℝ) (hd : ∀ q ∈ p, IsDouble q) (hp : ∀ q ∈ p, 0 ≤ q) (hlp : 0 < p.length)
    (hn : p.length ≤ 2 ^ 23) {η : ℝ} (hη : η ≤ 1 / 2 ^ 28 + 1 / 2 ^ 30) (hs : |p.sum - 1| ≤ η) :
    (∀ k < 2 ^ 53, ∃ i, choiceF p k = .ok i ∧ i < p.length ∧ p.getD i 0 ≠ 0) ∧
    ∀ i < p.length, |chanceF p i - p.getD i 0| ≤ (10 * p.length + 3) / 2 ^ 53 + 6 * η := by
  classical
  obtain ⟨h0, h1, h2, hz, h4, h5⟩ := draw_general rfl p hd hp hlp hn hη hs
  have hspec := choice_of_facts hlp h0 h1 h2 h5 hp
  refine ⟨fun k hk => ?_, fun i hi => ?_⟩
  · obtain ⟨i, a, b, e⟩ := hspec k hk
    refine ⟨i, a, b, fun hi0 => ?_⟩
    obtain ⟨l, r⟩ := (e i b).mpr rfl
    rw [hz i b hi0] at r
    linarith
  have hLm : ∀ i j, i ≤ j → j ≤ p.length → lowerF p i ≤ lowerF p j := by
    intro i j hij
    induction j, hij using Nat.le_induction with
    | base => intro _; exact le_rfl
    | succ j hij ih => intro hj; exact (ih (by omega)).trans (h2 j (by omega))
  have hset : ((Finset.range (2 ^ 53)).filter fun k => choiceF p k = .ok i) =
      (Finset.range (2 ^ 53)).filter fun k : ℕ => lowerF p i ≤ (k : ℝ) / (2 ^ 53 : ℕ) ∧
        (k : ℝ) / (2 ^ 53 : ℕ) < lowerF p (i + 1) := by
    apply Finset.filter_congr
    intro k hk
    obtain ⟨j, hj, hjl, hiff⟩ := hspec k (Finset.mem_range.mp hk)
    have := hiff i hi
    rw [hj, Except.ok.injEq, Nat.cast_pow, Nat.cast_ofNat, this]
    exact eq_comm
  have hsh := share_interval (2 ^ 53) (by positivity) (a := lowerF p i) (b := lowerF p (i + 1))
    (by rw [← h0]; exact hLm 0 i (by omega) (by omega)) (h2 i hi) (by rw [← h1]; exact hLm _ _ (by omega) le_rfl)
  have ha := h4 i (by omega)
  have hb := h4 (i + 1) (by omega)
  have htake : (p.take (i + 1)).sum = (p.take i).sum + p.getD i 0 := by
    rw [List.take_add_one, List.sum_append, List.getElem?_eq_getElem hi, List.getD_eq_getElem _ _ hi]
    simp
  rw [htake] at hb
  unfold chanceF
  rw [hset]
  have hc : (((2 ^ 53 : ℕ) : ℕ) : ℝ) = 2 ^ 53 := by rw [Nat.cast_pow, Nat.cast_ofNat]
  rw [hc] at hsh ⊢
  rw [abs_le] at hsh ha hb ⊢
  have e : (10 * (p.length : ℝ) + 3) / 2 ^ 53 = 2 * (5 * p.length * (1 / 2 ^ 53)) + 3 * (1 / 2 ^ 53) := by ring
  rw [e]
  constructor <;> linarith [hsh.1, hsh.2, ha.1, ha.2, hb.1, hb.2]

end Verif
