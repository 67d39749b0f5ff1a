/-
Draws in doubles as random programs.
-/
import Verif.Model.FloatLocal
import Verif.Lemmas.FloatBoleySelect
import Verif.Lemmas.Local2

namespace Verif

open RandR

/-- The distance `numpy.random.choice` may have from the ideal draw: `n` items whose probabilities carry `j / 2` roundings. -/
noncomputable def drawError (n j : ℕ) : ℝ := (n * (10 * n + 3 + 12 * j) + 2 * j) / 2 ^ 53

theorem drawError_nonneg (n j : ℕ) : 0 ≤ drawError n j := by unfold drawError; positivity

theorem outcome_bits {n : ℕ} (hn : n ≠ 0) {y : Py ℕ} (hy : (pyChoiceIdx n).Outcome y) : ∃ k < n, y = .ok k := by
  unfold pyChoiceIdx at hy
  rw [if_neg hn] at hy
  obtain ⟨i, hi, -, e⟩ := hy
  rw [List.length_replicate] at hi
  exact ⟨i, hi, e⟩

/-- A draw from probabilities in doubles. -/
theorem npChoiceF_law {n j : ℕ} (p q : List ℝ) (hp : p.length = n) (hq : q.length = n) (hn0 : 0 < n) (hn : n ≤ 2 ^ 23)
    (hj : j ≤ 2 ^ 24) (hd : ∀ i < n, IsDouble (p.getD i 0)) (h0 : ∀ i < n, 0 ≤ p.getD i 0 ∧ 0 ≤ q.getD i 0)
    (hc : ∀ i < n, RelClose j (p.getD i 0) (q.getD i 0)) (hs : q.sum = 1) :
    (npChoiceF p).Law (Finset.range n) (chanceF p) ∧ (∀ i, 0 ≤ chanceF p i) ∧
    (∑ i ∈ Finset.range n, chanceF p i = 1) ∧
    (∀ x, (npChoiceF p).Outcome x → ∃ i < n, x = .ok i ∧ q.getD i 0 ≠ 0) ∧
    (∀ i < n, |chanceF p i - q.getD i 0| ≤ (10 * n + 3 + 12 * j) / 2 ^ 53 + q.getD i 0 * (2 * j / 2 ^ 53)) ∧
    ∑ i ∈ Finset.range n, |chanceF p i - q.getD i 0| ≤ drawError n j := by
  classical
  have hmem : ∀ x ∈ p, ∃ i < n, p.getD i 0 = x := by
    intro x hx
    obtain ⟨i, hi, rfl⟩ := List.getElem_of_mem hx
    exact ⟨i, by omega, getD_lt hi 0⟩
  have hsum : ∀ l : List ℝ, l.length = n → l.sum = ∑ i ∈ Finset.range n, l.getD i 0 := by
    intro l hl
    rw [← hl, ← sum_list_range]
    congr 1
    apply List.ext_getElem (by simp)
    intro i h1 h2
    rw [List.getElem_map, List.getElem_range, getD_lt h1]
  have hj' : j ≤ 2 ^ 52 := hj.trans (by norm_num)
  have hps : RelClose j p.sum 1 := by
    rw [← hs, hsum p hp, hsum q hq, ← sum_list_range, ← sum_list_range]
    exact RelClose.list_sum _ _ _ fun i hi => hc i (List.mem_range.mp hi)
  have hpn : ∀ x ∈ p, 0 ≤ x := by
    intro x hx
    obtain ⟨i, hi, rfl⟩ := hmem x hx
    exact (h0 i hi).1
  have hη := rel_abs hj' (List.sum_nonneg hpn) zero_le_one hps
  rw [one_mul] at hη
  have hηle : (2 * j / 2 ^ 53 : ℝ) ≤ 1 / 2 ^ 28 + 1 / 2 ^ 30 := by
    have : (j : ℝ) ≤ 2 ^ 24 := by exact_mod_cast hj
    rw [div_le_iff₀ (by positivity)]
    refine (mul_le_mul_of_nonneg_left this (by norm_num)).trans ?_
    norm_num
  obtain ⟨hsel, hch⟩ := chance_general p (by
    intro x hx
    obtain ⟨i, hi, rfl⟩ := hmem x hx
    exact hd i hi) hpn (by omega) (by omega) hηle hη
  choose! idx h1 h2 h3 using hsel
  rw [hp] at h2 hch
  have hlaw : (npChoiceF p).Law (Finset.range n) (chanceF p) := by
    intro f
    unfold npChoiceF
    rw [bind_eq, (law_pyChoiceIdx (by positivity)).bind]
    have e : ∀ i ∈ Finset.range n, chanceF p i * f (.ok i) =
        ∑ k ∈ Finset.range (2 ^ 53), if idx k = i then 1 / ((2 ^ 53 : ℕ) : ℝ) * f (.ok i) else 0 := by
      intro i _
      rw [← Finset.sum_filter, Finset.sum_const, nsmul_eq_mul]
      unfold chanceF
      have : (Finset.range (2 ^ 53)).filter (fun k => choiceF p k = .ok i) =
          (Finset.range (2 ^ 53)).filter fun k => idx k = i := by
        apply Finset.filter_congr
        intro k hk
        rw [h1 k (Finset.mem_range.mp hk), Except.ok.injEq]
      rw [this]
      push_cast
      ring
    rw [Finset.sum_congr rfl e, Finset.sum_comm]
    apply Finset.sum_congr rfl
    intro k hk
    have hk' := Finset.mem_range.mp hk
    rw [Finset.sum_ite_eq, if_pos (Finset.mem_range.mpr (h2 k hk')), h1 k hk']
    rfl
  have hone : ∑ i ∈ Finset.range n, chanceF p i = 1 := by
    have h := hlaw fun _ => 1
    simp only [mul_one] at h
    rw [← h]
    unfold npChoiceF
    rw [bind_eq, (law_pyChoiceIdx (by positivity)).bind]
    simp only [RandR.lift, RandR.expect, mul_one]
    rw [Finset.sum_const, nsmul_eq_mul, Finset.card_range]
    field_simp
  have hterm : ∀ i < n, |chanceF p i - q.getD i 0| ≤
      (10 * n + 3 + 12 * j) / 2 ^ 53 + q.getD i 0 * (2 * j / 2 ^ 53) := by
    intro i hi
    have h := rel_abs hj' (h0 i hi).1 (h0 i hi).2 (hc i hi)
    have h' := hch i hi
    have := abs_sub_le (chanceF p i) (p.getD i 0) (q.getD i 0)
    have e : (10 * n + 3 : ℝ) / 2 ^ 53 + 6 * (2 * j / 2 ^ 53) = (10 * n + 3 + 12 * j) / 2 ^ 53 := by ring
    linarith
  refine ⟨hlaw, fun i => div_nonneg (Nat.cast_nonneg _) (pow_nonneg zero_le_two _), hone, ?_, hterm, ?_⟩
  · intro x hx
    unfold npChoiceF at hx
    rw [bind_eq, outcome_bind] at hx
    have hk := fun y (hy : (pyChoiceIdx (2 ^ 53)).Outcome y) => outcome_bits (by positivity) hy
    rcases hx with ⟨k, hk', hx⟩ | ⟨e, he, -⟩
    · obtain ⟨k', hlt, e⟩ := hk _ hk'
      cases e
      rw [h1 k hlt] at hx
      refine ⟨idx k, h2 k hlt, hx, fun h => h3 k hlt ?_⟩
      by_contra hne
      have hpos := lt_of_le_of_ne (h0 _ (h2 k hlt)).1 (Ne.symm hne)
      exact absurd h ((hc _ (h2 k hlt)).pos_iff.mp hpos).ne'
    · obtain ⟨k', -, e'⟩ := hk _ he
      cases e'
  · refine (Finset.sum_le_sum fun i hi => hterm i (Finset.mem_range.mp hi)).trans ?_
    rw [Finset.sum_add_distrib, Finset.sum_const, Finset.card_range, nsmul_eq_mul, ← Finset.sum_mul, ← hsum q hq, hs]
    unfold drawError
    apply le_of_eq
    ring

/-- Two random choices followed by the same or nearly the same programs. -/
theorem mix_close (n : ℕ) (c q x y : ℕ → ℝ) {a b : ℝ} (hq : ∀ i < n, 0 ≤ q i) (hq1 : ∑ i ∈ Finset.range n, q i = 1)
    (ha : ∑ i ∈ Finset.range n, |c i - q i| ≤ a) (hx : ∀ i < n, 0 ≤ x i ∧ x i ≤ 1)
    (hb : ∀ i < n, 0 < q i → |x i - y i| ≤ b) :
    |∑ i ∈ Finset.range n, c i * x i - ∑ i ∈ Finset.range n, q i * y i| ≤ a + b := by
  have e : ∑ i ∈ Finset.range n, c i * x i - ∑ i ∈ Finset.range n, q i * y i =
      ∑ i ∈ Finset.range n, (c i - q i) * x i + ∑ i ∈ Finset.range n, q i * (x i - y i) := by
    rw [← Finset.sum_sub_distrib, ← Finset.sum_add_distrib]
    exact Finset.sum_congr rfl fun i _ => by ring
  rw [e]
  refine (abs_add_le _ _).trans (add_le_add ?_ ?_)
  · refine (Finset.abs_sum_le_sum_abs _ _).trans ((Finset.sum_le_sum fun i hi => ?_).trans ha)
    have hi' := hx i (Finset.mem_range.mp hi)
    rw [abs_mul, abs_of_nonneg hi'.1]
    exact mul_le_of_le_one_right (abs_nonneg _) hi'.2
  · refine (Finset.abs_sum_le_sum_abs _ _).trans ?_
    calc ∑ i ∈ Finset.range n, |q i * (x i - y i)| ≤ ∑ i ∈ Finset.range n, q i * b := by
          refine Finset.sum_le_sum fun i hi => ?_
          have hi' := Finset.mem_range.mp hi
          rw [abs_mul, abs_of_nonneg (hq i hi')]
          rcases (hq i hi').eq_or_lt with h | h
          · rw [← h]; simp
          · exact mul_le_mul_of_nonneg_left (hb i hi' h) h.le
      _ = b := by rw [← Finset.sum_mul, hq1, one_mul]

/-- The normalised integer weights, in doubles and exactly. -/
theorem normaliseF_spec {ws : List ℤ} (h0 : ∀ x ∈ ws, 0 ≤ x) (hpos : 0 < ws.sum) (hlt : ws.sum < 2 ^ 63) :
    (normaliseF ws).length = ws.length ∧ 0 < ws.length ∧
    (∀ i < ws.length, IsDouble ((normaliseF ws).getD i 0)) ∧
    (∀ i < ws.length, 0 ≤ (normaliseF ws).getD i 0 ∧ 0 ≤ (normaliseI64 ws).getD i 0) ∧
    (∀ i < ws.length, RelClose 6 ((normaliseF ws).getD i 0) ((normaliseI64 ws).getD i 0)) := by
  have hz : i64 ws.sum = ws.sum := i64_small hpos.le hlt
  have hS : (0 : ℝ) < (ws.sum : ℤ) := by exact_mod_cast hpos
  have hx : ∀ i, i < ws.length → (0 : ℝ) ≤ (ws.getD i 0 : ℤ) := by
    intro i hi
    rw [getD_lt hi]
    exact_mod_cast h0 _ (List.getElem_mem hi)
  have e1 : ∀ i < ws.length, (normaliseF ws).getD i 0 = fl (fl ((ws.getD i 0 : ℤ) : ℝ) / fl ((ws.sum : ℤ) : ℝ)) := by
    intro i hi
    rw [getD_lt (by simpa [normaliseF] using hi), getD_lt hi]
    simp only [normaliseF, List.getElem_map, hz]
  have e2 : ∀ i < ws.length, (normaliseI64 ws).getD i 0 = ((ws.getD i 0 : ℤ) : ℝ) / ((ws.sum : ℤ) : ℝ) := by
    intro i hi
    rw [getD_lt (by simpa [normaliseI64] using hi), getD_lt hi]
    simp only [normaliseI64, List.getElem_map, hz]
  have hn0 : ∀ i < ws.length, 0 ≤ fl ((ws.getD i 0 : ℤ) : ℝ) / fl ((ws.sum : ℤ) : ℝ) := fun i hi =>
    div_nonneg (fl_nonneg (hx i hi)) (fl_pos hS).le
  refine ⟨by simp [normaliseF], ?_, ?_, ?_, ?_⟩
  · rw [List.length_pos_iff]
    rintro rfl
    simp at hpos
  · intro i hi
    rw [e1 i hi]
    exact double_fl _
  · intro i hi
    rw [e1 i hi, e2 i hi]
    exact ⟨fl_nonneg (hn0 i hi), div_nonneg (hx i hi) hS.le⟩
  · intro i hi
    rw [e1 i hi, e2 i hi]
    exact (RelClose.round (hn0 i hi)).trans ((RelClose.round (hx i hi)).div (RelClose.round hS.le)
      (fl_nonneg (hx i hi)) (hx i hi) (fl_pos hS) hS)

end Verif
