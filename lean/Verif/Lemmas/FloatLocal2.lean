/-
The size drawn inside a row, in doubles.
-/
import Verif.Lemmas.FloatLocal

namespace Verif

open RandR

/-- Adding numbers that are not negative, in any order. -/
theorem FTree.eval_close : ∀ t : FTree, (∀ x ∈ t.leaves, 0 ≤ x) →
    0 < t.leaves.length ∧ 0 ≤ t.eval ∧ RelClose (2 * (t.leaves.length - 1)) t.eval t.leaves.sum := by
  intro t
  induction t with
  | leaf x =>
    intro h
    have hx : 0 ≤ x := h x (by simp [FTree.leaves])
    refine ⟨by simp [FTree.leaves], hx, ?_⟩
    simp only [FTree.leaves, FTree.eval, List.sum_singleton]
    exact RelClose.refl hx _
  | node a b iha ihb =>
    intro h
    simp only [FTree.leaves, List.mem_append] at h
    obtain ⟨a0, a1, a2⟩ := iha fun x hx => h x (Or.inl hx)
    obtain ⟨b0, b1, b2⟩ := ihb fun x hx => h x (Or.inr hx)
    have sa : 0 ≤ a.leaves.sum := List.sum_nonneg fun x hx => h x (Or.inl hx)
    have sb : 0 ≤ b.leaves.sum := List.sum_nonneg fun x hx => h x (Or.inr hx)
    simp only [FTree.leaves, FTree.eval, List.length_append, List.sum_append]
    refine ⟨by omega, fl_nonneg (by positivity), ?_⟩
    have hk : 2 * (a.leaves.length - 1) ≤ 2 * (a.leaves.length + b.leaves.length - 2) := by omega
    have hk' : 2 * (b.leaves.length - 1) ≤ 2 * (a.leaves.length + b.leaves.length - 2) := by omega
    have := (RelClose.round (add_nonneg a1 b1)).trans ((a2.mono a1 sa hk).add (b2.mono b1 sb hk'))
    rwa [show 2 + 2 * (a.leaves.length + b.leaves.length - 2) = 2 * (a.leaves.length + b.leaves.length - 1) by omega]
      at this

theorem Summation.sum_close (S : Summation) {l : List ℝ} (hne : l ≠ []) (h0 : ∀ x ∈ l, 0 ≤ x) :
    RelClose (2 * (l.length - 1)) (S.sum l) l.sum := by
  have hp := S.leaves l hne
  obtain ⟨-, -, h⟩ := FTree.eval_close (S.tree l) fun x hx => h0 x (hp.mem_iff.mp hx)
  rw [hp.length_eq, hp.sum_eq] at h
  unfold Summation.sum
  rwa [if_neg hne]

/-- Weights with a small relative error have nearly the same shares. -/
theorem share_close (n : ℕ) (a b : ℕ → ℝ) {δ : ℝ} (ha : ∀ i < n, 0 ≤ a i) (hA : 0 < ∑ i ∈ Finset.range n, a i)
    (hB : 0 < ∑ i ∈ Finset.range n, b i) (h : ∀ i < n, |a i - b i| ≤ δ * b i) :
    ∑ i ∈ Finset.range n, |a i / (∑ j ∈ Finset.range n, a j) - b i / ∑ j ∈ Finset.range n, b j| ≤ 2 * δ := by
  set A := ∑ j ∈ Finset.range n, a j with hAd
  set B := ∑ j ∈ Finset.range n, b j with hBd
  have hAB : |A - B| ≤ δ * B := by
    rw [hAd, hBd, ← Finset.sum_sub_distrib, Finset.mul_sum]
    exact (Finset.abs_sum_le_sum_abs _ _).trans (Finset.sum_le_sum fun i hi => h i (Finset.mem_range.mp hi))
  have hterm : ∀ i ∈ Finset.range n, |a i / A - b i / B| ≤ δ * (b i / B) + a i / A * δ := by
    intro i hi
    have hi' := Finset.mem_range.mp hi
    have e : a i / A - b i / B = (a i - b i) / B + a i / A * ((B - A) / B) := by field_simp; ring
    rw [e]
    refine (abs_add_le _ _).trans (add_le_add ?_ ?_)
    · rw [abs_div, abs_of_pos hB, div_le_iff₀ hB]
      calc |a i - b i| ≤ δ * b i := h i hi'
        _ = δ * (b i / B) * B := by field_simp
    · rw [abs_mul, abs_of_nonneg (div_nonneg (ha i hi') hA.le)]
      refine mul_le_mul_of_nonneg_left ?_ (div_nonneg (ha i hi') hA.le)
      rw [abs_div, abs_of_pos hB, div_le_iff₀ hB, abs_sub_comm]
      exact hAB
  refine (Finset.sum_le_sum hterm).trans ?_
  rw [Finset.sum_add_distrib, ← Finset.mul_sum, ← Finset.sum_mul, ← Finset.sum_div, ← Finset.sum_div, ← hAd, ← hBd,
    div_self hA.ne', div_self hB.ne']
  linarith

/-- The size that `sample_once` of the area sampler draws. -/
theorem size_law (S : Summation) {binom : ℕ → ℕ → ℝ} {ε : ℝ} (hε0 : 0 ≤ ε) (hε1 : ε < 1) {n : ℕ} (hn : 0 < n)
    (hn58 : n ≤ 58) (hb : ∀ k, 1 ≤ k → k ≤ n → |binom n k - n.choose k| ≤ ε * n.choose k) :
    ∃ c : ℕ → ℝ, (npChoiceF (sizeProbasF S binom n)).Law (Finset.range n) c ∧ (∀ i, 0 ≤ c i) ∧
      (∑ i ∈ Finset.range n, c i = 1) ∧
      (∀ x, (npChoiceF (sizeProbasF S binom n)).Outcome x → ∃ i < n, x = .ok i) ∧
      ∑ i ∈ Finset.range n, |c i - (n.choose (i + 1) : ℝ) * (i + 1) / (n * 2 ^ (n - 1))| ≤
        114786 / 2 ^ 53 + 2 * ε := by
  set W : ℕ → ℝ := fun i => fl (binom n (i + 1) * (i + 1 : ℕ)) with hW
  set w : ℕ → ℝ := fun i => (n.choose (i + 1) : ℝ) * (i + 1) with hw
  have hwpos : ∀ i < n, 0 < w i := by
    intro i hi
    have : 0 < n.choose (i + 1) := Nat.choose_pos (by omega)
    simp only [hw]
    positivity
  have hbpos : ∀ i < n, 0 < binom n (i + 1) := by
    intro i hi
    have h1 : (0 : ℝ) < n.choose (i + 1) := by exact_mod_cast Nat.choose_pos (by omega)
    have h2 := (abs_le.mp (hb (i + 1) (by omega) (by omega))).1
    nlinarith
  have hWpos : ∀ i < n, 0 < W i := by
    intro i hi
    refine fl_pos (mul_pos (hbpos i hi) ?_)
    exact_mod_cast Nat.succ_pos i
  have hdist : ∀ i < n, |W i - w i| ≤ (ε + (1 + ε) / 2 ^ 53) * w i := by
    intro i hi
    have h1 : (0 : ℝ) < (i + 1 : ℕ) := by exact_mod_cast Nat.succ_pos i
    have h2 : |binom n (i + 1) * (i + 1 : ℕ) - w i| ≤ ε * w i := by
      have e : binom n (i + 1) * (i + 1 : ℕ) - w i = (binom n (i + 1) - n.choose (i + 1)) * (i + 1 : ℕ) := by
        simp only [hw]; push_cast; ring
      rw [e, abs_mul, abs_of_pos h1]
      calc |binom n (i + 1) - n.choose (i + 1)| * (i + 1 : ℕ) ≤ ε * n.choose (i + 1) * (i + 1 : ℕ) :=
            mul_le_mul_of_nonneg_right (hb (i + 1) (by omega) (by omega)) h1.le
        _ = ε * w i := by simp only [hw]; push_cast; ring
    have h3 := fl_error (binom n (i + 1) * (i + 1 : ℕ))
    rw [abs_of_pos (mul_pos (hbpos i hi) h1)] at h3
    have h4 := (abs_le.mp h2).2
    have h5 := abs_sub_le (W i) (binom n (i + 1) * (i + 1 : ℕ)) (w i)
    have h6 : 1 / 2 ^ 53 * (binom n (i + 1) * (i + 1 : ℕ)) ≤ 1 / 2 ^ 53 * ((1 + ε) * w i) :=
      mul_le_mul_of_nonneg_left (by linarith) (by positivity)
    calc |W i - w i| ≤ 1 / 2 ^ 53 * ((1 + ε) * w i) + ε * w i := by linarith
      _ = _ := by ring
  have hsw : ∑ i ∈ Finset.range n, w i = n * 2 ^ (n - 1) := by
    rw [← sum_list_range]
    exact sizeWeights_sum n
  have hws : (sizeWeightsF binom n).sum = ∑ i ∈ Finset.range n, W i := sum_list_range n W
  have hlen : (sizeWeightsF binom n).length = n := by simp [sizeWeightsF]
  have hget : ∀ i (h : i < (sizeWeightsF binom n).length), (sizeWeightsF binom n)[i] = W i := by
    intro i h
    simp [sizeWeightsF, hW]
  have hne : Finset.range n ≠ ∅ := by simp; omega
  have hA : 0 < ∑ i ∈ Finset.range n, W i :=
    Finset.sum_pos (fun i hi => hWpos i (Finset.mem_range.mp hi)) (Finset.nonempty_iff_ne_empty.mpr hne)
  have hB : 0 < ∑ i ∈ Finset.range n, w i :=
    Finset.sum_pos (fun i hi => hwpos i (Finset.mem_range.mp hi)) (Finset.nonempty_iff_ne_empty.mpr hne)
  have hclose := S.sum_close (l := sizeWeightsF binom n) (by intro h; rw [h] at hlen; simp at hlen; omega) (by
    intro x hx
    obtain ⟨i, hi, rfl⟩ := List.getElem_of_mem hx
    rw [hget]
    exact (hWpos i (by omega)).le)
  rw [hlen, hws] at hclose
  set v := S.sum (sizeWeightsF binom n) with hv
  have hvpos : 0 < v := hclose.pos_iff.mpr hA
  have hp : ∀ i < n, (sizeProbasF S binom n).getD i 0 = fl (W i / v) := by
    intro i hi
    rw [getD_lt (by simpa [sizeProbasF, hlen] using hi)]
    simp only [sizeProbasF, List.getElem_map, hget]
    rw [hv]
  have hq : ∀ i < n, ((sizeWeightsF binom n).map fun x => x / ∑ i ∈ Finset.range n, W i).getD i 0 =
      W i / ∑ i ∈ Finset.range n, W i := by
    intro i hi
    rw [getD_lt (by simpa [hlen] using hi)]
    simp only [List.getElem_map, hget]
  obtain ⟨a1, a2, a3, a4, -, a6⟩ := npChoiceF_law (n := n) (j := 2 * n) (sizeProbasF S binom n)
    ((sizeWeightsF binom n).map fun x => x / ∑ i ∈ Finset.range n, W i) (by simp [sizeProbasF, hlen]) (by simp [hlen]) hn
    (by omega) (by omega) (fun i hi => by rw [hp i hi]; exact double_fl _)
    (fun i hi => by
      rw [hp i hi, hq i hi]
      exact ⟨fl_nonneg (div_nonneg (hWpos i hi).le hvpos.le), div_nonneg (hWpos i hi).le hA.le⟩)
    (fun i hi => by
      rw [hp i hi, hq i hi]
      have := (RelClose.round (div_nonneg (hWpos i hi).le hvpos.le)).trans
        ((RelClose.refl (hWpos i hi).le 0).div hclose (hWpos i hi).le (hWpos i hi).le hvpos hA)
      rwa [show 2 + (0 + 2 * (n - 1)) = 2 * n by omega] at this)
    (by rw [sum_map_div, hws, div_self hA.ne'])
  refine ⟨_, a1, a2, a3, fun x hx => ?_, ?_⟩
  · obtain ⟨i, hi, e, -⟩ := a4 x hx
    exact ⟨i, hi, e⟩
  · have hsh := share_close n W w (fun i hi => (hWpos i hi).le) hA hB hdist
    rw [hsw] at hsh
    have hde : drawError n (2 * n) ≤ 114782 / 2 ^ 53 := by
      have h58 : (n : ℝ) ≤ 58 := by exact_mod_cast hn58
      have h0 : (0 : ℝ) ≤ n := Nat.cast_nonneg _
      unfold drawError
      refine div_le_div_of_nonneg_right ?_ (by positivity)
      push_cast
      nlinarith
    have htri : ∑ i ∈ Finset.range n, |chanceF (sizeProbasF S binom n) i - w i / (n * 2 ^ (n - 1))| ≤
        ∑ i ∈ Finset.range n, |chanceF (sizeProbasF S binom n) i -
          ((sizeWeightsF binom n).map fun x => x / ∑ i ∈ Finset.range n, W i).getD i 0| +
        ∑ i ∈ Finset.range n, |W i / (∑ j ∈ Finset.range n, W j) - w i / (n * 2 ^ (n - 1))| := by
      rw [← Finset.sum_add_distrib]
      refine Finset.sum_le_sum fun i hi => ?_
      rw [hq i (Finset.mem_range.mp hi)]
      exact abs_sub_le _ _ _
    have hlast : 2 * (ε + (1 + ε) / 2 ^ 53) ≤ 4 / 2 ^ 53 + 2 * ε := by
      have : (1 + ε) / 2 ^ 53 ≤ 2 / 2 ^ 53 := div_le_div_of_nonneg_right (by linarith) (by positivity)
      linarith
    calc _ ≤ _ := htri
      _ ≤ 114782 / 2 ^ 53 + (4 / 2 ^ 53 + 2 * ε) := add_le_add (a6.trans hde) (hsh.trans hlast)
      _ = 114786 / 2 ^ 53 + 2 * ε := by ring

end Verif
