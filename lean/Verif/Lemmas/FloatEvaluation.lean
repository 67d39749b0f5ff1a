/-
Lemmas on the metrics in double precision.
-/
import Verif.Model.FloatEvaluation
import Verif.Lemmas.FloatLocal2
import Verif.Props.Evaluation

namespace Verif

theorem fl_le_one {x : ℝ} (h0 : 0 ≤ x) (h : x ≤ 1) : fl x ≤ 1 := by
  rw [← fl_one]
  exact fl_mono h0 h

/-- Doubling a double is exact. -/
theorem fl_two_mul {x : ℝ} (h : IsDouble x) : fl (2 * x) = 2 * x := by
  obtain ⟨m, e, hm, rfl⟩ := h
  refine fl_of_double ⟨m, e + 1, hm, ?_⟩
  rw [zpow_add_one₀ (by norm_num)]
  ring

theorem prfDivideF_eq {a b : ℕ} (ha : a ≤ b) (hb : b ≤ 2 ^ 53) : prfDivideF a b = fl ((share a b : ℚ) : ℝ) := by
  unfold prfDivideF share
  by_cases h : b = 0
  · simp [h, fl_one]
  · rw [if_neg h, if_neg h, fl_nat hb, fl_nat (ha.trans hb)]
    push_cast
    rfl

theorem share_real {a b : ℕ} (h : a ≤ b) : (0 : ℝ) ≤ (share a b : ℚ) ∧ ((share a b : ℚ) : ℝ) ≤ 1 := by
  obtain ⟨h1, h2⟩ := share_range h
  exact ⟨by exact_mod_cast h1, by exact_mod_cast h2⟩

theorem two_mul_le_add {p r : ℝ} (hp0 : 0 ≤ p) (hp : p ≤ 1) (hr0 : 0 ≤ r) (hr : r ≤ 1) : 2 * p * r ≤ p + r := by
  nlinarith [mul_nonneg hp0 (sub_nonneg.mpr hr), mul_nonneg hr0 (sub_nonneg.mpr hp)]

/-- The F-score of doubles in the unit interval lies there. -/
theorem fScoreF_range {p r : ℝ} (hd : IsDouble p) (hp0 : 0 ≤ p) (hp : p ≤ 1) (hr0 : 0 ≤ r) (hr : r ≤ 1) :
    0 ≤ fScoreF p r ∧ fScoreF p r ≤ 1 := by
  unfold fScoreF
  rw [fl_two_mul hd]
  have h0 : 0 ≤ 2 * p * r := by positivity
  have h1 : fl (2 * p * r) ≤ fl (p + r) := fl_mono h0 (two_mul_le_add hp0 hp hr0 hr)
  have h2 : 0 ≤ fl (2 * p * r) := fl_nonneg h0
  split
  · rename_i h
    rw [h] at h1
    rw [le_antisymm h1 h2]
    simp [fl_zero]
  · rename_i h
    have h3 : 0 < fl (p + r) := lt_of_le_of_ne (h2.trans h1) (Ne.symm h)
    exact ⟨fl_nonneg (by positivity), fl_le_one (by positivity) (by rw [div_le_one h3]; exact h1)⟩

theorem fScoreF_comm {p r : ℝ} (hp : IsDouble p) (hr : IsDouble r) : fScoreF p r = fScoreF r p := by
  unfold fScoreF
  rw [fl_two_mul hp, fl_two_mul hr, add_comm p r, show 2 * p * r = 2 * r * p by ring]

theorem fScoreF_one : fScoreF 1 1 = 1 := by
  unfold fScoreF
  have h2 : fl 2 = 2 := by simpa using fl_nat (n := 2) (by norm_num)
  simp only [mul_one, h2, one_add_one_eq_two]
  rw [if_neg (by norm_num), div_self (by norm_num), fl_one]

/-- The F-score of rounded numbers is near the F-score of the numbers. -/
theorem fScoreF_close {p r : ℝ} (hp : 0 ≤ p) (hr : 0 ≤ r) :
    RelClose 14 (fScoreF (fl p) (fl r)) (2 * p * r / (if p + r = 0 then 1 else p + r)) := by
  have hp' := fl_nonneg hp
  have hr' := fl_nonneg hr
  unfold fScoreF
  rcases (add_nonneg hp hr).eq_or_lt with h | h
  · have e1 : p = 0 := by linarith
    have e2 : r = 0 := by linarith
    subst e1; subst e2
    simpa [fl_zero] using RelClose.refl (le_refl (0 : ℝ)) 14
  · have hs : RelClose 4 (fl (fl p + fl r)) (p + r) :=
      (RelClose.round (add_nonneg hp' hr')).trans ((RelClose.round hp).add (RelClose.round hr))
    have hs' : 0 < fl (fl p + fl r) := hs.pos_iff.mpr h
    rw [if_neg hs'.ne', if_neg h.ne']
    have a1 : RelClose 2 (fl (2 * fl p)) (2 * fl p) := RelClose.round (by positivity)
    have a2 : RelClose (0 + 2) (2 * fl p) (2 * p) :=
      (RelClose.refl (by norm_num : (0 : ℝ) ≤ 2) 0).mul (RelClose.round hp) (by norm_num) (by norm_num) hp' hp
    have a3 := (a1.trans a2).mul (RelClose.round hr) (fl_nonneg (by positivity)) (by positivity) hr' hr
    have n0 : 0 ≤ fl (2 * fl p) * fl r := mul_nonneg (fl_nonneg (by positivity)) hr'
    have a4 := (RelClose.round n0).trans a3
    have a5 := a4.div hs (fl_nonneg n0) (by positivity) hs' h
    exact (RelClose.round (div_nonneg (fl_nonneg n0) hs'.le)).trans a5

theorem FTree.eval_le : ∀ (t : FTree), (∀ x ∈ t.leaves, 0 ≤ x ∧ x ≤ 1) → t.leaves.length ≤ 2 ^ 53 →
    0 ≤ t.eval ∧ t.eval ≤ t.leaves.length
  | .leaf x, h, _ => by simpa [FTree.leaves, FTree.eval] using h x (by simp [FTree.leaves])
  | .node a b, h, hl => by
    have e : (FTree.node a b).leaves = a.leaves ++ b.leaves := rfl
    rw [e, List.length_append] at hl ⊢
    obtain ⟨a0, a1⟩ := a.eval_le (fun x hx => h x (by simp [e, hx])) (by omega)
    obtain ⟨b0, b1⟩ := b.eval_le (fun x hx => h x (by simp [e, hx])) (by omega)
    refine ⟨fl_nonneg (by positivity), ?_⟩
    rw [FTree.eval, ← fl_nat hl]
    refine fl_mono (by positivity) ?_
    push_cast
    linarith

theorem Summation.sum_le (S : Summation) {l : List ℝ} (h : ∀ x ∈ l, 0 ≤ x ∧ x ≤ 1) (hl : l.length ≤ 2 ^ 53) :
    0 ≤ S.sum l ∧ S.sum l ≤ l.length := by
  unfold Summation.sum
  split_ifs with h0
  · simp [h0]
  · have hp := S.leaves l h0
    have := (S.tree l).eval_le (fun x hx => h x (hp.mem_iff.mp hx)) (by rw [hp.length_eq]; exact hl)
    rwa [hp.length_eq] at this

theorem labelMeanF_range (S : Summation) {L : ℕ} (hL : L ≤ 2 ^ 53) {f : ℕ → ℝ}
    (h : ∀ j < L, 0 ≤ f j ∧ f j ≤ 1) : 0 ≤ labelMeanF S L f ∧ labelMeanF S L f ≤ 1 := by
  unfold labelMeanF
  rw [fl_nat hL]
  obtain ⟨h0, h1⟩ := S.sum_le (l := (List.range L).map f) (by
    intro x hx
    obtain ⟨j, hj, rfl⟩ := List.mem_map.mp hx
    exact h j (List.mem_range.mp hj)) (by simpa using hL)
  rw [List.length_map, List.length_range] at h1
  have hq : 0 ≤ S.sum ((List.range L).map f) / L := by positivity
  exact ⟨fl_nonneg hq, fl_le_one hq (div_le_one_of_le₀ h1 (by positivity))⟩

theorem labelMeanF_one (S : Summation) {L : ℕ} (hpos : 0 < L) (hL : L ≤ 2 ^ 53) {f : ℕ → ℝ}
    (h : ∀ j < L, f j = 1) : labelMeanF S L f = 1 := by
  unfold labelMeanF
  have e : (List.range L).map f = List.replicate L 1 := by
    rw [List.eq_replicate_iff]
    refine ⟨by simp, ?_⟩
    intro x hx
    obtain ⟨j, hj, rfl⟩ := List.mem_map.mp hx
    exact h j (List.mem_range.mp hj)
  rw [e, S.sum_nat (fun x hx => ⟨1, by simpa using List.eq_of_mem_replicate hx⟩) (by simp; exact_mod_cast hL),
    fl_nat hL]
  simp only [List.sum_replicate, nsmul_eq_mul, mul_one]
  rw [div_self (by exact_mod_cast hpos.ne'), fl_one]

/-- Means of numbers with a small relative error. -/
theorem labelMeanF_close (S : Summation) {L k : ℕ} (hpos : 0 < L) (hL : L ≤ 2 ^ 53) {f g : ℕ → ℝ}
    (hf : ∀ j < L, 0 ≤ f j) (h : ∀ j < L, RelClose k (f j) (g j)) (hg : ∀ j < L, 0 ≤ g j) :
    RelClose (2 * L + k) (labelMeanF S L f) ((∑ j ∈ Finset.range L, g j) / L) := by
  unfold labelMeanF
  rw [fl_nat hL]
  have hLr : (0 : ℝ) < L := by exact_mod_cast hpos
  have hmem : ∀ x ∈ (List.range L).map f, 0 ≤ x := by
    intro x hx
    obtain ⟨j, hj, rfl⟩ := List.mem_map.mp hx
    exact hf j (List.mem_range.mp hj)
  have hne : (List.range L).map f ≠ [] := by simp; omega
  have h1 := S.sum_close hne hmem
  rw [List.length_map, List.length_range] at h1
  have h2 := h1.trans (RelClose.list_sum (List.range L) f g fun j hj => h j (List.mem_range.mp hj))
  have e : ((List.range L).map g).sum = ∑ j ∈ Finset.range L, g j := by
    rw [← List.sum_toFinset _ List.nodup_range, List.toFinset_range]
  rw [e] at h2
  have hG : 0 ≤ ∑ j ∈ Finset.range L, g j := Finset.sum_nonneg fun j hj => hg j (Finset.mem_range.mp hj)
  have hS : 0 ≤ S.sum ((List.range L).map f) := by
    rcases hG.eq_or_lt with h0 | h0
    · have := h2.2
      rw [← h0] at this
      have h3 := (mul_nonneg_iff_of_pos_right (rel_pos (2 * (L - 1) + k))).mp this
      exact h3
    · exact (h2.pos_iff.mpr h0).le
  have h4 := h2.div (RelClose.refl hLr.le 0) hS hG hLr hLr
  have h5 := (RelClose.round (div_nonneg hS hLr.le)).trans h4
  rwa [show 2 + (2 * (L - 1) + k + 0) = 2 * L + k by omega] at h5

end Verif
