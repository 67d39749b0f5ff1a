/-
Drawing records in proportion to weights that are rounded.
-/
import Verif.Lemmas.FloatDouble

namespace Verif

open Cftp

/-- The normalised weights, as numbers. -/
theorem proba_double (S : Dbl.Order) (items : List ℕ) (w' w : ℕ → ℝ) (h0 : ∀ i ∈ items, 0 ≤ w' i ∧ 0 ≤ w i)
    (hc : ∀ i ∈ items, RelClose 2 (w' i) (w i)) (hs : 0 < (items.map w).sum) (hl : items.length ≤ 2 ^ 23)
    (hbig : ∀ i ∈ items, w' i ≤ 2 ^ 995) :
    ∃ v, 0 < v ∧ S.sum (items.map fun i => Dbl.num (w' i)) = .num v ∧
      ∀ i ∈ items, (Dbl.num (w' i)).div (.num v) = .num (fl (w' i / v)) ∧
        RelClose (2 * items.length + 4) (fl (w' i / v)) (w i / (items.map w).sum) := by
  have hne : items ≠ [] := by rintro rfl; simp at hs
  have hlen : 0 < items.length := List.length_pos_of_ne_nil hne
  have hlr : (items.length : ℝ) ≤ 2 ^ 23 := by exact_mod_cast hl
  have hn0 : ∀ x ∈ items.map w', 0 ≤ x := by
    intro x hx
    obtain ⟨i, hi, rfl⟩ := List.mem_map.mp hx
    exact (h0 i hi).1
  obtain ⟨B, hB⟩ : ∃ B : ℝ, B = 2 ^ 995 := ⟨_, rfl⟩
  have hB0 : 0 ≤ B := by rw [hB]; exact (pow_pos two_pos 995).le
  rw [← hB] at hbig
  have hsum : (items.map w').sum ≤ 2 ^ 23 * B := by
    have := List.sum_le_card_nsmul (items.map w') B (by
      intro x hx
      obtain ⟨i, hi, rfl⟩ := List.mem_map.mp hx
      exact hbig i hi)
    rw [List.length_map, nsmul_eq_mul] at this
    exact this.trans (mul_le_mul_of_nonneg_right hlr hB0)
  have hfac : ∀ k, k ≤ 2 * items.length + 4 → (1 + 1 / 2 ^ 53 : ℝ) ^ k ≤ 2 := by
    intro k hk
    have hk' : k ≤ 2 ^ 25 := by omega
    refine (rel_le (by omega)).trans ?_
    have : (k : ℝ) ≤ 2 ^ 25 := by exact_mod_cast hk'
    have h2 : 2 * (k : ℝ) / 2 ^ 53 ≤ 1 := by
      rw [div_le_one (by positivity)]
      calc 2 * (k : ℝ) ≤ 2 * 2 ^ 25 := by linarith
        _ ≤ 2 ^ 53 := by norm_num
    linarith
  have hlt : ∀ x : ℝ, x ≤ 2 ^ 23 * B * 2 → x < 2 ^ 1024 := by
    intro x hx
    refine lt_of_le_of_lt hx ?_
    rw [hB, ← pow_add, ← pow_succ]
    exact pow_lt_pow_right₀ (by norm_num) (by norm_num)
  obtain ⟨v, hv, hv0, hvc⟩ := S.sum_num (items.map w') (by simpa using hne) hn0 (hlt _ (by
    rw [List.length_map]
    exact mul_le_mul hsum (hfac _ (by omega)) (rel_pos _).le (by positivity)))
  rw [List.map_map, List.length_map] at *
  have hcs : RelClose 2 (items.map w').sum (items.map w).sum := RelClose.list_sum items w' w hc
  have hvs := hvc.trans hcs
  rw [show 2 * (items.length - 1) + 2 = 2 * items.length by omega] at hvs
  have hvpos : 0 < v := hvs.pos_iff.mpr hs
  refine ⟨v, hvpos, hv, fun i hi => ?_⟩
  have hq : w i / (items.map w).sum ≤ 1 := by
    rw [div_le_one hs]
    exact List.single_le_sum (by
      intro x hx
      obtain ⟨j, hj, rfl⟩ := List.mem_map.mp hx
      exact (h0 j hj).2) _ (List.mem_map_of_mem hi)
  have hq0 : 0 ≤ w i / (items.map w).sum := div_nonneg (h0 i hi).2 hs.le
  have hr := (RelClose.round (div_nonneg (h0 i hi).1 hv0)).trans ((hc i hi).div hvs (h0 i hi).1 (h0 i hi).2 hvpos hs)
  rw [show 2 + (2 + 2 * items.length) = 2 * items.length + 4 by omega] at hr
  refine ⟨?_, hr⟩
  show (if v = 0 then _ else Dbl.round (w' i / v)) = _
  rw [if_neg hvpos.ne']
  refine Dbl.round_num (lt_of_le_of_lt hr.1 (lt_of_le_of_lt (mul_le_mul hq (hfac _ le_rfl) (rel_pos _).le zero_le_one) ?_))
  rw [one_mul]
  calc (2 : ℝ) = 2 ^ 1 := by norm_num
    _ < 2 ^ 1024 := pow_lt_pow_right₀ (by norm_num) (by norm_num)

theorem select_arith {n : ℕ} (hn : 0 < n) :
    n * ((10 * (n : ℝ) + 3) / 2 ^ 53 + 6 * (2 * (2 * n + 4 : ℕ) / 2 ^ 53)) + 2 * (2 * n + 4 : ℕ) / 2 ^ 53 ≤
      n * (34 * n + 63) / 2 ^ 53 := by
  have h1 : (1 : ℝ) ≤ n := by exact_mod_cast hn
  have e : n * ((10 * (n : ℝ) + 3) / 2 ^ 53 + 6 * (2 * (2 * n + 4 : ℕ) / 2 ^ 53)) + 2 * (2 * n + 4 : ℕ) / 2 ^ 53 =
      (n * (34 * n + 51) + (4 * n + 8)) / 2 ^ 53 := by
    push_cast
    ring
  rw [e]
  refine div_le_div_of_nonneg_right ?_ (by positivity)
  nlinarith

/-- What the outputs of the generator select. -/
theorem selects_double (S : Dbl.Order) (items : List ℕ) (hnd : items.Nodup) (D : ℕ → Dbl) (w' w : ℕ → ℝ)
    (hD : ∀ i ∈ items, D i = .num (w' i)) (h0 : ∀ i ∈ items, 0 ≤ w' i ∧ 0 ≤ w i)
    (hc : ∀ i ∈ items, RelClose 2 (w' i) (w i)) (hs : 0 < (items.map w).sum) (hl : items.length ≤ 2 ^ 23)
    (hbig : ∀ i ∈ items, w' i ≤ 2 ^ 995) :
    S.sum (items.map D) ≠ .num 0 ∧ ∃ ip : ℕ → ℕ,
      (∀ ks : List ℕ, (∀ k ∈ ks, k < 2 ^ 53) →
        choicesD items ((items.map D).map fun x => x.div (S.sum (items.map D))) ks = .ok (ks.map ip)) ∧
      (∀ k < 2 ^ 53, ip k ∈ items ∧ 0 < w (ip k)) ∧
      ∑ p ∈ items.toFinset, |shareOf (2 ^ 53) (fun k => ip k = p) - w p / (items.map w).sum| ≤
        items.length * (34 * items.length + 63) / 2 ^ 53 := by
  have hne : items ≠ [] := by rintro rfl; simp at hs
  have hlen : 0 < items.length := List.length_pos_of_ne_nil hne
  have hmap : items.map D = items.map fun i => Dbl.num (w' i) := List.map_congr_left hD
  obtain ⟨v, hv, hS, hp⟩ := proba_double S items w' w h0 hc hs hl hbig
  rw [hmap, hS, List.map_map]
  refine ⟨by simpa using hv.ne', ?_⟩
  set p := items.map fun i => fl (w' i / v) with hpd
  have hpl : p.length = items.length := by rw [hpd, List.length_map]
  have hmapp : (items.map ((fun x : Dbl => x.div (.num v)) ∘ fun i => Dbl.num (w' i))) = p.map Dbl.num := by
    rw [hpd, List.map_map]
    exact List.map_congr_left fun i hi => (hp i hi).1
  rw [hmapp]
  have hpn : ∀ q ∈ p, 0 ≤ q := by
    intro q hq
    obtain ⟨i, hi, rfl⟩ := List.mem_map.mp hq
    exact fl_nonneg (div_nonneg (h0 i hi).1 hv.le)
  have hq0 : ∀ i ∈ items, 0 ≤ w i / (items.map w).sum := fun i hi => div_nonneg (h0 i hi).2 hs.le
  have hq1 : (items.map fun i => w i / (items.map w).sum).sum = 1 := by
    have : (items.map fun i => w i / (items.map w).sum) = items.map fun i => w i * ((items.map w).sum)⁻¹ := by
      simp only [div_eq_mul_inv]
    rw [this, List.sum_map_mul_right, mul_inv_cancel₀ hs.ne']
  have hj : 2 * items.length + 4 ≤ 2 ^ 52 := by omega
  have hps : RelClose (2 * items.length + 4) p.sum 1 := by
    rw [← hq1]
    exact RelClose.list_sum items _ _ fun i hi => (hp i hi).2
  have hη := rel_abs hj (List.sum_nonneg hpn) zero_le_one hps
  rw [one_mul] at hη
  set η : ℝ := 2 * (2 * items.length + 4 : ℕ) / 2 ^ 53 with hηd
  have hη0 : 0 ≤ η := by positivity
  have hηle : η ≤ 1 / 2 ^ 28 + 1 / 2 ^ 30 := by
    have hlr : ((2 * items.length + 4 : ℕ) : ℝ) ≤ 2 ^ 24 + 4 := by
      have : 2 * items.length + 4 ≤ 2 ^ 24 + 4 := by omega
      exact_mod_cast this
    rw [hηd, div_le_iff₀ (by positivity)]
    refine (mul_le_mul_of_nonneg_left hlr (by norm_num)).trans ?_
    norm_num
  obtain ⟨hsel, hch⟩ := chance_general p (by
    intro q hq
    obtain ⟨i, hi, rfl⟩ := List.mem_map.mp hq
    exact double_fl _) hpn (by omega) (by omega) hηle hη
  choose! idx h1 h2 h3 using hsel
  refine ⟨fun k => items.getD (idx k) 0, fun ks hks => ?_, fun k hk => ?_, ?_⟩
  · unfold choicesD
    rw [Dbl.numbers_map]
    show (do
      let _ ← choiceF p 0
      choicesF items p ks) = _
    rw [h1 0 (by positivity)]
    exact choicesF_eq (ip := fun k => items.getD (idx k) 0) (fun k hk => by
      rw [h1 k hk]
      exact pyGet_getD (by rw [← hpl]; exact h2 k hk) 0) ks hks
  · have hi : idx k < items.length := by rw [← hpl]; exact h2 k hk
    have hne0 := h3 k hk
    rw [List.getD_eq_getElem _ _ (h2 k hk)] at hne0
    simp only [hpd, List.getElem_map] at hne0
    show items.getD (idx k) 0 ∈ items ∧ 0 < w (items.getD (idx k) 0)
    rw [List.getD_eq_getElem _ _ hi]
    have hm := List.getElem_mem hi
    refine ⟨hm, (hc _ hm).pos_iff.mp (lt_of_le_of_ne (h0 _ hm).1 fun e => hne0 ?_)⟩
    rw [← e, zero_div, fl_zero]
  · have hterm : ∀ i ∈ items.toFinset, |shareOf (2 ^ 53) (fun k => items.getD (idx k) 0 = i) -
        w i / (items.map w).sum| ≤ ((10 * (items.length : ℝ) + 3) / 2 ^ 53 + 6 * η) + w i / (items.map w).sum * η := by
      intro x hx
      rw [List.mem_toFinset] at hx
      obtain ⟨i, hi, rfl⟩ := List.getElem_of_mem hx
      have he := hch i (by rw [hpl]; exact hi)
      have hget : p.getD i 0 = fl (w' items[i] / v) := by
        rw [List.getD_eq_getElem _ _ (by rw [hpl]; exact hi)]
        simp only [hpd, List.getElem_map]
      rw [hget, hpl] at he
      have hsh : shareOf (2 ^ 53) (fun k => items.getD (idx k) 0 = items[i]) = chanceF p i := by
        rw [chanceF_share]
        apply shareOf_congr
        intro k hk
        rw [h1 k hk, List.getD_eq_getElem _ _ (by rw [← hpl]; exact h2 k hk), hnd.getElem_inj_iff, Except.ok.injEq]
      rw [hsh]
      have hm := List.getElem_mem hi
      have hb := rel_abs hj (fl_nonneg (div_nonneg (h0 _ hm).1 hv.le)) (hq0 _ hm) (hp _ hm).2
      exact (abs_sub_le _ (fl (w' items[i] / v)) _).trans (add_le_add he hb)
    refine (Finset.sum_le_sum hterm).trans ?_
    rw [Finset.sum_add_distrib, Finset.sum_const, List.toFinset_card_of_nodup hnd, nsmul_eq_mul, ← Finset.sum_mul]
    have hq1' : ∑ i ∈ items.toFinset, w i / (items.map w).sum = 1 := by
      rw [← hq1, List.sum_toFinset _ hnd]
    rw [hq1', one_mul]
    exact select_arith hlen

end Verif
