/-
The head sampler in doubles is near the exact one, on every event.
-/
import Verif.Lemmas.FloatTail
import Verif.Props.FloatCftp

namespace Verif
open RandR

namespace Cftp

variable {c : Cftp}

theorem reject_range (hd : c.Dominated) : 0 ≤ 1 - c.totalW / c.totalBar ∧ 1 - c.totalW / c.totalBar ≤ 1 := by
  have h0 := totalW_nonneg hd
  have h1 := totalW_le hd
  have h2 := div_le_one_of_le₀ h1 (h0.trans h1)
  have h3 := div_nonneg h0 (h0.trans h1)
  constructor <;> linarith

theorem sample_discrete (hd : c.Dominated) : (c.sample reset).Discrete := by
  have hlist : ∀ (f : ℕ × ℕ → ℝ), ((c.posList.toFinset ×ˢ c.negList.toFinset).toList.map f).sum =
      ∑ p ∈ c.posList.toFinset, ∑ n ∈ c.negList.toFinset, f (p, n) := fun f => by
    rw [Finset.sum_map_toList, Finset.sum_product]
  obtain ⟨h0, h1⟩ := reject_range hd
  have hp0 := pow_nonneg h0 c.horizon
  have hp1 := pow_le_one₀ h0 h1 (n := c.horizon)
  refine discrete_of_nonneg (sampleLoop_proper _ _ _)
    (((1 - c.totalW / c.totalBar) ^ c.horizon, .ok (none, reset)) ::
      (c.posList.toFinset ×ˢ c.negList.toFinset).toList.map fun x =>
        ((1 - (1 - c.totalW / c.totalBar) ^ c.horizon) * (c.W x.1 x.2 / c.totalW), .ok (some x, reset))) ?_ ?_ ?_
  · intro q hq
    rcases List.mem_cons.mp hq with rfl | hq
    · exact hp0
    · obtain ⟨x, hx, rfl⟩ := List.mem_map.mp hq
      rw [Finset.mem_toList, Finset.mem_product] at hx
      have := hd.W_nonneg x.1 (List.mem_toFinset.mp hx.1) x.2 (List.mem_toFinset.mp hx.2)
      exact mul_nonneg (by linarith) (div_nonneg this (totalW_nonneg hd))
  · rw [List.map_cons, List.sum_cons, List.map_map]
    show (1 - c.totalW / c.totalBar) ^ c.horizon + ((c.posList.toFinset ×ˢ c.negList.toFinset).toList.map fun x =>
      (1 - (1 - c.totalW / c.totalBar) ^ c.horizon) * (c.W x.1 x.2 / c.totalW)).sum = 1
    rw [hlist]
    simp only [← Finset.mul_sum, ← Finset.sum_div]
    rw [show (∑ p ∈ c.posList.toFinset, ∑ n ∈ c.negList.toFinset, c.W p n) = c.totalW from rfl]
    by_cases hZ : c.totalW = 0
    · simp [hZ]
    · rw [div_self hZ]
      ring
  · intro F
    rw [expect_sample' hd, List.map_cons, List.sum_cons, List.map_map, add_comm]
    congr 1
    refine Eq.trans ?_ (hlist _).symm
    simp only [Function.comp]
    rw [Finset.sum_div, Finset.mul_sum]
    refine Finset.sum_congr rfl fun p _ => ?_
    rw [Finset.sum_div, Finset.mul_sum]
    refine Finset.sum_congr rfl fun n _ => ?_
    ring

theorem foldlF_none : ∀ (ds : List (ℕ × ℕ × ℝ)) (s : St), ds.foldl c.stepTF s = none →
    s = none ∧ ∀ d ∈ ds, ¬ d.2.2 < c.rF none d.1 d.2.1
  | [], s, h => ⟨h, by simp⟩
  | d :: ds, s, h => by
    obtain ⟨h1, h2⟩ := foldlF_none ds _ h
    unfold stepTF at h1
    split at h1
    · cases h1
    · rename_i hn
      subst h1
      refine ⟨rfl, fun d' hd' => ?_⟩
      rcases List.mem_cons.mp hd' with rfl | hd'
      · exact hn
      · exact h2 d' hd'

/-- If some output of the generator makes the sampler give up, it gives up with positive probability in exact
arithmetic. -/
theorem gives_up (hr : c.Ready) (hw : c.Whole) {ip iq : ℕ → ℕ} (hsel : c.Selects ip iq) {k : ℕ}
    {ω : List ℕ} (hω : ∀ x ∈ ω, x < 2 ^ 53) (hl : 3 ≤ ω.length)
    (h : (later ip iq (k + 1) 0 ω).foldl c.stepTF none = none) : c.totalW < c.totalBar := by
  have hall := (foldlF_none _ _ h).2
  have hv := later_valid hsel (k + 1) 0 ω hω
  obtain ⟨d, hd, hu⟩ : ∃ d ∈ later ip iq (k + 1) 0 ω, d.2.2 < 1 := by
    match ω, hl, hω with
    | a :: b :: e :: rest, _, hω =>
      refine ⟨(ip b, iq e, (a : ℝ) / ((2 ^ 53 : ℕ) : ℝ)), ?_, ?_⟩
      · rw [later]
        apply List.mem_append_right
        rw [show 2 ^ 0 - lenBefore 0 = 1 from rfl]
        simp only [blockAt, blockOf, List.take_succ_cons, List.take_zero, List.drop_succ_cons, List.drop_zero,
          List.map_cons, List.map_nil, List.zip_cons_cons, List.zip_nil_left, List.mem_singleton]
      · have : a < 2 ^ 53 := hω a (by simp)
        show (a : ℝ) / ((2 ^ 53 : ℕ) : ℝ) < 1
        rw [div_lt_one (by positivity)]
        exact_mod_cast this
  obtain ⟨hp, hn, h1, h2, -⟩ := hv d hd
  have hrf := hall d hd
  have hlt : c.W d.1 d.2.1 < c.wPos d.1 * c.wNeg d.2.1 := by
    refine lt_of_le_of_ne (hr.W_le _ hp _ hn) fun e => ?_
    have hb : c.wPos d.1 * c.wNeg d.2.1 ≠ 0 := (mul_pos h1 h2).ne'
    rw [rF_eq hr.toDominated hw none hp hn] at hrf
    have : c.ratio none d.1 d.2.1 = 1 := by
      simp only [ratio, wOf, barOf, e, mul_one]
      exact div_self hb
    rw [this, fl_one] at hrf
    exact hrf hu
  have hB : c.totalBar = ∑ p ∈ c.posList.toFinset, ∑ n ∈ c.negList.toFinset, c.wPos p * c.wNeg n := by
    unfold totalBar posWeights negWeights
    rw [← List.sum_toFinset _ hr.posNodup, ← List.sum_toFinset _ hr.negNodup, Finset.sum_mul_sum]
  rw [hB]
  refine Finset.sum_lt_sum (fun p hp => Finset.sum_le_sum fun n hn =>
    hr.W_le p (List.mem_toFinset.mp hp) n (List.mem_toFinset.mp hn)) ⟨d.1, List.mem_toFinset.mpr hp, ?_⟩
  exact Finset.sum_lt_sum (fun n hn => hr.W_le _ hp n (List.mem_toFinset.mp hn))
    ⟨d.2.1, List.mem_toFinset.mpr hn, hlt⟩

/-- The sampler of pairs in doubles, as a random program. -/
noncomputable def sampleBits (c : Cftp) : RandR (Option (ℕ × ℕ) × CftpState) :=
  (drawNumbers (2 ^ 53) 3072).bind fun ω => RandR.lift (c.sampleF reset ω)

theorem near_sample (hd : c.Dominated) (hw : c.Whole) (hp : c.posWeights.sum ≤ 2 ^ 53)
    (hn : c.negWeights.sum ≤ 2 ^ 53) (hpl : c.posList.length ≤ 2 ^ 23) (hnl : c.negList.length ≤ 2 ^ 23)
    (hit : c.maxIters = 1024) :
    Near (1024 * ((c.posList.length * (10 * c.posList.length + 11) + c.negList.length * (10 * c.negList.length + 11) +
        2) / 2 ^ 53)) (c.sample reset) c.sampleBits := by
  classical
  have hlb : lenBefore 11 = 1024 := by simp [lenBefore]
  have hk1 : 2 ^ 11 > c.maxIters := by rw [hit]; norm_num
  have hk2 : lenBefore 11 ≤ c.maxIters := by rw [hit, hlb]
  have hk3 : 0 < c.maxIters := by rw [hit]; norm_num
  have hdis := sample_discrete hd
  have hH : c.horizon ≠ 0 := by
    unfold horizon
    rw [if_neg (by omega)]
    positivity
  refine ⟨hdis, (drawNumbers_discrete _ _).bind fun _ _ => Discrete.lift _, ?_, ?_⟩
  · intro x hx
    unfold sampleBits at hx
    rw [outcome_bind] at hx
    rcases hx with ⟨ω, hω, hx⟩ | ⟨e, he, -⟩
    swap
    · obtain ⟨_, e', -⟩ := drawNumbers_outcome two_pow_ne _ he
      cases e'
    obtain ⟨_, e, hlen, hlt⟩ := drawNumbers_outcome two_pow_ne _ hω
    cases e
    have hx' : x = c.sampleF reset ω := hx
    have hl3 : 3 * lenBefore 11 ≤ ω.length := by rw [hlb, hlen]
    by_cases h : c.posWeights.sum = 0 ∨ c.negWeights.sum = 0
    · rw [sample_no_weights h, hx']
      unfold sampleF
      rw [sampleLoopF, if_neg (by rw [pow_zero]; omega), if_pos h]
      rfl
    · have hr := Ready.of_ne hd h
      obtain ⟨ip, iq, hsel⟩ := exists_selects hr hw hp hn hpl hnl
      have hval := valid_foldlF hd hw (later_valid hsel 11 0 ω hlt) (valid_none c)
      rw [sampleF_later hr hw hsel hk1 hk2 hlt hl3] at hx'
      have hB := totalBar_pos hr
      obtain ⟨h0, h1⟩ := reject_range hd
      rcases hD : (later ip iq 11 0 ω).foldl c.stepTF none with _ | ⟨p, n⟩
      · have hlt' := gives_up hr hw hsel (k := 10) hlt (by omega) hD
        rw [hD] at hx'
        subst hx'
        refine hdis.outcome_of_pos (F := fun y => if y = .ok (none, reset) then 1 else 0) ?_
          fun y hy => if_neg hy
        have hg := (C55_giving_up c hd).1
        unfold RandR.prob at hg
        have hpos : 0 < (1 - c.totalW / c.totalBar) ^ c.horizon := by
          apply pow_pos
          rw [sub_pos, div_lt_one hB]
          exact hlt'
        rw [expect_sample' hd]
        simp only [if_true, mul_one]
        have : 0 ≤ (1 - (1 - c.totalW / c.totalBar) ^ c.horizon) * ((∑ p ∈ c.posList.toFinset,
            ∑ n ∈ c.negList.toFinset, c.W p n * (if (Except.ok (some (p, n), reset) : Py _) = .ok (none, reset) then
              (1 : ℝ) else 0)) / c.totalW) := by
          simp
        linarith
      · rw [hD] at hx' hval
        subst hx'
        obtain ⟨hp1, hn1, hW⟩ := hval p n rfl
        have hZ : 0 < c.totalW := by
          refine lt_of_lt_of_le hW ?_
          refine le_trans ?_ (Finset.single_le_sum (f := fun p => ∑ n ∈ c.negList.toFinset, c.W p n)
            (fun p hp => Finset.sum_nonneg fun n hn =>
              hd.W_nonneg p (List.mem_toFinset.mp hp) n (List.mem_toFinset.mp hn)) (List.mem_toFinset.mpr hp1))
          exact Finset.single_le_sum (f := fun n => c.W p n)
            (fun n hn => hd.W_nonneg p hp1 n (List.mem_toFinset.mp hn)) (List.mem_toFinset.mpr hn1)
        have hs : 0 < 1 - (1 - c.totalW / c.totalBar) ^ c.horizon := by
          have h2 : 1 - c.totalW / c.totalBar < 1 := by
            have := div_pos hZ hB
            linarith
          have := pow_lt_one₀ h0 h2 hH
          linarith
        refine hdis.outcome_of_pos (F := fun y => if y = .ok (some (p, n), reset) then 1 else 0) ?_
          fun y hy => if_neg hy
        rw [expect_sample' hd]
        have hsum : 0 < ∑ p' ∈ c.posList.toFinset, ∑ n' ∈ c.negList.toFinset, c.W p' n' *
            (if (Except.ok (some (p', n'), reset) : Py (Option (ℕ × ℕ) × CftpState)) = .ok (some (p, n), reset) then
              (1 : ℝ) else 0) := by
          have hnn : ∀ p' ∈ c.posList.toFinset, ∀ n' ∈ c.negList.toFinset, 0 ≤ c.W p' n' *
              (if (Except.ok (some (p', n'), reset) : Py (Option (ℕ × ℕ) × CftpState)) = .ok (some (p, n), reset) then
                (1 : ℝ) else 0) := fun p' hp' n' hn' =>
            mul_nonneg (hd.W_nonneg p' (List.mem_toFinset.mp hp') n' (List.mem_toFinset.mp hn'))
              (by split <;> norm_num)
          refine Finset.sum_pos' (fun p' hp' => Finset.sum_nonneg (hnn p' hp')) ⟨p, List.mem_toFinset.mpr hp1, ?_⟩
          refine Finset.sum_pos' (hnn p (List.mem_toFinset.mpr hp1)) ⟨n, List.mem_toFinset.mpr hn1, ?_⟩
          rw [if_pos rfl, mul_one]
          exact hW
        have h2 : 0 ≤ (1 - c.totalW / c.totalBar) ^ c.horizon * (if (Except.ok (none, reset) :
            Py (Option (ℕ × ℕ) × CftpState)) = .ok (some (p, n), reset) then (1 : ℝ) else 0) :=
          mul_nonneg (pow_nonneg h0 _) (by split <;> norm_num)
        have h3 := mul_pos hs (div_pos hsum hZ)
        linarith
  · intro f hf
    have hb := average_sampleF hd hw hp hn hpl hnl hk1 hk2 hk3 hf
    rw [hlb, show 3 * 1024 = 3072 by norm_num] at hb
    unfold sampleBits
    rw [expect_bind, expect_drawNumbers two_pow_ne]
    refine le_trans (le_of_eq ?_) (hb.trans (le_of_eq ?_))
    · rfl
    · push_cast
      rfl

end Cftp

end Verif
