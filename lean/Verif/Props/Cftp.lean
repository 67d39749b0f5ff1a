/-
Properties C53-C57: coupling from the past.
-/
import Verif.Lemmas.Head

namespace Verif
namespace Cftp

/-! ### A concrete sampler used in the examples -/

/-- Record 0 (positive) has samples {0, 1}, record 1 (positive) has {2}, record 2 (negative) has {1}. -/
def demoRecords : List (List ℕ) := [[0, 1], [2], [1]]

noncomputable def demo : Cftp :=
  { posList := [0, 1], negList := [2], wPos := fun i => ((demoRecords.getD i []).length : ℝ),
    wNeg := fun _ => 1, W := discrimWeight demoRecords, maxIters := 1024 }

theorem demo_dominated : demo.Dominated where
  posNodup := by decide
  negNodup := by decide
  wPos_nonneg := fun p _ => by simp only [demo]; positivity
  wNeg_nonneg := fun n _ => by simp only [demo]; positivity
  W_nonneg := fun p _ n _ => by simp only [demo, discrimWeight]; positivity
  W_le := fun p _ n _ => tight_dominates demoRecords p n

theorem demo_weights : demo.W 0 2 = 1 ∧ demo.W 1 2 = 1 ∧ demo.totalW = 2 ∧ demo.totalBar = 3 := by
  have h1 : (recordAt demoRecords 0 \ recordAt demoRecords 2).card = 1 := by decide
  have h2 : (recordAt demoRecords 1 \ recordAt demoRecords 2).card = 1 := by decide
  have e : demo.posList.toFinset = {0, 1} := by decide
  have e' : demo.negList.toFinset = {2} := by decide
  refine ⟨by simp [demo, discrimWeight, h1], by simp [demo, discrimWeight, h2], ?_, ?_⟩
  · unfold totalW
    rw [e, e']
    rw [Finset.sum_pair (by decide)]
    simp only [Finset.sum_singleton, demo, discrimWeight, h1, h2]
    norm_num
  · simp only [totalBar, posWeights, negWeights, demo, demoRecords, List.map_cons, List.map_nil,
      List.sum_cons, List.sum_nil, List.getD]
    norm_num

theorem demo_ready : demo.Ready :=
  Ready.of_ne demo_dominated (by
    simp only [posWeights, negWeights, demo, demoRecords, List.map_cons, List.map_nil,
      List.sum_cons, List.sum_nil, List.getD]
    norm_num)

/-! ### C53 -/

/-- **C53** If the backward simulation of some draws ends in a pair, then putting any older draws in
front leaves the result unchanged. -/
theorem C53_prepending_draws (c : Cftp) (hd : c.Dominated) (s : CftpState) (us : List ℝ) (ps ns : List ℕ)
    (hp : ps.length = us.length) (hn : ns.length = us.length)
    (hv : ∀ d ∈ CftpState.draws s, c.ValidDraw d)
    (hold : ∀ d ∈ CftpState.draws { us := us, ps := ps, ns := ns }, c.ValidDraw d) (pr : ℕ × ℕ)
    (h : c.simulate s = .ok (some pr)) :
    c.simulate { us := us ++ s.us, ps := ps ++ s.ps, ns := ns ++ s.ns } = .ok (some pr) := by
  have hda := draws_append (u1 := us) (u2 := s.us) (p1 := ps) (p2 := s.ps) (n1 := ns) (n2 := s.ns) hp hn
  rw [simulate_eq hd hv] at h
  have h := Except.ok.inj h
  rw [simulate_eq hd, hda, List.foldl_append]
  · have h1 := foldl_of_none hd hv (valid_foldl hd hold (valid_none c)) (by rw [h]; simp)
    exact congrArg Except.ok (h1.trans h)
  · intro d hm
    rw [hda] at hm
    rcases List.mem_append.mp hm with h1 | h1
    · exact hold d h1
    · exact hv d h1

/-- The draw that proposes (0, 2) with uniform number 1/4 moves there; older draws do not matter. -/
example : demo.simulate { us := [3 / 4, 1 / 4], ps := [1, 0], ns := [2, 2] } = .ok (some (0, 2)) := by
  have hv : ∀ d ∈ CftpState.draws { us := [(1 : ℝ) / 4], ps := [0], ns := [2] }, demo.ValidDraw d := by
    simp [CftpState.draws, ValidDraw, demo, demoRecords]
  have hv' : ∀ d ∈ CftpState.draws { us := [(3 : ℝ) / 4], ps := [1], ns := [2] }, demo.ValidDraw d := by
    simp [CftpState.draws, ValidDraw, demo, demoRecords]
    norm_num
  have h0 : demo.simulate { us := [(1 : ℝ) / 4], ps := [0], ns := [2] } = .ok (some (0, 2)) := by
    rw [simulate_eq demo_dominated hv]
    simp only [CftpState.draws, List.zip_cons_cons, List.zip_nil_right, List.foldl_cons, List.foldl_nil,
      stepT]
    rw [if_pos]
    have := demo_weights.1
    simp only [ratio, wOf, barOf, this]
    simp [demo, demoRecords]
    norm_num
  exact C53_prepending_draws demo demo_dominated { us := [1 / 4], ps := [0], ns := [2] } [3 / 4] [1] [2]
    rfl rfl hv hv' (0, 2) h0

/-! ### C54 -/

/-- **C54** If the backward simulation from the undetermined state ends in a pair, then the same draws
started from any pair that can be separated end in that same pair. -/
theorem C54_coalescence (c : Cftp) (hd : c.Dominated) (s : CftpState)
    (hv : ∀ d ∈ CftpState.draws s, c.ValidDraw d) (pr : ℕ × ℕ) (h : c.simulate s = .ok (some pr))
    (p n : ℕ) (hp : p ∈ c.posList) (hn : n ∈ c.negList) (hW : 0 < c.W p n) :
    c.run (c.atPair p n) (CftpState.draws s) = .ok (c.atPair pr.1 pr.2) := by
  have hs : c.Valid (some (p, n)) := by
    intro p' n' he
    cases he
    exact ⟨hp, hn, hW⟩
  rw [simulate_eq hd hv] at h
  have h := Except.ok.inj h
  have h1 := run_chainOf hd hv hs
  rw [foldl_of_none hd hv hs (by rw [h]; simp), h] at h1
  exact h1

example : ∃ s : CftpState, (∀ d ∈ CftpState.draws s, demo.ValidDraw d) ∧
    demo.simulate s = .ok (some (0, 2)) ∧ 0 < demo.W 1 2 := by
  have hv : ∀ d ∈ CftpState.draws { us := [(1 : ℝ) / 4], ps := [0], ns := [2] }, demo.ValidDraw d := by
    simp [CftpState.draws, ValidDraw, demo, demoRecords]
  refine ⟨_, hv, ?_, by rw [demo_weights.2.1]; norm_num⟩
  rw [simulate_eq demo_dominated hv]
  simp only [CftpState.draws, List.zip_cons_cons, List.zip_nil_right, List.foldl_cons, List.foldl_nil,
    stepT]
  rw [if_pos]
  have := demo_weights.1
  simp only [ratio, wOf, barOf, this]
  simp [demo, demoRecords]
  norm_num

/-! ### C55 -/

theorem totalW_nonneg {c : Cftp} (hd : c.Dominated) : 0 ≤ c.totalW :=
  Finset.sum_nonneg fun p hp => Finset.sum_nonneg fun n hn =>
    hd.W_nonneg p (List.mem_toFinset.mp hp) n (List.mem_toFinset.mp hn)

theorem totalW_le {c : Cftp} (hd : c.Dominated) : c.totalW ≤ c.totalBar := by
  have h : c.totalBar = ∑ p ∈ c.posList.toFinset, ∑ n ∈ c.negList.toFinset, c.wPos p * c.wNeg n := by
    unfold totalBar posWeights negWeights
    rw [← List.sum_toFinset _ hd.posNodup, ← List.sum_toFinset _ hd.negNodup, Finset.sum_mul_sum]
  rw [h]
  exact Finset.sum_le_sum fun p hp => Finset.sum_le_sum fun n hn =>
    hd.W_le p (List.mem_toFinset.mp hp) n (List.mem_toFinset.mp hn)

/-- With a zero sum of proposal weights `sample` returns `None` without drawing. -/
theorem sample_no_weights {c : Cftp} (h : c.posWeights.sum = 0 ∨ c.negWeights.sum = 0) :
    c.sample reset = pure (none, reset) := by
  unfold sample
  rw [sampleLoop]
  simp only [if_pos h, ite_self]

/-- The event that `sample` returns a pair, as an expectation. -/
theorem expect_sample' {c : Cftp} (hd : c.Dominated) (f : Py (Option (ℕ × ℕ) × CftpState) → ℝ) :
    (c.sample reset).expect f =
      (1 - (1 - c.totalW / c.totalBar) ^ c.horizon) *
        ((∑ p ∈ c.posList.toFinset, ∑ n ∈ c.negList.toFinset, c.W p n * f (.ok (some (p, n), reset))) / c.totalW) +
      (1 - c.totalW / c.totalBar) ^ c.horizon * f (.ok (none, reset)) := by
  by_cases h : c.posWeights.sum = 0 ∨ c.negWeights.sum = 0
  · have hB : c.totalBar = 0 := by
      rcases h with h | h <;> simp [totalBar, h]
    rw [sample_no_weights h, hB]
    simp only [div_zero, sub_zero, one_pow, sub_self, zero_mul, zero_add, one_mul]
    rfl
  · exact expect_sample (Ready.of_ne hd h) f

/-- **C55** For a dominated target, `sample` returns the pair `(p, n)` with probability its true weight
over the total true weight, times the probability of not giving up. The latter is
`1 - (1 - Z/B)^H` with `Z` the total true weight, `B` the total proposal weight and `H` the largest
power of two not above `max_iters`. -/
theorem C55_pairs (c : Cftp) (hd : c.Dominated) (p n : ℕ) (hp : p ∈ c.posList) (hn : n ∈ c.negList) :
    (c.sample reset).prob (.ok (some (p, n), reset)) =
      (1 - (1 - c.totalW / c.totalBar) ^ c.horizon) * (c.W p n / c.totalW) := by
  classical
  unfold RandR.prob
  rw [expect_sample' hd, if_neg (by simp), mul_zero, add_zero]
  congr 2
  rw [Finset.sum_eq_single p, Finset.sum_eq_single n, if_pos rfl, mul_one]
  · intro b _ hb
    rw [if_neg (by simpa using hb), mul_zero]
  · intro h
    exact absurd (List.mem_toFinset.mpr hn) h
  · intro b _ hb
    apply Finset.sum_eq_zero
    intro m _
    rw [if_neg, mul_zero]
    intro he
    cases he
    exact hb rfl
  · intro h
    exact absurd (List.mem_toFinset.mpr hp) h

/-- **C55** `sample` gives up with probability `(1 - Z/B)^H`. -/
theorem C55_giving_up (c : Cftp) (hd : c.Dominated) :
    (c.sample reset).prob (.ok (none, reset)) = (1 - c.totalW / c.totalBar) ^ c.horizon ∧
    0 ≤ c.totalW ∧ c.totalW ≤ c.totalBar := by
  classical
  refine ⟨?_, totalW_nonneg hd, totalW_le hd⟩
  unfold RandR.prob
  rw [expect_sample' hd, if_pos rfl, mul_one]
  rw [Finset.sum_eq_zero, zero_div, mul_zero, zero_add]
  intro p _
  apply Finset.sum_eq_zero
  intro n _
  rw [if_neg (by simp), mul_zero]

/-- **C55** Conditionally on success the sample is exact: the probability of `(p, n)` divided by the
probability of not giving up is the share of its true weight. -/
theorem C55_exact_given_success (c : Cftp) (hd : c.Dominated) (hmax : 1 ≤ c.maxIters) (hZ : 0 < c.totalW)
    (p n : ℕ) (hp : p ∈ c.posList) (hn : n ∈ c.negList) :
    0 < 1 - (c.sample reset).prob (.ok (none, reset)) ∧
    (c.sample reset).prob (.ok (some (p, n), reset)) / (1 - (c.sample reset).prob (.ok (none, reset))) =
      c.W p n / ∑ p ∈ c.posList.toFinset, ∑ n ∈ c.negList.toFinset, c.W p n := by
  have hB : 0 < c.totalBar := lt_of_lt_of_le hZ (totalW_le hd)
  have hpos : 0 < 1 - (1 - c.totalW / c.totalBar) ^ c.horizon := by
    have h1 : 1 - c.totalW / c.totalBar < 1 := by
      have := div_pos hZ hB
      linarith
    have h0 : 0 ≤ 1 - c.totalW / c.totalBar := by
      have := (div_le_one hB).mpr (totalW_le hd)
      linarith
    have hH : c.horizon ≠ 0 := by
      unfold horizon
      rw [if_neg (by omega)]
      positivity
    have := pow_lt_one₀ h0 h1 hH
    linarith
  rw [(C55_giving_up c hd).1, C55_pairs c hd p n hp hn]
  refine ⟨hpos, ?_⟩
  rw [mul_div_assoc, mul_comm, div_mul_cancel₀]
  · rfl
  · exact hpos.ne'

/-- In the example both pairs are drawn with probability `1/2` of the success probability `1 - (1/3)^1024`. -/
example : (demo.sample reset).prob (.ok (some (0, 2), reset)) = (1 - (1 / 3) ^ 1024) * (1 / 2) := by
  rw [C55_pairs demo demo_dominated 0 2 (by decide) (by decide)]
  obtain ⟨h1, -, h2, h3⟩ := demo_weights
  have hh : demo.horizon = 1024 := by
    have : Nat.log 2 1024 = 10 := by norm_num [Nat.log_eq_iff]
    simp [horizon, demo, this]
  rw [h1, h2, h3, hh]
  norm_num

/-! ### C56 -/

/-- **C56** Every way `sample` can end: `None`, or a listed positive with a listed negative record whose
true weight is positive. It never raises, and the lists are empty afterwards. -/
theorem C56_sample_outcomes (c : Cftp) (hd : c.Dominated) (x : Py (Option (ℕ × ℕ) × CftpState))
    (h : (c.sample reset).Outcome x) :
    x = .ok (none, reset) ∨
    ∃ p n, x = .ok (some (p, n), reset) ∧ p ∈ c.posList ∧ n ∈ c.negList ∧ 0 < c.W p n := by
  by_cases hz : c.posWeights.sum = 0 ∨ c.negWeights.sum = 0
  · rw [sample_no_weights hz] at h
    exact Or.inl h
  · have hr := Ready.of_ne hd hz
    obtain ⟨D, rfl, hD⟩ := sampleLoop_outcome hr (c.maxIters - 0) 0 reset (le_refl _)
      (by simpa [lenBefore] using goodState_reset) h
    rcases D with _ | ⟨p, n⟩
    · exact Or.inl rfl
    · exact Or.inr ⟨p, n, rfl, hD p n rfl⟩

/-- **C56** Growing the horizon from lists of common length `L` to `m` steps always succeeds, gives three
lists of length `m` and keeps the old draws at the end. -/
theorem C56_lists (c : Cftp) (hd : c.Dominated) (hs : c.posWeights.sum ≠ 0 ∧ c.negWeights.sum ≠ 0)
    (s : CftpState) (L m : ℕ) (hm : 0 < m) (hL : L ≤ m) (h1 : s.us.length = L) (h2 : s.ps.length = L)
    (h3 : s.ns.length = L) (hu : ∀ u ∈ s.us, 0 ≤ u)
    (hp : ∀ p ∈ s.ps, p ∈ c.posList ∧ 0 < c.wPos p) (hn : ∀ n ∈ s.ns, n ∈ c.negList ∧ 0 < c.wNeg n)
    (x : Py CftpState) (h : (c.addData m s).Outcome x) :
    ∃ us ps ns, x = .ok { us := us ++ s.us, ps := ps ++ s.ps, ns := ns ++ s.ns } ∧
      (us ++ s.us).length = m ∧ (ps ++ s.ps).length = m ∧ (ns ++ s.ns).length = m ∧
      ∀ d ∈ CftpState.draws { us := us ++ s.us, ps := ps ++ s.ps, ns := ns ++ s.ns }, c.ValidDraw d := by
  obtain ⟨us, ps, ns, e, -, -, -, hg⟩ := addData_outcome (Ready.of_ne hd (by tauto))
    (⟨h1, h2, h3, hu, hp, hn⟩ : c.GoodState L s) hm hL h
  exact ⟨us, ps, ns, e, hg.usLen, hg.psLen, hg.nsLen, hg.validDraws⟩

example : demo.posWeights.sum ≠ 0 ∧ demo.negWeights.sum ≠ 0 := ⟨demo_ready.posSum.ne', demo_ready.negSum.ne'⟩

end Cftp
end Verif
