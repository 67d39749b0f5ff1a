/-
Property C74: sampling with details.
-/
import Verif.Props.Head

namespace Verif

theorem RandR.bind_assoc {α β γ : Type} (m : RandR α) (f : α → RandR β) (g : β → RandR γ) :
    (m.bind f).bind g = m.bind fun a => (f a).bind g := by
  induction m with
  | done r => rcases r with e | a <;> rfl
  | choice p k ih => simp only [RandR.bind, ih]
  | unif k ih => simp only [RandR.bind, ih]

namespace Cftp
variable {c : Cftp}

/-- The result of `sample(return_details=True)` without the details. -/
def Detailed.pair : Detailed → Option (ℕ × ℕ)
  | .bareNone => none
  | .withDetails D _ => D

theorem sampleLoopDetailed_forget (k : ℕ) : ∀ (i : ℕ) (h : Option ℕ) (s : CftpState), c.maxIters - i ≤ k →
    (2 ^ i > c.maxIters → h ≠ none) →
    ((c.sampleLoopDetailed i h s).bind fun r => .done (.ok (Detailed.pair r.1, r.2))) = c.sampleLoop i s := by
  induction k with
  | zero =>
    intro i h s hk hh
    have : i < 2 ^ i := Nat.lt_two_pow_self
    have hlt : 2 ^ i > c.maxIters := by omega
    rw [sampleLoopDetailed, sampleLoop, if_pos hlt, if_pos hlt]
    cases h with
    | none => exact absurd rfl (hh hlt)
    | some n => rfl
  | succ k ih =>
    intro i h s hk hh
    rw [sampleLoopDetailed, sampleLoop]
    by_cases hlt : 2 ^ i > c.maxIters
    · rw [if_pos hlt, if_pos hlt]
      cases h with
      | none => exact absurd rfl (hh hlt)
      | some n => rfl
    · rw [if_neg hlt, if_neg hlt]
      by_cases hz : c.posWeights.sum = 0 ∨ c.negWeights.sum = 0
      · rw [if_pos hz, if_pos hz]; rfl
      · rw [if_neg hz, if_neg hz]
        simp only [RandR.bind_eq, RandR.bind_assoc]
        congr 1
        funext s'
        cases hsim : c.simulate s' with
        | error e => rfl
        | ok D =>
          simp only [RandR.lift, RandR.bind]
          cases D with
          | some pr => rfl
          | none =>
            have : i < 2 ^ i := Nat.lt_two_pow_self
            exact ih (i + 1) _ s' (by omega) (by simp)

theorem sampleLoopDetailed_outcome (hr : c.Ready) {x : Py (Detailed × CftpState)} (k : ℕ) :
    ∀ (i : ℕ) (h : Option ℕ) (s : CftpState), c.maxIters - i ≤ k → c.GoodState (lenBefore i) s →
      (2 ^ i > c.maxIters → h ≠ none) → (∀ n, h = some n → ∃ j, n = 2 ^ j ∧ n ≤ c.maxIters) →
      (c.sampleLoopDetailed i h s).Outcome x →
      ∃ D j, x = .ok (.withDetails D (2 ^ j), reset) ∧ c.Valid D ∧ 2 ^ j ≤ c.maxIters := by
  have fin : ∀ (i : ℕ) (h : Option ℕ), (2 ^ i > c.maxIters → h ≠ none) → 2 ^ i > c.maxIters →
      (∀ n, h = some n → ∃ j, n = 2 ^ j ∧ n ≤ c.maxIters) → (finishDetailed none h).Outcome x →
      ∃ D j, x = .ok (.withDetails D (2 ^ j), reset) ∧ c.Valid D ∧ 2 ^ j ≤ c.maxIters := by
    intro i h h1 h2 h3 ho
    cases h with
    | none => exact absurd rfl (h1 h2)
    | some n =>
      obtain ⟨j, rfl, hj⟩ := h3 n rfl
      exact ⟨none, j, ho, valid_none c, hj⟩
  induction k with
  | zero =>
    intro i h s hk _ h1 h3 ho
    have : i < 2 ^ i := Nat.lt_two_pow_self
    rw [sampleLoopDetailed, if_pos (by omega)] at ho
    exact fin i h h1 (by omega) h3 ho
  | succ k ih =>
    intro i h s hk hs h1 h3 ho
    rw [sampleLoopDetailed] at ho
    by_cases hlt : 2 ^ i > c.maxIters
    · rw [if_pos hlt] at ho
      exact fin i h h1 hlt h3 ho
    · rw [if_neg hlt, if_neg (by rintro (h1 | h1); exacts [hr.posSum.ne' h1, hr.negSum.ne' h1])] at ho
      simp only [RandR.bind_eq, RandR.outcome_bind] at ho
      have hpos : 0 < 2 ^ i := by positivity
      rcases ho with ⟨s', hs', ho⟩ | ⟨e, he, -⟩
      · obtain ⟨us, ps, ns, e', -, -, -, hg⟩ := addData_outcome hr hs hpos (lenBefore_le i) hs'
        cases e'
        have hsim := simulate_eq hr.toDominated hg.validDraws
        have hlen : (CftpState.draws { us := us ++ s.us, ps := ps ++ s.ps, ns := ns ++ s.ns }).length = 2 ^ i := by
          have a := hg.usLen; have b := hg.psLen; have d := hg.nsLen
          simp only [CftpState.draws, List.length_zip]
          simp only at a b d
          rw [a, b, d]
          simp
        rcases ho with ⟨D, hD, ho⟩ | ⟨e, he, -⟩
        · rw [RandR.lift, hsim] at hD
          have hDv : c.Valid D := by
            rw [Except.ok.inj hD]
            exact valid_foldl hr.toDominated hg.validDraws (valid_none c)
          rcases D with _ | pr
          · have : i < 2 ^ i := Nat.lt_two_pow_self
            refine ih (i + 1) _ _ (by omega) (by simpa [lenBefore] using hg) (by simp) ?_ ho
            intro n hn
            cases hn
            exact ⟨i, hlen, by rw [hlen]; omega⟩
          · simp only [hlen] at ho
            exact ⟨some pr, i, ho, hDv, by omega⟩
        · rw [RandR.lift, hsim] at he
          cases he
      · obtain ⟨_, _, _, e', -⟩ := addData_outcome hr hs hpos (lenBefore_le i) he
        cases e'

end Cftp

open Cftp

/-- **C74** Asking for details does not change what is drawn: dropping the details from the result of
`CFTP.sample(return_details=True)` gives, draw for draw, `CFTP.sample()`. -/
theorem C74_details_same_draws (c : Cftp) (hm : 1 ≤ c.maxIters) (s : CftpState) :
    ((c.sampleDetailed s).bind fun r => pure (Detailed.pair r.1, r.2)) = c.sample s :=
  sampleLoopDetailed_forget _ 0 none s (le_refl _) (by intro h; simp at h; omega)

/-- **C74** Everything `CFTP.sample(return_details=True)` can return on a fresh dominated chain: a bare
`None` exactly when the weights of one side sum to zero; otherwise `None` or a pair with positive weight,
together with a number of iterations that is a power of two not above `max_iters`. -/
theorem C74_details_outcomes (c : Cftp) (hd : c.Dominated) (hm : 1 ≤ c.maxIters)
    (x : Py (Detailed × CftpState)) (h : (c.sampleDetailed reset).Outcome x) :
    ((c.posWeights.sum = 0 ∨ c.negWeights.sum = 0) → x = .ok (.bareNone, reset)) ∧
    (c.posWeights.sum ≠ 0 → c.negWeights.sum ≠ 0 →
      ∃ D j, x = .ok (.withDetails D (2 ^ j), reset) ∧ 2 ^ j ≤ c.maxIters ∧
        ∀ p n, D = some (p, n) → p ∈ c.posList ∧ n ∈ c.negList ∧ 0 < c.W p n) := by
  constructor
  · intro hz
    unfold sampleDetailed at h
    rw [sampleLoopDetailed, if_neg (by simp; omega), if_pos hz] at h
    exact h
  · intro h1 h2
    obtain ⟨D, j, hx, hv, hj⟩ := sampleLoopDetailed_outcome (Ready.of_ne hd (by tauto)) _ 0 none reset
      (le_refl _) (by simpa [lenBefore] using goodState_reset) (by intro h; simp at h; omega) (by simp) h
    exact ⟨D, j, hx, hj, hv⟩

/-- **C74** With `max_iters` below one, `CFTP.sample(return_details=True)` raises `UnboundLocalError`. -/
theorem C74_no_iterations (c : Cftp) (hm : c.maxIters = 0) (s : CftpState) :
    c.sampleDetailed s = .raise .unboundLocalError := by
  unfold sampleDetailed
  rw [sampleLoopDetailed, if_pos (by simp [hm])]
  rfl

/-- **C74** `sample_once(return_sample_index=True, return_cftp_details=True)` after any fit in a reachable
state: `TypeError` when the weights of one side sum to zero; otherwise it never raises, and returns
`None` or a sample id of some positive but not of some negative row with a number of iterations that is
a power of two up to 1024. -/
theorem C74_sample_once_details (env : HeadEnv) (he : env.Good) (X : Cmp) (hX : X.Binary)
    (hd : X.nMinor < env.depth) (s s' : HeadSampler) (hs : HeadReach env X s) (y : List ℤ)
    (hf : headFit env s X y = .ok s') :
    ∃ c rows, s'.cftp = some c ∧ s'.newRows = some rows ∧
      ∀ x, (headSampleDetailed env.order c rows s'.lists).Outcome x →
        ((c.posWeights.sum = 0 ∨ c.negWeights.sum = 0) → x = .error .typeError) ∧
        (c.posWeights.sum ≠ 0 → c.negWeights.sum ≠ 0 →
          x = .ok (none, reset) ∨ ∃ id j p n, x = .ok (some (id, 2 ^ j), reset) ∧ j ≤ 10 ∧
            p ∈ posIndices y ∧ n ∈ negIndices y ∧ id ∈ recordAt rows p ∧ id ∉ recordAt rows n) := by
  obtain ⟨space, -, hy, hyl, rfl⟩ := inv_fit he hX hd (headInv_of_reach he hX hd hs) hf
  refine ⟨_, _, rfl, rfl, ?_⟩
  have hdom : (headCftp s.tight space.length (naiveNewRows X space) X.nMajor y).Dominated :=
    headCftp_dominated (naiveNewRows_ok X space) hyl
  intro x hx
  unfold headSampleDetailed at hx
  rw [RandR.bind_eq, RandR.outcome_bind] at hx
  constructor
  · intro hz
    rcases hx with ⟨r, hr, hx⟩ | ⟨e, hr, -⟩
    · have := (C74_details_outcomes _ hdom (show 1 ≤ 1024 by decide) _ hr).1 hz
      cases this
      exact hx
    · have := (C74_details_outcomes _ hdom (show 1 ≤ 1024 by decide) _ hr).1 hz
      cases this
  · intro h1 h2
    rcases hx with ⟨r, hr, hx⟩ | ⟨e, hr, -⟩
    · obtain ⟨D, j, e, hj, hD⟩ := (C74_details_outcomes _ hdom (show 1 ≤ 1024 by decide) _ hr).2 h1 h2
      cases e
      rcases D with _ | ⟨p, n⟩
      · exact Or.inl hx
      · right
        obtain ⟨hp, hn, hw⟩ := hD p n rfl
        simp only [RandR.bind_eq, RandR.outcome_bind] at hx
        have hj' : j ≤ 10 := by
          by_contra hc
          have : 2 ^ 11 ≤ 2 ^ j := Nat.pow_le_pow_right (by norm_num) (by omega)
          have h3 : 2 ^ j ≤ 1024 := hj
          omega
        rcases hx with ⟨id, hid, hx⟩ | ⟨e, he', -⟩
        · obtain ⟨id', hm, e⟩ := choosePattern_outcome he.1 hw hid
          cases e
          rw [Finset.mem_sdiff] at hm
          exact ⟨id, j, p, n, hx, hj', hp, hn, hm.1, hm.2⟩
        · obtain ⟨id', hm, e⟩ := choosePattern_outcome he.1 hw he'
          cases e
    · obtain ⟨D, j, e, -⟩ := (C74_details_outcomes _ hdom (show 1 ≤ 1024 by decide) _ hr).2 h1 h2
      cases e

/-- Both cases of `C74_details_outcomes` occur: a chain with weights, and one without. -/
example : demo.posWeights.sum ≠ 0 ∧ demo.negWeights.sum ≠ 0 ∧ 1 ≤ demo.maxIters :=
  ⟨demo_ready.posSum.ne', demo_ready.negSum.ne', by decide⟩

end Verif
