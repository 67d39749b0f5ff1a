/-
How likely a fit is to fail.
-/
import Verif.Props.OneDraw
import Verif.Spec.Failing

namespace Verif

namespace RandR

theorem Discrete.probOf_not {α : Type} {m : RandR α} (hm : m.Discrete) (E : Py α → Prop) :
    m.probOf (fun x => ¬ E x) = 1 - m.probOf E := by
  classical
  have h := hm.expect_add (fun x => if E x then 1 else 0) (fun x => if ¬ E x then 1 else 0)
  have h1 : (fun x : Py α => (if E x then (1 : ℝ) else 0) + if ¬ E x then 1 else 0) = fun _ => 1 := by
    funext x
    by_cases hx : E x <;> simp [hx]
  rw [h1, hm.expect_const] at h
  unfold RandR.probOf
  have e1 : (m.expect fun x => if E x then (1 : ℝ) else 0) + m.expect (fun x => if ¬ E x then (1 : ℝ) else 0) = 1 := h.symm
  convert (eq_sub_of_add_eq' e1) using 2
  funext x
  congr

end RandR

/-- While something is uncovered: a batch is either complete, and then a rule is chosen without an exception, or
candidate generation raised. -/
theorem gen_cases {env : LearnEnv} (he : env.Good) {X Y : Cmp} (hD : LearnData env X Y) {pf pl : ℚ} {lr : Learner}
    (hlr : LearnerTotal X Y lr) {nT nH : ℕ} (hT : 0 < nT) (hH : 0 < nH)
    {st : LearnState} (hst : LoopInv env pf pl X Y st)
    (hpos : 0 < ∑ T ∈ samplesOf Y pl, openArea Y (st.selected.map (updateOf env)) T)
    {x : Py (Py (List BRule) × HeadSampler)}
    (hx : (learnGen env X X.flip Y.flip nH st.sampler.1 nT st.sampler.2 []).Outcome x) :
    (∃ cands h' r, x = .ok (.ok cands, h') ∧ learnChoose env lr st h' cands = .ok r) ∨
    ∃ e h', x = .ok (.error e, h') ∧ e ≠ .noMoreSamples := by
  obtain ⟨g, h', rfl, -, hcase⟩ := learnGen_outcome he hD hst.tails nH nT _ [] x hst.inv.heads (by simp) hx
  rcases hcase with ⟨cands, rfl, hsup, hne⟩ | ⟨rfl, h0⟩ | rfl | ⟨rfl, -⟩
  · left
    have hc : cands ≠ [] := hne (Or.inr ⟨hT, hH⟩)
    have hp := env.setOrder_perm cands
    obtain ⟨best, hbest⟩ := pyMax_ok (key := lr.objective st.selected) (xs := env.setOrder cands)
      (by intro h; rw [h] at hp; exact hc hp.symm.eq_nil)
      (fun c hc' => hlr.objective _ _ hst.inv.selected (hsup c (hp.mem_iff.mp hc')))
    have hbs := hsup best (hp.mem_iff.mp (pyMax_spec hbest).1)
    obtain ⟨v, hv⟩ := hlr.stop st.selected best hst.inv.selected hbs
    obtain ⟨s', hs', -⟩ := tailAfter_update he hD hst.tails hbs.1
    cases v with
    | true =>
      exact ⟨cands, h', .done { sampler := (st.sampler.1, h'), selected := st.selected, pool := poolUnion st.pool cands },
        rfl, by simp only [learnChoose, hbest, bind, Except.bind, hv]; rfl⟩
    | false =>
      exact ⟨cands, h',
        .next { sampler := (s', h'), selected := st.selected ++ [best], pool := poolUnion st.pool cands }, rfl, by
          simp only [learnChoose, hbest, bind, Except.bind, hv, Bool.false_eq_true, if_false, hs']; rfl⟩
  · rw [(tail_area he hD hst.tails).2.2] at h0
    omega
  · exact Or.inr ⟨_, _, rfl, by simp⟩
  · exact Or.inr ⟨_, _, rfl, by simp⟩

/-- The probability that an iteration does not raise while something is uncovered. -/
theorem iter_survives {env : LearnEnv} (he : env.Good) {X Y : Cmp} (hD : LearnData env X Y) {pf pl : ℚ} {p : Params}
    {lr : Learner} (hlr : LearnerTotal X Y lr) (hT : 0 < p.nTails) (hH : 0 < p.nHeads)
    {st : LearnState} (hst : LoopInv env pf pl X Y st)
    (hpos : 0 < ∑ T ∈ samplesOf Y pl, openArea Y (st.selected.map (updateOf env)) T) :
    (learnIter env p lr X X.flip Y.flip st).probOf (fun x => ∃ r, x = .ok r) =
      (∑ T ∈ samplesOf Y pl, tailChance Y pl (st.selected.map (updateOf env)) T *
        (1 - noHead X Y pf T) ^ p.nHeads) ^ p.nTails := by
  classical
  rw [← (C123_returns env he X Y hD pf pl _ _ hst.tails hpos _ hst.inv.heads hst.tight hst.threshold p.nTails p.nHeads
    hH).1]
  unfold RandR.probOf learnIter
  rw [RandR.bind_eq, RandR.expect_bind]
  refine RandR.expect_congr (learnGen_proper _ _ _ _ _ _ _ _ _) fun x hx => ?_
  rcases gen_cases he hD hlr hT hH hst hpos hx with ⟨cands, h', r, rfl, hc⟩ | ⟨e, h', rfl, hne⟩
  · rw [if_pos (show Returned _ _ from ⟨_, _, rfl, trivial⟩)]
    change (if (∃ r, learnChoose env lr st h' cands = .ok r) then (1 : ℝ) else 0) = _
    rw [if_pos ⟨r, hc⟩]
  · rw [if_neg (show ¬ Returned _ _ by rintro ⟨_, _, e', -⟩; cases e')]
    cases e <;> first | exact absurd rfl hne | exact if_neg (by rintro ⟨_, e'⟩; cases e')

theorem openArea_le (Y : Cmp) (us : List (List ℕ × List ℤ)) (T : Finset ℤ) : openArea Y us T ≤ openArea Y [] T := by
  classical
  unfold openArea
  refine Finset.sum_le_sum fun i _ => ?_
  split_ifs
  · refine Finset.card_le_card fun x hx => ?_
    unfold uncoveredPart at hx ⊢
    rw [Finset.mem_filter] at hx ⊢
    exact ⟨hx.1, by simp [CoveredBy]⟩
  · exact le_rfl

theorem occurs_of_area {Y : Cmp} {us : List (List ℕ × List ℤ)} {T : Finset ℤ} (h : 0 < openArea Y us T) :
    Occurs Y T := by
  classical
  unfold openArea at h
  obtain ⟨i, hi, hne⟩ := Finset.exists_ne_zero_of_sum_ne_zero h.ne'
  by_cases hr : RowContains Y i T
  · exact ⟨i, Finset.mem_range.mp hi, hr⟩
  · exact absurd (if_neg hr) hne

/-- A lower bound on the probability that an iteration does not raise. -/
theorem iter_at_least {env : LearnEnv} (he : env.Good) {X Y : Cmp} (hD : LearnData env X Y) {pf pl : ℚ} {p : Params}
    {lr : Learner} (hlr : LearnerTotal X Y lr) (hT : 0 < p.nTails) (hH : 0 < p.nHeads)
    {q : ℝ} (h0 : 0 ≤ q) (h1 : q ≤ 1) (hq : ∀ T ∈ samplesOf Y pl, Occurs Y T → noHead X Y pf T ≤ q)
    {st : LearnState} (hst : LoopInv env pf pl X Y st) :
    (1 - q) ^ (p.nHeads * p.nTails) ≤ (learnIter env p lr X X.flip Y.flip st).probOf (fun x => ∃ r, x = .ok r) := by
  classical
  rcases Nat.eq_zero_or_pos (∑ T ∈ samplesOf Y pl, openArea Y (st.selected.map (updateOf env)) T) with hz | hpos
  · rw [(learnIter_discrete (p := p) (lr := lr) he hD hst).probOf_one]
    · exact pow_le_one₀ (by linarith) (by linarith)
    · intro x hx
      obtain ⟨st', rfl, -⟩ := iter_exhausted he hD hT hst hz hx
      exact ⟨_, rfl⟩
  · rw [iter_survives he hD hlr hT hH hst hpos, pow_mul]
    refine pow_le_pow_left₀ (pow_nonneg (by linarith) _) ?_ _
    calc (1 - q) ^ p.nHeads = ∑ T ∈ samplesOf Y pl, tailChance Y pl (st.selected.map (updateOf env)) T *
          (1 - q) ^ p.nHeads := by rw [← Finset.sum_mul, tailChance_total hpos, one_mul]
      _ ≤ _ := by
        refine Finset.sum_le_sum fun T hTm => ?_
        rcases Nat.eq_zero_or_pos (openArea Y (st.selected.map (updateOf env)) T) with ha | ha
        · unfold tailChance
          rw [ha]
          simp
        · refine mul_le_mul_of_nonneg_left (pow_le_pow_left₀ (by linarith) ?_ _) (tailChance_nonneg _ _ _ _)
          have := hq T hTm (occurs_of_area ha)
          linarith

theorem loop_at_least {env : LearnEnv} (he : env.Good) {X Y : Cmp} (hD : LearnData env X Y) {pf pl : ℚ} {p : Params}
    {lr : Learner} (hlr : LearnerTotal X Y lr) (hT : 0 < p.nTails) (hH : 0 < p.nHeads) {k : ℕ}
    (hstop : ∀ sel b, lr.stop sel b = .ok (decide (sel.length ≥ k)))
    {q : ℝ} (h0 : 0 ≤ q) (h1 : q ≤ 1) (hq : ∀ T ∈ samplesOf Y pl, Occurs Y T → noHead X Y pf T ≤ q) :
    ∀ (n fuel : ℕ) (st : LearnState), LoopInv env pf pl X Y st → st.selected.length + n = k → n < fuel →
      ((1 - q) ^ (p.nHeads * p.nTails)) ^ (n + 1) ≤
        (learnLoop env p lr X X.flip Y.flip fuel st).probOf (fun x => ∃ st', x = .ok (some st'))
  | n, 0, st, hst, hn, hf => by omega
  | n, fuel + 1, st, hst, hn, hf => by
    classical
    have hr0 : 0 ≤ (1 - q) ^ (p.nHeads * p.nTails) := pow_nonneg (by linarith) _
    have hr1 : (1 - q) ^ (p.nHeads * p.nTails) ≤ 1 := pow_le_one₀ (by linarith) (by linarith)
    have hit := iter_at_least (p := p) (lr := lr) he hD hlr hT hH h0 h1 hq hst
    rw [pow_succ']
    refine (mul_le_mul_of_nonneg_right hit (pow_nonneg hr0 _)).trans ?_
    rw [mul_comm]
    unfold RandR.probOf
    rw [← RandR.expect_mul_left, learnLoop, RandR.bind_eq, RandR.expect_bind]
    refine (learnIter_discrete he hD hst).mono fun x hx => ?_
    rcases learnIter_outcome he hD hlr hst.inv hx with ⟨st', rfl, -⟩ | ⟨st', b, rfl, -, hs⟩ | rfl | ⟨rfl, -⟩ | ⟨rfl, -⟩
    · rw [if_pos ⟨_, rfl⟩, mul_one]
      refine le_trans (pow_le_one₀ hr0 hr1) (le_of_eq (Eq.symm ?_))
      exact if_pos ⟨st', rfl⟩
    · rw [if_pos ⟨_, rfl⟩, mul_one]
      have hlt : st.selected.length < k := by
        obtain ⟨_, _, best, -, -, hst0, -⟩ := learnIter_next hx
        rw [hstop] at hst0
        by_contra hcon
        rw [decide_eq_true (by omega)] at hst0
        cases hst0
      obtain ⟨m, rfl⟩ : ∃ m, n = m + 1 := ⟨n - 1, by omega⟩
      exact loop_at_least he hD hlr hT hH hstop h0 h1 hq m fuel st' (hst.next he hD hlr hx)
        (by rw [hs, List.length_append, List.length_singleton]; omega) (by omega)
    all_goals
      rw [if_neg (by rintro ⟨_, e⟩; cases e), mul_zero]
      exact le_of_eq (if_neg (by rintro ⟨_, e⟩; cases e)).symm

/-- **C157** A fit with `n_max_rules = k` draws at most `k + 1` batches. If the head sampler gives up with probability at
most `q` for every tail that occurs, then `fit` of a new `GreedyCFTPDivMaxV2` or `GreedyCFTPDivMaxV3` raises with
probability at most `1 - (1 - q) ^ (heads * tails * (k + 1))`. -/
theorem C157_at_most (env : LearnEnv) (he : env.Good) (X Y : Cmp) (hD : LearnData env X Y) (pf pl : ℚ) (p : Params)
    (hT : 0 < p.nTails) (hH : 0 < p.nHeads) (k : ℕ) (hk : p.nMaxRules = some k) (v3 : Bool) (fuel : ℕ) (hf : k < fuel)
    (q : ℝ) (h1 : q ≤ 1) (h0 : 0 ≤ q) (hq : ∀ T ∈ samplesOf Y pl, Occurs Y T → noHead X Y pf T ≤ q) :
    (learnFitV2 env p (if v3 then learnerV3 p else learnerV2 p) (if v3 then qualityOfRuleV3 else qualityOfRule)
        (LearnObj.new pf pl) X Y fuel).probOf (fun x => ∃ e, x = .error e) ≤
      1 - (1 - q) ^ (p.nHeads * p.nTails * (k + 1)) := by
  classical
  have hdis := C127_finite_law env he X Y hD pf pl p k hk v3 fuel
  have hXw := hD.features.toWF
  have hYw := hD.labels.toWF
  have hlr : LearnerTotal X Y (if v3 then learnerV3 p else learnerV2 p) := by
    split
    · exact total_V3 hXw hYw hD.rows hk
    · exact total_V2 hXw hYw hD.rows hk
  have hstop : ∀ sel b, (if v3 then learnerV3 p else learnerV2 p).stop sel b = .ok (decide (sel.length ≥ k)) := by
    intro sel b
    have : shouldStopV2 p sel b = .ok (decide (sel.length ≥ k)) := by
      simp only [shouldStopV2, hk]
    cases v3 <;> exact this
  have hqual : ∀ sel b, BoundTo X Y b → ∃ v, (if v3 then qualityOfRuleV3 else qualityOfRule) sel b = .ok v := by
    intro sel b hb
    cases v3
    · exact ⟨_, quality_gain hD.rows sel hb⟩
    · exact ⟨_, qualityV3_gain hD.rows sel hb⟩
  generalize (if v3 then learnerV3 p else learnerV2 p) = lr at hlr hstop hdis ⊢
  generalize (if v3 then qualityOfRuleV3 else qualityOfRule) = qual at hqual hdis ⊢
  obtain ⟨s, hs, hi⟩ := start_inv he hD pf pl
  have hloop := loop_at_least he hD hlr hT hH hstop h0 h1 hq k fuel _ hi (by simp) hf
  rw [← pow_mul] at hloop
  have hret : (learnFitV2 env p lr qual (LearnObj.new pf pl) X Y fuel).probOf (fun x => ∃ e, x = .error e) ≤
      1 - (learnFitV2 env p lr qual (LearnObj.new pf pl) X Y fuel).probOf (fun x => ∃ r, x = .ok (some r)) := by
    rw [← hdis.probOf_not]
    refine hdis.probOf_mono fun x _ hx => ?_
    rintro ⟨r, rfl⟩
    obtain ⟨e, he'⟩ := hx
    cases he'
  have hge : (learnLoop env p lr X X.flip Y.flip fuel
        { sampler := (s, (LearnObj.new pf pl).heads), selected := [], pool := [] }).probOf
        (fun x => ∃ st', x = .ok (some st')) ≤
      (learnFitV2 env p lr qual (LearnObj.new pf pl) X Y fuel).probOf (fun x => ∃ r, x = .ok (some r)) := by
    unfold RandR.probOf learnFitV2
    rw [RandR.bind_eq, RandR.expect_bind, learnRun_new hs]
    refine (learnLoop_discrete he hD hlr fuel _ hi).mono fun x hx => ?_
    rcases learnLoop_outcome he hD hlr fuel _ _ hi.inv hx with rfl | ⟨st', rfl, hi', -⟩ | rfl | ⟨rfl, -⟩ | ⟨rfl, -⟩
    · rw [if_neg (by rintro ⟨_, e⟩; cases e)]
      exact le_of_eq (if_neg (by rintro ⟨_, e⟩; cases e)).symm
    · obtain ⟨v, hv⟩ := objectiveOf_total hXw hYw hD.rows hqual p.lambd st'.selected st'.selected hi'.selected
      rw [if_pos ⟨_, rfl⟩]
      simp only [RandR.after, hv]
      exact le_of_eq (if_pos ⟨_, rfl⟩).symm
    all_goals
      rw [if_neg (by rintro ⟨_, e⟩; cases e)]
      exact le_of_eq (if_neg (by rintro ⟨_, e⟩; cases e)).symm
  linarith

/-- **C157** The same for `GreedyCFTPDivMax` with a rule budget, on data with at least one label occurrence. -/
theorem C157_at_most_divmax (env : LearnEnv) (he : env.Good) (X Y : Cmp) (hD : LearnData env X Y)
    (hlab : ∃ i l, Y.Stored i l) (pf pl : ℚ) (p : Params) (hT : 0 < p.nTails) (hH : 0 < p.nHeads) (k : ℕ)
    (hk : p.nMaxRules = some k) (fuel : ℕ) (hf : k < fuel) (q : ℝ) (h1 : q ≤ 1) (h0 : 0 ≤ q)
    (hq : ∀ T ∈ samplesOf Y pl, Occurs Y T → noHead X Y pf T ≤ q) :
    (learnFitDivMax env p (LearnObj.new pf pl) X Y fuel).probOf (fun x => ∃ e, x = .error e) ≤
      1 - (1 - q) ^ (p.nHeads * p.nTails * (k + 1)) := by
  classical
  have hdis := C127_finite_law_divmax env he X Y hD pf pl p fuel
  have hlr : LearnerTotal X Y (learnerDivMax p Y) := total_DivMax hD.features.toWF hD.labels hD.rows p
  have hstop : ∀ sel b, (learnerDivMax p Y).stop sel b = .ok (decide (sel.length ≥ k)) := by
    intro sel b
    change shouldStopDivMax p Y sel b = _
    simp only [shouldStopDivMax, hk]
  obtain ⟨s, hs, hi⟩ := start_inv he hD pf pl
  have hloop := loop_at_least he hD hlr hT hH hstop h0 h1 hq k fuel _ hi (by simp) hf
  rw [← pow_mul, ← learnRun_new hs] at hloop
  have hret : (learnFitDivMax env p (LearnObj.new pf pl) X Y fuel).probOf (fun x => ∃ e, x = .error e) ≤
      1 - (learnFitDivMax env p (LearnObj.new pf pl) X Y fuel).probOf (fun x => ∃ r, x = .ok (some r)) := by
    rw [← hdis.probOf_not]
    refine hdis.probOf_mono fun x _ hx => ?_
    rintro ⟨r, rfl⟩
    obtain ⟨e, he'⟩ := hx
    cases he'
  have hge : (learnRun env p (learnerDivMax p Y) (LearnObj.new pf pl) X Y fuel).probOf
        (fun x => ∃ st', x = .ok (some st')) ≤
      (learnFitDivMax env p (LearnObj.new pf pl) X Y fuel).probOf (fun x => ∃ r, x = .ok (some r)) := by
    unfold RandR.probOf learnFitDivMax
    rw [RandR.bind_eq, RandR.expect_bind]
    refine RandR.Discrete.mono (by rw [learnRun_new hs]; exact learnLoop_discrete he hD hlr fuel _ hi) fun x hx => ?_
    have hx' := hx
    rw [learnRun_new hs] at hx'
    rcases learnLoop_outcome he hD hlr fuel _ _ hi.inv hx' with rfl | ⟨st', rfl, hi', -⟩ | rfl | ⟨rfl, -⟩ | ⟨rfl, -⟩
    · rw [if_neg (by rintro ⟨_, e⟩; cases e)]
      exact le_of_eq (if_neg (by rintro ⟨_, e⟩; cases e)).symm
    · obtain ⟨res, hres, -⟩ := second_round_returns he hD hlab hx
      rw [if_pos ⟨_, rfl⟩]
      simp only [RandR.after, hres]
      exact le_of_eq (if_pos ⟨_, rfl⟩).symm
    all_goals
      rw [if_neg (by rintro ⟨_, e⟩; cases e)]
      exact le_of_eq (if_neg (by rintro ⟨_, e⟩; cases e)).symm
  linarith

/-- **C157** So if for every tail that occurs at least a share `ρ` of the proposed pairs is accepted, `fit` raises with
probability at most `(k + 1) * tails * heads * exp (- 1024 ρ)`. -/
theorem C157_rate (env : LearnEnv) (he : env.Good) (X Y : Cmp) (hD : LearnData env X Y) (pf pl : ℚ) (p : Params)
    (hT : 0 < p.nTails) (hH : 0 < p.nHeads) (k : ℕ) (hk : p.nMaxRules = some k) (v3 : Bool) (fuel : ℕ) (hf : k < fuel)
    (ρ : ℝ) (h0 : 0 ≤ ρ) (hρ : ∀ T ∈ samplesOf Y pl, Occurs Y T → ρ ≤ acceptance X Y pf T) :
    (learnFitV2 env p (if v3 then learnerV3 p else learnerV2 p) (if v3 then qualityOfRuleV3 else qualityOfRule)
        (LearnObj.new pf pl) X Y fuel).probOf (fun x => ∃ e, x = .error e) ≤
      (k + 1) * p.nTails * p.nHeads * Real.exp (-(1024 * ρ)) := by
  have he1 : Real.exp (-(1024 * ρ)) ≤ 1 := Real.exp_le_one_iff.mpr (by linarith)
  have he0 := Real.exp_pos (-(1024 * ρ))
  refine (C157_at_most env he X Y hD pf pl p hT hH k hk v3 fuel hf (Real.exp (-(1024 * ρ))) he1 he0.le ?_).trans ?_
  · intro T hTm hocc
    have hacc := hρ T hTm hocc
    have hle : acceptance X Y pf T ≤ 1 := div_le_one_of_le₀ (pairs_le X Y pf T) (by positivity)
    change (1 - acceptance X Y pf T) ^ 1024 ≤ _
    calc (1 - acceptance X Y pf T) ^ 1024 ≤ Real.exp (-ρ) ^ 1024 := by
          refine pow_le_pow_left₀ (by linarith) ?_ _
          exact (Real.one_sub_le_exp_neg _).trans (Real.exp_le_exp.mpr (by linarith))
      _ = Real.exp (-(1024 * ρ)) := by
          rw [← Real.exp_nat_mul]
          congr 1
          push_cast
          ring
  · have hb := one_add_mul_le_pow (a := -Real.exp (-(1024 * ρ))) (by linarith) (p.nHeads * p.nTails * (k + 1))
    rw [← sub_eq_add_neg] at hb
    push_cast at hb
    nlinarith [hb]

/-- Whatever the learner, the loop raises if the first iteration does. -/
theorem loop_raises {env : LearnEnv} (he : env.Good) {X Y : Cmp} (hD : LearnData env X Y) {pf pl : ℚ} {p : Params}
    {lr : Learner} (hlr : LearnerTotal X Y lr) (hT : 0 < p.nTails) (hH : 0 < p.nHeads) (hlab : ∃ i l, Y.Stored i l)
    {s : UState} (hi : LoopInv env pf pl X Y { sampler := (s, (LearnObj.new pf pl).heads), selected := [], pool := [] })
    (fuel : ℕ) :
    1 - firstBatch X Y pf pl p.nTails p.nHeads ≤ (learnLoop env p lr X X.flip Y.flip (fuel + 1)
      { sampler := (s, (LearnObj.new pf pl).heads), selected := [], pool := [] }).probOf (fun x => ∃ e, x = .error e) := by
  classical
  have hpos : 0 < ∑ T ∈ samplesOf Y pl, openArea Y [] T := by
    obtain ⟨i, l, h⟩ := hlab
    refine Finset.sum_pos' (fun _ _ => Nat.zero_le _)
      ⟨_, single_mem_samplesOf hD.labels pl (h.minor_lt hD.labels.toWF), ?_⟩
    unfold openArea
    refine Finset.sum_pos' (fun _ _ => Nat.zero_le _) ⟨i, Finset.mem_range.mpr (h.major_lt hD.labels.toWF), ?_⟩
    rw [if_pos (by intro x hx; rw [Finset.mem_singleton] at hx; exact ⟨l, hx, h⟩)]
    simp [uncoveredPart, CoveredBy]
  have := iter_survives (p := p) (lr := lr) he hD hlr hT hH hi hpos
  unfold firstBatch
  change _ = (∑ T ∈ samplesOf Y pl, tailChance Y pl [] T * (1 - noHead X Y pf T) ^ p.nHeads) ^ p.nTails at this
  rw [← this, ← (learnIter_discrete he hD hi).probOf_not]
  unfold RandR.probOf
  rw [learnLoop, RandR.bind_eq, RandR.expect_bind]
  refine (learnIter_discrete he hD hi).mono fun x hx => ?_
  cases x with
  | ok r =>
    rw [if_neg (by simp)]
    cases r with
    | done st => exact le_of_eq (if_neg (by rintro ⟨_, e⟩; cases e)).symm
    | next st => exact (learnLoop_discrete he hD hlr fuel st (hi.next he hD hlr hx)).probOf_nonneg _
  | error e =>
    rw [if_pos (by rintro ⟨_, e⟩; cases e)]
    exact le_of_eq (if_pos ⟨e, rfl⟩).symm

/-- **C157** On data with at least one label occurrence, `fit` of a new `GreedyCFTPDivMaxV2` or `GreedyCFTPDivMaxV3`
raises at least with the probability that the first batch is not complete. -/
theorem C157_at_least (env : LearnEnv) (he : env.Good) (X Y : Cmp) (hD : LearnData env X Y) (hlab : ∃ i l, Y.Stored i l)
    (pf pl : ℚ) (p : Params) (hT : 0 < p.nTails) (hH : 0 < p.nHeads) (k : ℕ) (hk : p.nMaxRules = some k) (v3 : Bool)
    (fuel : ℕ) (hf : 0 < fuel) :
    1 - firstBatch X Y pf pl p.nTails p.nHeads ≤ (learnFitV2 env p (if v3 then learnerV3 p else learnerV2 p)
      (if v3 then qualityOfRuleV3 else qualityOfRule) (LearnObj.new pf pl) X Y fuel).probOf
        (fun x => ∃ e, x = .error e) := by
  classical
  have hlr : LearnerTotal X Y (if v3 then learnerV3 p else learnerV2 p) := by
    split
    · exact total_V3 hD.features.toWF hD.labels.toWF hD.rows hk
    · exact total_V2 hD.features.toWF hD.labels.toWF hD.rows hk
  obtain ⟨s, hs, hi⟩ := start_inv he hD pf pl
  obtain ⟨fuel, rfl⟩ : ∃ n, fuel = n + 1 := ⟨fuel - 1, by omega⟩
  refine (loop_raises he hD hlr hT hH hlab hi fuel).trans ?_
  unfold RandR.probOf learnFitV2
  rw [RandR.bind_eq, RandR.expect_bind, learnRun_new hs]
  refine (learnLoop_discrete he hD hlr _ _ hi).mono fun x hx => ?_
  cases x with
  | ok r =>
    rw [if_neg (by rintro ⟨_, e⟩; cases e)]
    cases r with
    | none => exact le_of_eq (if_neg (by rintro ⟨_, e⟩; cases e)).symm
    | some st =>
      refine RandR.Discrete.probOf_nonneg (RandR.Discrete.bind (RandR.Discrete.lift _) fun _ _ => ?_) _
      exact RandR.Discrete.proper_done _
  | error e =>
    rw [if_pos ⟨_, rfl⟩]
    exact le_of_eq (if_pos ⟨e, rfl⟩).symm

/-- **C157** The same for `GreedyCFTPDivMax`. -/
theorem C157_at_least_divmax (env : LearnEnv) (he : env.Good) (X Y : Cmp) (hD : LearnData env X Y)
    (hlab : ∃ i l, Y.Stored i l) (pf pl : ℚ) (p : Params) (hT : 0 < p.nTails) (hH : 0 < p.nHeads)
    (fuel : ℕ) (hf : 0 < fuel) :
    1 - firstBatch X Y pf pl p.nTails p.nHeads ≤
      (learnFitDivMax env p (LearnObj.new pf pl) X Y fuel).probOf (fun x => ∃ e, x = .error e) := by
  classical
  have hlr : LearnerTotal X Y (learnerDivMax p Y) := total_DivMax hD.features.toWF hD.labels hD.rows p
  obtain ⟨s, hs, hi⟩ := start_inv he hD pf pl
  obtain ⟨fuel, rfl⟩ : ∃ n, fuel = n + 1 := ⟨fuel - 1, by omega⟩
  refine (loop_raises he hD hlr hT hH hlab hi fuel).trans ?_
  unfold RandR.probOf learnFitDivMax
  rw [RandR.bind_eq, RandR.expect_bind, learnRun_new hs]
  refine (learnLoop_discrete he hD hlr _ _ hi).mono fun x hx => ?_
  cases x with
  | ok r =>
    rw [if_neg (by rintro ⟨_, e⟩; cases e)]
    cases r with
    | none => exact le_of_eq (if_neg (by rintro ⟨_, e⟩; cases e)).symm
    | some st =>
      refine RandR.Discrete.probOf_nonneg (RandR.Discrete.bind (RandR.Discrete.lift _) fun _ _ => ?_) _
      exact RandR.Discrete.proper_done _
  | error e =>
    rw [if_pos ⟨_, rfl⟩]
    exact le_of_eq (if_pos ⟨e, rfl⟩).symm

theorem acceptance_lt {X Y : Cmp} {pf : ℚ} {T : Finset ℤ}
    (h : ∑ H ∈ samplesOf X pf, (rulePairs X Y T H : ℝ) < proposedPairs X Y pf T ∨ proposedPairs X Y pf T = 0) :
    0 < noHead X Y pf T := by
  unfold noHead
  refine pow_pos ?_ _
  rcases h with h | h
  · have hp : (0 : ℝ) < proposedPairs X Y pf T := lt_of_le_of_lt (Finset.sum_nonneg fun _ _ => by positivity) h
    rw [sub_pos, div_lt_one hp]
    exact h
  · rw [h]
    simp

/-- On data on which some execution of `fit` raises, the head sampler gives up for some tail that occurs. -/
theorem some_noHead {env : LearnEnv} {X Y : Cmp} (hD : LearnData env X Y) (hlab : ∃ i l, Y.Stored i l) {pf pl : ℚ}
    (h : SharedFeature X Y ∨ FeaturelessTail X Y pl ∨ UniversalLabel Y) :
    ∃ T ∈ samplesOf Y pl, 0 < openArea Y [] T ∧ 0 < noHead X Y pf T := by
  classical
  have hYw := hD.labels.toWF
  have hXw := hD.features.toWF
  have harea : ∀ (i : ℕ) (T : Finset ℤ), i < Y.nMajor → T.Nonempty → RowContains Y i T → 0 < openArea Y [] T := by
    intro i T hi hne hr
    unfold openArea
    refine Finset.sum_pos' (fun _ _ => Nat.zero_le _) ⟨i, Finset.mem_range.mpr hi, ?_⟩
    rw [if_pos hr, Finset.card_pos]
    obtain ⟨x, hx⟩ := hne
    exact ⟨x, by simp [uncoveredPart, CoveredBy, hx]⟩
  have hone : ∀ (M : Cmp) (i j : ℕ), RowContains M i {(j : ℤ)} ↔ M.Stored i j := by
    intro M i j
    constructor
    · intro hr
      obtain ⟨j', e, hj'⟩ := hr j (by simp)
      rw [show j = j' by exact_mod_cast e]
      exact hj'
    · intro hs x hx
      rw [Finset.mem_singleton] at hx
      exact ⟨j, hx, hs⟩
  rcases h with ⟨i, j, f, l, hif, hjf, hil, hjl⟩ | ⟨g, U, hg, hU, ⟨i, hi, hil⟩, -, hno⟩ | ⟨l, hl⟩
  · refine ⟨{(l : ℤ)}, single_mem_samplesOf hD.labels pl (hil.minor_lt hYw),
      harea i _ (hil.major_lt hYw) (by simp) ((hone Y i l).mpr hil), acceptance_lt (Or.inl ?_)⟩
    unfold proposedPairs
    push_cast
    refine Finset.sum_lt_sum (fun H _ => ?_) ⟨{(f : ℤ)}, single_mem_samplesOf hD.features pf (hif.minor_lt hXw), ?_⟩
    · unfold rulePairs
      exact_mod_cast Finset.card_le_card fun ij hij => by
        simp only [Finset.mem_filter] at hij ⊢
        exact ⟨hij.1, hij.2.1, hij.2.2.1⟩
    · unfold rulePairs
      refine Nat.cast_lt.mpr (Finset.card_lt_card ?_)
      rw [Finset.ssubset_iff_of_subset]
      · refine ⟨(i, j), ?_, ?_⟩
        · rw [Finset.mem_filter, Finset.mem_product, Finset.mem_range, Finset.mem_range, hone, hone, hone]
          refine ⟨⟨hil.major_lt hYw, ?_⟩, ⟨hil, hif⟩, hjl⟩
          rw [← hD.rows]
          exact hjf.major_lt hXw
        · rw [Finset.mem_filter]
          rintro ⟨-, -, -, hn⟩
          exact hn ((hone X j f).mpr hjf)
      · intro ij hij
        simp only [Finset.mem_filter] at hij ⊢
        exact ⟨hij.1, hij.2.1, hij.2.2.1⟩
  · have hrow : ∀ i, RowContains Y i (intSet U) ↔ ∀ l ∈ U, Y.Stored i l := by
      intro i
      constructor
      · intro hr l hl
        obtain ⟨j', e, hj'⟩ := hr l (Finset.mem_image_of_mem _ hl)
        rw [show l = j' by exact_mod_cast e]
        exact hj'
      · intro hs x hx
        obtain ⟨l, hl, rfl⟩ := Finset.mem_image.mp hx
        exact ⟨l, rfl, hs l hl⟩
    refine ⟨intSet U, (mem_samplesOf hD.labels hg).mpr ⟨U, hU, rfl⟩,
      harea i _ hi ((Finset.nonempty_iff_ne_empty.mpr hU.1).image _) ((hrow i).mpr hil), acceptance_lt (Or.inr ?_)⟩
    unfold proposedPairs
    refine Finset.sum_eq_zero fun H hH => ?_
    rw [Finset.card_eq_zero, Finset.filter_eq_empty_iff]
    rintro ⟨a, b⟩ - ⟨⟨ha, hb⟩, -⟩
    obtain ⟨g', hg', -⟩ := C48_build_graph X.flip (Cmp.flip_binary hD.features)
    obtain ⟨V, hV, rfl⟩ := (mem_samplesOf hD.features hg').mp hH
    obtain ⟨f, hf⟩ := Finset.nonempty_iff_ne_empty.mpr hV.1
    obtain ⟨f', -, hf'⟩ := hb f (Finset.mem_image_of_mem _ hf)
    exact hno a ((hrow a).mp ha) f' hf'
  · obtain ⟨i, l', hi⟩ := hlab
    have hil := hl i (hi.major_lt hYw)
    refine ⟨{(l : ℤ)}, single_mem_samplesOf hD.labels pl (hil.minor_lt hYw),
      harea i _ (hil.major_lt hYw) (by simp) ((hone Y i l).mpr hil), acceptance_lt (Or.inr ?_)⟩
    unfold proposedPairs
    refine Finset.sum_eq_zero fun H hH => ?_
    rw [Finset.card_eq_zero, Finset.filter_eq_empty_iff]
    rintro ⟨a, b⟩ hab ⟨-, hn⟩
    exact hn ((hone Y b l).mpr (hl b (Finset.mem_range.mp (Finset.mem_product.mp hab).2)))

theorem firstBatch_tendsto {env : LearnEnv} {X Y : Cmp} (hD : LearnData env X Y) (hlab : ∃ i l, Y.Stored i l) {pf pl : ℚ}
    (h : SharedFeature X Y ∨ FeaturelessTail X Y pl ∨ UniversalLabel Y) {m : ℕ} (hm : 0 < m) :
    Filter.Tendsto (fun n => 1 - firstBatch X Y pf pl n m) Filter.atTop (nhds 1) := by
  obtain ⟨T, hT, ha, hn⟩ := some_noHead (pf := pf) hD hlab h
  have hpos : 0 < ∑ T ∈ samplesOf Y pl, openArea Y [] T :=
    Finset.sum_pos' (fun _ _ => Nat.zero_le _) ⟨T, hT, ha⟩
  have hc : 0 < tailChance Y pl [] T := by
    unfold tailChance
    exact div_pos (by exact_mod_cast ha) (by exact_mod_cast hpos)
  have hr := fun U => noHead_range X Y pf U
  have hs0 : 0 ≤ ∑ U ∈ samplesOf Y pl, tailChance Y pl [] U * (1 - noHead X Y pf U) ^ m :=
    Finset.sum_nonneg fun U _ => mul_nonneg (tailChance_nonneg _ _ _ _) (pow_nonneg (by linarith [(hr U).2.1]) _)
  have hs1 : ∑ U ∈ samplesOf Y pl, tailChance Y pl [] U * (1 - noHead X Y pf U) ^ m < 1 := by
    refine lt_of_lt_of_eq (Finset.sum_lt_sum (fun U _ => ?_) ⟨T, hT, ?_⟩) (tailChance_total hpos)
    · exact mul_le_of_le_one_right (tailChance_nonneg _ _ _ _)
        (pow_le_one₀ (by linarith [(hr U).2.1]) (by linarith [(hr U).1]))
    · exact mul_lt_of_lt_one_right hc (pow_lt_one₀ (by linarith [(hr T).2.1]) (by linarith) hm.ne')
  have := (tendsto_pow_atTop_nhds_zero_of_lt_one hs0 hs1).const_sub 1
  rwa [sub_zero] at this

/-- **C157** On data on which some execution of `fit` raises, more tails per iteration make that certain in the limit:
the probability that `fit` of a new `GreedyCFTPDivMaxV2` or `GreedyCFTPDivMaxV3` raises tends to 1. -/
theorem C157_many_tails (env : LearnEnv) (he : env.Good) (X Y : Cmp) (hD : LearnData env X Y)
    (hlab : ∃ i l, Y.Stored i l) (pf pl : ℚ) (h : SharedFeature X Y ∨ FeaturelessTail X Y pl ∨ UniversalLabel Y)
    (p : Params) (hH : 0 < p.nHeads) (k : ℕ) (hk : p.nMaxRules = some k) (v3 : Bool) (fuel : ℕ) (hf : 0 < fuel) :
    Filter.Tendsto (fun n => (learnFitV2 env { p with nTails := n }
        (if v3 then learnerV3 { p with nTails := n } else learnerV2 { p with nTails := n })
        (if v3 then qualityOfRuleV3 else qualityOfRule) (LearnObj.new pf pl) X Y fuel).probOf (fun x => ∃ e, x = .error e))
      Filter.atTop (nhds 1) := by
  refine tendsto_of_tendsto_of_tendsto_of_le_of_le' (firstBatch_tendsto (pf := pf) hD hlab h hH) tendsto_const_nhds ?_ ?_
  · filter_upwards [Filter.eventually_gt_atTop 0] with n hn
    exact C157_at_least env he X Y hD hlab pf pl { p with nTails := n } hn hH k hk v3 fuel hf
  · exact Filter.Eventually.of_forall fun n =>
      (C127_finite_law env he X Y hD pf pl { p with nTails := n } k hk v3 fuel).probOf_le_one _

/-- **C157** The same for `GreedyCFTPDivMax`. -/
theorem C157_many_tails_divmax (env : LearnEnv) (he : env.Good) (X Y : Cmp) (hD : LearnData env X Y)
    (hlab : ∃ i l, Y.Stored i l) (pf pl : ℚ) (h : SharedFeature X Y ∨ FeaturelessTail X Y pl ∨ UniversalLabel Y)
    (p : Params) (hH : 0 < p.nHeads) (fuel : ℕ) (hf : 0 < fuel) :
    Filter.Tendsto (fun n => (learnFitDivMax env { p with nTails := n } (LearnObj.new pf pl) X Y fuel).probOf
      (fun x => ∃ e, x = .error e)) Filter.atTop (nhds 1) := by
  refine tendsto_of_tendsto_of_tendsto_of_le_of_le' (firstBatch_tendsto (pf := pf) hD hlab h hH) tendsto_const_nhds ?_ ?_
  · filter_upwards [Filter.eventually_gt_atTop 0] with n hn
    exact C157_at_least_divmax env he X Y hD hlab pf pl { p with nTails := n } hn hH fuel hf
  · exact Filter.Eventually.of_forall fun n =>
      (C127_finite_law_divmax env he X Y hD pf pl { p with nTails := n } fuel).probOf_le_one _

/-- Training rows that share a feature but not all labels: with ever more tails, `fit` fails for certain in the limit. -/
example (pf pl : ℚ) (v3 : Bool) : Filter.Tendsto (fun n => (learnFitV2 (someLearnEnv 10) { demoParams with nTails := n }
      (if v3 then learnerV3 { demoParams with nTails := n } else learnerV2 { demoParams with nTails := n })
      (if v3 then qualityOfRuleV3 else qualityOfRule) (LearnObj.new pf pl) trainX trainY 6).probOf
        (fun x => ∃ e, x = .error e)) Filter.atTop (nhds 1) := by
  have hs : SharedFeature trainX trainY := train_shared
  exact C157_many_tails _ (someLearnEnv_good 10) trainX trainY train_data
    (by obtain ⟨i, -, -, l, -, -, h, -⟩ := hs; exact ⟨i, l, h⟩) pf pl (Or.inl hs) demoParams Nat.one_pos 5 rfl v3 6
    (by norm_num)

theorem eye_acceptance {pf pl : ℚ} {T : Finset ℤ} (hT : T ∈ samplesOf eyeData pl) (ho : Occurs eyeData T) :
    acceptance eyeData eyeData pf T = 1 := by
  classical
  have h2 : eyeData.nMajor = 2 := by decide
  have hn : eyeData.nMinor = 2 := by decide
  obtain ⟨g, hg, -⟩ := C48_build_graph eyeData.flip (Cmp.flip_binary eye_binary)
  have hne : ∀ {a : ℚ} {U : Finset ℤ}, U ∈ samplesOf eyeData a → U.Nonempty := by
    intro a U hU
    obtain ⟨V, hV, rfl⟩ := (mem_samplesOf eye_binary hg).mp hU
    exact (Finset.nonempty_iff_ne_empty.mpr hV.1).image _
  have heq : (proposedPairs eyeData eyeData pf T : ℝ) = ∑ H ∈ samplesOf eyeData pf, (rulePairs eyeData eyeData T H : ℝ) := by
    unfold proposedPairs
    push_cast
    refine Finset.sum_congr rfl fun H hH => ?_
    unfold rulePairs
    congr 2
    refine Finset.filter_congr fun ⟨a, b⟩ hab => ?_
    rw [Finset.mem_product, Finset.mem_range, Finset.mem_range, h2] at hab
    refine ⟨fun ⟨h1, h3⟩ => ⟨h1, h3, fun h4 => h3 ?_⟩, fun ⟨h1, h3, _⟩ => ⟨h1, h3⟩⟩
    obtain ⟨x, hx⟩ := hne hH
    have e1 := (eye_row hab.1).mp h1.2 x hx
    have e2 := (eye_row hab.2).mp h4 x hx
    have : a = b := by exact_mod_cast e1.symm.trans e2
    rw [← this]
    exact h1.1
  obtain ⟨i, hi, hrow⟩ := ho
  rw [h2] at hi
  have hTi : T = {(i : ℤ)} :=
    Finset.eq_singleton_iff_nonempty_unique_mem.mpr ⟨hne hT, (eye_row hi).mp hrow⟩
  subst hTi
  have hp : (0 : ℝ) < ∑ H ∈ samplesOf eyeData pf, (rulePairs eyeData eyeData {(i : ℤ)} H : ℝ) :=
    Finset.sum_pos' (fun _ _ => by positivity)
      ⟨{(i : ℤ)}, single_mem_samplesOf (j := i) eye_binary pf (by omega), by exact_mod_cast eye_pairs hi⟩
  unfold acceptance
  rw [heq, div_self hp.ne']

/-- Two rows with features {0}, {1} and labels {0}, {1}: every proposed pair is accepted, and `fit` with at most 5 rules
raises with probability at most `6 * tails * heads * exp (-1024)`. -/
example (pf pl : ℚ) (v3 : Bool) : (learnFitV2 (someLearnEnv 10) demoParams
      (if v3 then learnerV3 demoParams else learnerV2 demoParams)
      (if v3 then qualityOfRuleV3 else qualityOfRule) (LearnObj.new pf pl) eyeData eyeData 6).probOf
        (fun x => ∃ e, x = .error e) ≤ ((5 : ℕ) + 1) * demoParams.nTails * demoParams.nHeads * Real.exp (-(1024 * 1)) :=
  C157_rate _ (someLearnEnv_good 10) eyeData eyeData eye_data pf pl demoParams Nat.one_pos Nat.one_pos 5 rfl v3 6
    (by norm_num) 1 (by norm_num) fun _ hT ho => (eye_acceptance hT ho).ge

end Verif
