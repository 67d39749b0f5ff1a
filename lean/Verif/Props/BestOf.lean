/-
The objective of the rule that an iteration selects: its law, and what larger batches do to it.
-/
import Verif.Props.Failing
import Verif.Spec.BestOf

namespace Verif

/-- What follows a batch when the learner does not stop: the rule of the largest objective is selected. -/
theorem batch_next {env : LearnEnv} (he : env.Good) {X Y : Cmp} (hD : LearnData env X Y) {pl : ℚ} {p : Params}
    (hT : 0 < p.nTails) (hH : 0 < p.nHeads) {lr : Learner} (hlr : LearnerTotal X Y lr) {st : LearnState}
    (hstop : ∀ b, lr.stop st.selected b = .ok false) (hsel : ∀ b ∈ st.selected, Supported X Y b)
    (hta : TailAfter env.toHeadEnv pl true Y (st.selected.map (updateOf env)) st.sampler.1)
    (hh : HeadReach env.toHeadEnv X st.sampler.2)
    (hpos : 0 < ∑ T ∈ samplesOf Y pl, openArea Y (st.selected.map (updateOf env)) T)
    {x : Py (Py (List BRule) × HeadSampler)}
    (hx : (learnGen env X X.flip Y.flip p.nHeads st.sampler.1 p.nTails st.sampler.2 []).Outcome x) :
    (∃ cands h' best w s', x = .ok (.ok cands, h') ∧ learnChoose env lr st h' cands = .ok (.next
        { sampler := (s', h'), selected := st.selected ++ [best], pool := poolUnion st.pool cands }) ∧
      best ∈ cands ∧ lr.objective st.selected best = .ok w ∧
      ∀ d ∈ cands, ∃ v, lr.objective st.selected d = .ok v ∧ v ≤ w) ∨
    ∃ e h', x = .ok (.error e, h') ∧ e ≠ .noMoreSamples := by
  obtain ⟨g, h', rfl, -, hcase⟩ := learnGen_outcome he hD hta p.nHeads p.nTails _ [] x hh (by simp) hx
  rcases hcase with ⟨cands, rfl, hsup, hne⟩ | ⟨rfl, h0⟩ | rfl | ⟨rfl, -⟩
  · have hc : cands ≠ [] := hne (Or.inr ⟨hT, hH⟩)
    have hp := env.setOrder_perm cands
    obtain ⟨best, hbest⟩ := pyMax_ok (key := lr.objective st.selected) (xs := env.setOrder cands)
      (by intro h; rw [h] at hp; exact hc hp.symm.eq_nil)
      (fun c hc' => hlr.objective _ _ hsel (hsup c (hp.mem_iff.mp hc')))
    obtain ⟨m1, w, m2, m3⟩ := pyMax_spec hbest
    have hbs := hsup best (hp.mem_iff.mp m1)
    obtain ⟨s', hs', -⟩ := tailAfter_update he hD hta hbs.1
    refine Or.inl ⟨cands, h', best, w, s', rfl, ?_, hp.mem_iff.mp m1, m2, fun d hd => m3 d (hp.mem_iff.mpr hd)⟩
    simp only [learnChoose, hbest, bind, Except.bind, hstop, Bool.false_eq_true, if_false, hs']
    rfl
  · rw [(tail_area he hD hta).2.2] at h0
    omega
  · exact Or.inr ⟨_, _, rfl, by simp⟩
  · exact Or.inr ⟨_, _, rfl, by simp⟩

theorem best_of_batch {env : LearnEnv} (he : env.Good) {X Y : Cmp} (hD : LearnData env X Y) {pf pl : ℚ} {p : Params}
    (hT : 0 < p.nTails) (hH : 0 < p.nHeads) {lr : Learner} (hlr : LearnerTotal X Y lr) {st : LearnState}
    (hstop : ∀ b, lr.stop st.selected b = .ok false) (hsel : ∀ b ∈ st.selected, Supported X Y b)
    (hta : TailAfter env.toHeadEnv pl true Y (st.selected.map (updateOf env)) st.sampler.1)
    (hh : HeadReach env.toHeadEnv X st.sampler.2) (ht : st.sampler.2.tight = true) (hm : st.sampler.2.minProba = pf)
    (hpos : 0 < ∑ T ∈ samplesOf Y pl, openArea Y (st.selected.map (updateOf env)) T) (c : ℝ) :
    (learnIter env p lr X X.flip Y.flip st).probOf (Selects lr st fun v => v ≤ c) =
        lowChance env X Y pf pl (st.selected.map (updateOf env)) (lr.objective st.selected) p.nHeads c ^ p.nTails ∧
    (learnIter env p lr X X.flip Y.flip st).probOf (Selects lr st fun _ => True) =
        tailComplete X Y pf pl (st.selected.map (updateOf env)) p.nHeads ^ p.nTails := by
  classical
  constructor
  · unfold lowChance
    rw [← C123_within env he X Y hD pf pl _ _ hta hpos _ hh ht hm p.nTails p.nHeads hH]
    unfold RandR.probOf learnIter
    rw [RandR.bind_eq, RandR.expect_bind]
    refine RandR.expect_congr (learnGen_proper _ _ _ _ _ _ _ _ _) fun x hx => ?_
    rcases batch_next he hD hT hH hlr hstop hsel hta hh hpos hx with
      ⟨cands, h', best, w, s', rfl, hch, m1, m2, m3⟩ | ⟨e, h', rfl, hne⟩
    · have hcand := learnGen_candidates he hD hta p.nHeads p.nTails _ [] cands h' hh hm (by simp) hx
      change (if Selects lr st (fun v => v ≤ c) (learnChoose env lr st h' cands) then (1 : ℝ) else 0) = _
      rw [hch]
      refine if_congr ⟨?_, ?_⟩ rfl rfl
      · rintro ⟨st', b, v, e, hs, hv, hle⟩
        cases e
        have hb : best = b := by simpa using hs
        subst hb
        rw [m2] at hv
        cases hv
        refine ⟨_, _, rfl, fun d hd => ?_⟩
        obtain ⟨vd, hvd, hled⟩ := m3 d hd
        exact ⟨d, vd, hcand d hd, rfl, rfl, hvd, hled.trans hle⟩
      · rintro ⟨batch, h'', e, hall⟩
        cases e
        obtain ⟨b, v, hb, e1, e2, hv, hle⟩ := hall best m1
        have hbb := hb.ext he (hcand best m1) e1 e2
        subst hbb
        exact ⟨_, _, v, rfl, rfl, hv, hle⟩
    · rw [if_neg (show ¬ Returned _ _ by rintro ⟨_, _, e', -⟩; cases e')]
      cases e <;> first | exact absurd rfl hne | exact if_neg (by rintro ⟨_, _, _, e', -⟩; cases e')
  · unfold tailComplete
    rw [← (C123_returns env he X Y hD pf pl _ _ hta hpos _ hh ht hm p.nTails p.nHeads hH).1]
    unfold RandR.probOf learnIter
    rw [RandR.bind_eq, RandR.expect_bind]
    refine RandR.expect_congr (learnGen_proper _ _ _ _ _ _ _ _ _) fun x hx => ?_
    rcases batch_next he hD hT hH hlr hstop hsel hta hh hpos hx with
      ⟨cands, h', best, w, s', rfl, hch, m1, m2, m3⟩ | ⟨e, h', rfl, hne⟩
    · rw [if_pos (show Returned _ _ from ⟨_, _, rfl, trivial⟩)]
      change (if Selects lr st (fun _ => True) (learnChoose env lr st h' cands) then (1 : ℝ) else 0) = _
      rw [hch]
      exact if_pos ⟨_, _, w, rfl, rfl, m2, trivial⟩
    · rw [if_neg (show ¬ Returned _ _ by rintro ⟨_, _, e', -⟩; cases e')]
      cases e <;> first | exact absurd rfl hne | exact if_neg (by rintro ⟨_, _, _, e', -⟩; cases e')

theorem low_le (env : LearnEnv) (X Y : Cmp) (pf pl : ℚ) (us : List (List ℕ × List ℤ)) (obj : BRule → Py ℝ)
    (m : ℕ) (c : ℝ) :
    0 ≤ lowChance env X Y pf pl us obj m c ∧ lowChance env X Y pf pl us obj m c ≤ tailComplete X Y pf pl us m := by
  classical
  unfold lowChance tailComplete
  refine ⟨Finset.sum_nonneg fun T _ => mul_nonneg (tailChance_nonneg _ _ _ _)
    (pow_nonneg (Finset.sum_nonneg fun H _ => headChance_nonneg _ _ _ _ _) _), Finset.sum_le_sum fun T _ => ?_⟩
  refine mul_le_mul_of_nonneg_left (pow_le_pow_left₀ (Finset.sum_nonneg fun H _ => headChance_nonneg _ _ _ _ _) ?_ _)
    (tailChance_nonneg _ _ _ _)
  rw [← head_complement]
  exact Finset.sum_le_sum_of_subset_of_nonneg (Finset.filter_subset _ _) fun H _ _ => headChance_nonneg _ _ _ _ _

/-- The three learners with a rule budget. -/
theorem budget_learner {X Y : Cmp} (hX : X.WF) (hY : Y.Binary) (hn : X.nMajor = Y.nMajor) {mk : Params → Learner}
    (hmk : mk = learnerV2 ∨ mk = learnerV3 ∨ mk = fun p => learnerDivMax p Y) {p : Params} {k : ℕ}
    (hk : p.nMaxRules = some k) :
    LearnerTotal X Y (mk p) ∧ ∀ sel b, (mk p).stop sel b = .ok (decide (sel.length ≥ k)) := by
  rcases hmk with rfl | rfl | rfl
  · exact ⟨total_V2 hX hY.toWF hn hk, fun sel b => by simp only [learnerV2, shouldStopV2, hk]⟩
  · exact ⟨total_V3 hX hY.toWF hn hk, fun sel b => by simp only [learnerV3, shouldStopV2, hk]⟩
  · exact ⟨total_DivMax hX hY hn p, fun sel b => by simp only [learnerDivMax, shouldStopDivMax, hk]⟩

/-- **C158** The law of the objective of the next rule. In every iteration of a fit with a budget that is not used up,
and with something left to cover: the probability that a rule of objective at most `c` is selected is the probability
that one tail gives only such rules, to the power of the number of tails; some rule is selected with the probability
that every tail gets its heads. -/
theorem C158_law (env : LearnEnv) (he : env.Good) (X Y : Cmp) (hD : LearnData env X Y) (pf pl : ℚ)
    (mk : Params → Learner) (hmk : mk = learnerV2 ∨ mk = learnerV3 ∨ mk = fun p => learnerDivMax p Y) (p : Params)
    (hT : 0 < p.nTails) (hH : 0 < p.nHeads) (k : ℕ) (hk : p.nMaxRules = some k) (st : LearnState)
    (hlen : st.selected.length < k) (hsel : ∀ b ∈ st.selected, Supported X Y b)
    (hta : TailAfter env.toHeadEnv pl true Y (st.selected.map (updateOf env)) st.sampler.1)
    (hh : HeadReach env.toHeadEnv X st.sampler.2) (ht : st.sampler.2.tight = true) (hm : st.sampler.2.minProba = pf)
    (hpos : 0 < ∑ T ∈ samplesOf Y pl, openArea Y (st.selected.map (updateOf env)) T) (c : ℝ) :
    (learnIter env p (mk p) X X.flip Y.flip st).probOf (Selects (mk p) st fun v => v ≤ c) =
        lowChance env X Y pf pl (st.selected.map (updateOf env)) ((mk p).objective st.selected) p.nHeads c ^ p.nTails ∧
    (learnIter env p (mk p) X X.flip Y.flip st).probOf (Selects (mk p) st fun _ => True) =
        tailComplete X Y pf pl (st.selected.map (updateOf env)) p.nHeads ^ p.nTails := by
  obtain ⟨hlr, hstop⟩ := budget_learner hD.features.toWF hD.labels hD.rows hmk hk
  refine best_of_batch he hD hT hH hlr (fun b => ?_) hsel hta hh ht hm hpos c
  rw [hstop, decide_eq_false (by omega)]

theorem objective_tails {Y : Cmp} {mk : Params → Learner}
    (hmk : mk = learnerV2 ∨ mk = learnerV3 ∨ mk = fun p => learnerDivMax p Y) (p : Params) (n : ℕ) :
    (mk { p with nTails := n }).objective = (mk p).objective := by
  rcases hmk with rfl | rfl | rfl <;> rfl

/-- **C158** Larger batches select better rules, given that a rule is selected: with more tails per iteration the
conditional probability of an objective of at most `c` does not increase, for every `c`. -/
theorem C158_larger_batches (env : LearnEnv) (he : env.Good) (X Y : Cmp) (hD : LearnData env X Y) (pf pl : ℚ)
    (mk : Params → Learner) (hmk : mk = learnerV2 ∨ mk = learnerV3 ∨ mk = fun p => learnerDivMax p Y) (p : Params)
    (n n' : ℕ) (hn : 0 < n) (hnn : n ≤ n') (hH : 0 < p.nHeads) (k : ℕ) (hk : p.nMaxRules = some k) (st : LearnState)
    (hlen : st.selected.length < k) (hsel : ∀ b ∈ st.selected, Supported X Y b)
    (hta : TailAfter env.toHeadEnv pl true Y (st.selected.map (updateOf env)) st.sampler.1)
    (hh : HeadReach env.toHeadEnv X st.sampler.2) (ht : st.sampler.2.tight = true) (hm : st.sampler.2.minProba = pf)
    (hpos : 0 < ∑ T ∈ samplesOf Y pl, openArea Y (st.selected.map (updateOf env)) T) (c : ℝ) :
    (learnIter env { p with nTails := n' } (mk { p with nTails := n' }) X X.flip Y.flip st).probOf
        (Selects (mk { p with nTails := n' }) st fun v => v ≤ c) /
      (learnIter env { p with nTails := n' } (mk { p with nTails := n' }) X X.flip Y.flip st).probOf
        (Selects (mk { p with nTails := n' }) st fun _ => True) ≤
    (learnIter env { p with nTails := n } (mk { p with nTails := n }) X X.flip Y.flip st).probOf
        (Selects (mk { p with nTails := n }) st fun v => v ≤ c) /
      (learnIter env { p with nTails := n } (mk { p with nTails := n }) X X.flip Y.flip st).probOf
        (Selects (mk { p with nTails := n }) st fun _ => True) := by
  obtain ⟨h1, h2⟩ := C158_law env he X Y hD pf pl mk hmk { p with nTails := n } hn hH k hk st hlen hsel hta hh ht hm hpos c
  obtain ⟨h3, h4⟩ := C158_law env he X Y hD pf pl mk hmk { p with nTails := n' } (hn.trans_le hnn) hH k hk st hlen hsel
    hta hh ht hm hpos c
  rw [h1, h2, h3, h4, objective_tails hmk p n', objective_tails hmk p n]
  dsimp only
  obtain ⟨l0, l1⟩ := low_le env X Y pf pl (st.selected.map (updateOf env)) ((mk p).objective st.selected) p.nHeads c
  rw [← div_pow, ← div_pow]
  exact pow_le_pow_of_le_one (div_nonneg l0 (l0.trans l1)) (div_le_one_of_le₀ l1 (l0.trans l1)) hnn

/-- **C158** How many tails are enough: if one tail with its heads gives a rule of objective more than `c` with
conditional probability at least `δ`, then `n` tails select a rule of objective at most `c` with conditional probability at
most `exp (- n δ)`. -/
theorem C158_enough_tails (env : LearnEnv) (he : env.Good) (X Y : Cmp) (hD : LearnData env X Y) (pf pl : ℚ)
    (mk : Params → Learner) (hmk : mk = learnerV2 ∨ mk = learnerV3 ∨ mk = fun p => learnerDivMax p Y) (p : Params)
    (hT : 0 < p.nTails) (hH : 0 < p.nHeads) (k : ℕ) (hk : p.nMaxRules = some k) (st : LearnState)
    (hlen : st.selected.length < k) (hsel : ∀ b ∈ st.selected, Supported X Y b)
    (hta : TailAfter env.toHeadEnv pl true Y (st.selected.map (updateOf env)) st.sampler.1)
    (hh : HeadReach env.toHeadEnv X st.sampler.2) (ht : st.sampler.2.tight = true) (hm : st.sampler.2.minProba = pf)
    (hpos : 0 < ∑ T ∈ samplesOf Y pl, openArea Y (st.selected.map (updateOf env)) T) (c δ : ℝ)
    (hδ : δ ≤ 1 - lowChance env X Y pf pl (st.selected.map (updateOf env)) ((mk p).objective st.selected) p.nHeads c /
      tailComplete X Y pf pl (st.selected.map (updateOf env)) p.nHeads) :
    (learnIter env p (mk p) X X.flip Y.flip st).probOf (Selects (mk p) st fun v => v ≤ c) /
      (learnIter env p (mk p) X X.flip Y.flip st).probOf (Selects (mk p) st fun _ => True) ≤
    Real.exp (-(p.nTails * δ)) := by
  obtain ⟨h1, h2⟩ := C158_law env he X Y hD pf pl mk hmk p hT hH k hk st hlen hsel hta hh ht hm hpos c
  rw [h1, h2, ← div_pow]
  obtain ⟨l0, l1⟩ := low_le env X Y pf pl (st.selected.map (updateOf env)) ((mk p).objective st.selected) p.nHeads c
  have h0 := div_nonneg l0 (l0.trans l1)
  refine (pow_le_pow_left₀ h0 (b := Real.exp (-δ)) ?_ _).trans (le_of_eq ?_)
  · have := Real.one_sub_le_exp_neg δ
    linarith
  · rw [← Real.exp_nat_mul]
    congr 1
    ring

/-- Two rows with features {0}, {1} and labels {0}, {1}, no rule selected yet: a rule is selected with probability 1, and
with three tails its objective is at most `c` at most as often as with one tail. -/
example (pf pl : ℚ) : ∃ st : LearnState, st.selected = [] ∧
    (∀ n, 0 < n → (learnIter (someLearnEnv 10) { demoParams with nTails := n } (learnerV2 { demoParams with nTails := n })
      eyeData eyeData.flip eyeData.flip st).probOf (Selects (learnerV2 demoParams) st fun _ => True) = 1) ∧
    ∀ c, (learnIter (someLearnEnv 10) { demoParams with nTails := 3 } (learnerV2 { demoParams with nTails := 3 })
        eyeData eyeData.flip eyeData.flip st).probOf (Selects (learnerV2 demoParams) st fun v => v ≤ c) ≤
      (learnIter (someLearnEnv 10) { demoParams with nTails := 1 } (learnerV2 { demoParams with nTails := 1 })
        eyeData eyeData.flip eyeData.flip st).probOf (Selects (learnerV2 demoParams) st fun v => v ≤ c) := by
  have he := someLearnEnv_good 10
  obtain ⟨s, hs, hi⟩ := start_inv he eye_data pf pl
  have hn : eyeData.nMinor = 2 := by decide
  have ha : 0 < openArea eyeData [] {0} := by
    unfold openArea
    refine Finset.sum_pos' (fun _ _ => by positivity) ⟨0, by decide, ?_⟩
    rw [if_pos ((eye_row (by norm_num)).mpr (by simp))]
    simp [uncoveredPart, CoveredBy]
  have hpos : 0 < ∑ T ∈ samplesOf eyeData pl, openArea eyeData [] T :=
    Finset.sum_pos' (fun _ _ => by positivity) ⟨_, single_mem_samplesOf (j := 0) eye_binary pl (by omega), ha⟩
  have hone : tailComplete eyeData eyeData pf pl [] demoParams.nHeads = 1 := by
    rw [← tailChance_total hpos]
    unfold tailComplete
    refine Finset.sum_congr rfl fun T hT => ?_
    rcases Nat.eq_zero_or_pos (openArea eyeData [] T) with h0 | h0
    · simp [tailChance, h0]
    · have h1 : noHead eyeData eyeData pf T = 0 := by
        change (1 - acceptance eyeData eyeData pf T) ^ 1024 = 0
        rw [eye_acceptance hT (occurs_of_area h0)]
        norm_num
      rw [h1, sub_zero, one_pow, mul_one]
  have hall : ∀ n, 0 < n → (learnIter (someLearnEnv 10) { demoParams with nTails := n }
      (learnerV2 { demoParams with nTails := n }) eyeData eyeData.flip eyeData.flip
        { sampler := (s, (LearnObj.new pf pl).heads), selected := [], pool := [] }).probOf
      (Selects (learnerV2 { demoParams with nTails := n })
        { sampler := (s, (LearnObj.new pf pl).heads), selected := [], pool := [] } fun _ => True) = 1 := by
    intro n hn
    rw [(C158_law _ he eyeData eyeData eye_data pf pl learnerV2 (Or.inl rfl) { demoParams with nTails := n } hn
      Nat.one_pos 5 rfl _ (by simp) hi.inv.selected hi.tails hi.inv.heads hi.tight hi.threshold hpos 0).2]
    change tailComplete eyeData eyeData pf pl [] demoParams.nHeads ^ n = 1
    rw [hone, one_pow]
  refine ⟨{ sampler := (s, (LearnObj.new pf pl).heads), selected := [], pool := [] }, rfl, hall, fun c => ?_⟩
  have := C158_larger_batches _ he eyeData eyeData eye_data pf pl learnerV2 (Or.inl rfl) demoParams 1 3 (by norm_num)
    (by norm_num) Nat.one_pos 5 rfl _ (by simp) hi.inv.selected hi.tails hi.inv.heads hi.tight hi.threshold hpos c
  rw [hall 1 (by norm_num), hall 3 (by norm_num), div_one, div_one] at this
  exact this

end Verif
