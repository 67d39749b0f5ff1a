/-
Property C133: a whole fit with both samplers in double precision has nearly the law of the fit with exact samplers,
and, with the objective in doubles as well, returns nearly the list of the ideal search.
-/
import Verif.Lemmas.FloatLearner
import Verif.Props.FloatObjective
import Verif.Props.Ideal
import Verif.Spec.FloatLearner

namespace Verif

open RandR

/-! ### The learners in doubles do not raise exceptions -/

theorem diversityF_total {X Y : Cmp} (hX : X.WF) (hY : Y.WF) (hn : X.nMajor = Y.nMajor) (sel : List BRule)
    (b : BRule) (hsel : ∀ c ∈ sel, Supported X Y c) (hb : Supported X Y b) : ∃ v, diversityF sel b = .ok v := by
  have hd : ∀ c ∈ sel, ∃ v, distF b c = .ok v := by
    intro c hc
    rcases distF_error hb.1.2.2 (hsel c hc).1.2.2 with ⟨e, -⟩ | ⟨d, -, e, -⟩
    · obtain ⟨z, hz⟩ := hb.area_nonempty hX hY hn
      rw [distReal_eq hb.1.2.2 (hsel c hc).1.2.2 ⟨z, by simp [hz]⟩] at e
      cases e
    · exact ⟨d, e⟩
  unfold diversityF pySumF
  clear hsel
  generalize (0 : ℝ) = acc
  induction sel generalizing acc with
  | nil => exact ⟨acc, rfl⟩
  | cons x l ih =>
    obtain ⟨v, hv⟩ := hd x (by simp)
    rw [List.foldlM_cons]
    dsimp only
    rw [hv]
    exact ih (fun c hc => hd c (by simp [hc])) _

theorem rounded_total {ε : ℝ} {rel : ℝ → ℝ → ℝ} (hrel : RelEntrAccurate ε rel) (hε : 0 ≤ ε) {X Y : Cmp} (hX : X.WF)
    (hY : Y.Binary) (hn : X.nMajor = Y.nMajor) (hN : X.nMajor < 2 ^ 26) {p : Params} {k : ℕ}
    (hk : p.nMaxRules = some k) {lr lrF : Learner} {slack : ℕ → ℝ} (h : RoundedLearner rel ε p X Y lr lrF slack) :
    LearnerTotal X Y lrF ∧ ∀ sel b, lrF.stop sel b = .ok (decide (sel.length ≥ k)) := by
  have hobj : ∀ sel b, (∀ c ∈ sel, Supported X Y c) → Supported X Y b →
      (∃ v, objectiveF (qualityF rel) p.lambd sel b = .ok v) ∧
      (∃ v, objectiveF (qualityV3F rel) p.lambd sel b = .ok v) ∧
      ∃ v, objectiveSubmodF rel p.lambd sel b = .ok v := by
    intro sel b hs hb
    obtain ⟨v, vF, -, e, -⟩ := C131_divergence hrel hε X Y hn hN b hb.1
    obtain ⟨d, hd⟩ := diversityF_total hX hY.toWF hn sel b hs hb
    refine ⟨?_, ?_, ?_⟩
    · unfold objectiveF qualityF
      rw [e, hd]
      exact ⟨_, rfl⟩
    · unfold objectiveF qualityV3F
      rw [e, hd]
      exact ⟨_, rfl⟩
    · unfold objectiveSubmodF
      rw [e]
      exact ⟨_, rfl⟩
  rcases h with ⟨-, rfl, -⟩ | ⟨-, rfl, -⟩ | ⟨-, rfl, -⟩ | ⟨-, rfl, -⟩
  · have hst : ∀ sel b, (learnerDivMaxF rel p Y).stop sel b = .ok (decide (sel.length ≥ k)) := fun sel b => by
      simp only [learnerDivMaxF, shouldStopDivMax, hk]
    exact ⟨⟨fun sel b hs hb => (hobj sel b hs hb).1, fun sel b _ _ => ⟨_, hst sel b⟩⟩, hst⟩
  · have hst : ∀ sel b, (learnerV2F rel p).stop sel b = .ok (decide (sel.length ≥ k)) := fun sel b => by
      simp only [learnerV2F, shouldStopV2, hk]
    exact ⟨⟨fun sel b hs hb => (hobj sel b hs hb).1, fun sel b _ _ => ⟨_, hst sel b⟩⟩, hst⟩
  · have hst : ∀ sel b, (learnerV3F rel p).stop sel b = .ok (decide (sel.length ≥ k)) := fun sel b => by
      simp only [learnerV3F, shouldStopV2, hk]
    exact ⟨⟨fun sel b hs hb => (hobj sel b hs hb).2.1, fun sel b _ _ => ⟨_, hst sel b⟩⟩, hst⟩
  · have hst : ∀ sel b, (learnerSubmodF rel p).stop sel b = .ok (decide (sel.length ≥ k)) := fun sel b => by
      simp only [learnerSubmodF, shouldStopV2, hk]
    exact ⟨⟨fun sel b hs hb => (hobj sel b hs hb).2.2, fun sel b _ _ => ⟨_, hst sel b⟩⟩, hst⟩

/-- The best rule for the objective in doubles is nearly the best one for the exact objective. -/
theorem ideal_near {ε : ℝ} {rel : ℝ → ℝ → ℝ} (hrel : RelEntrAccurate ε rel) (hε : 0 ≤ ε) {env : LearnEnv}
    (he : env.Good) {X Y : Cmp} (hD : LearnData env X Y) (hN : X.nMajor < 2 ^ 26) {pf pl : ℚ} {p : Params}
    {lr lrF : Learner} {slack : ℕ → ℝ} (hlr : RoundedLearner rel ε p X Y lr lrF slack) {sel : List BRule}
    (hlen : sel.length ≤ 2 ^ 53) (h : IdealGreedy env X Y pf pl lrF.objective sel) :
    NearIdealGreedy env X Y pf pl slack lr.objective sel := by
  have hX := hD.features.toWF
  have hsel : ∀ b ∈ sel, BoundTo X Y b := by
    intro b hb
    obtain ⟨j, hj, rfl⟩ := List.getElem_of_mem hb
    exact ((h j hj).1.supported he hD).1
  intro i hi
  obtain ⟨hc, v, hv, hmax⟩ := h i hi
  refine ⟨hc, ?_⟩
  have htl : (sel.take i).length = i := by simp [hi.le]
  have hob := fun c (hc : BoundTo X Y c) => C131_objective hrel hε X Y hD.rows hN p.lambd (sel.take i)
    (fun b hb => hsel b (List.mem_of_mem_take hb)) (by omega) c hc
  rw [htl] at hob
  have main : ∀ {δ : ℝ} {obj : List BRule → BRule → Py ℝ},
      (∀ c, BoundTo X Y c → Within δ (obj (sel.take i) c) (lrF.objective (sel.take i) c)) →
      ∃ v, obj (sel.take i) sel[i] = .ok v ∧
        ∀ c, CandidateRule env X Y pf pl ((sel.take i).map (updateOf env)) c →
          ∃ vc, obj (sel.take i) c = .ok vc ∧ vc ≤ v + 2 * δ := by
    intro δ obj hw
    rcases hw _ (hsel _ (List.getElem_mem hi)) with ⟨e, -, e2⟩ | ⟨x, xF, e1, e2, e3⟩
    · rw [hv] at e2; cases e2
    rw [hv] at e2; cases e2
    refine ⟨x, e1, fun c hc => ?_⟩
    obtain ⟨vc, hvc, hle⟩ := hmax c hc
    rcases hw c (hc.supported he hD).1 with ⟨e, -, e2⟩ | ⟨y, yF, f1, f2, f3⟩
    · rw [hvc] at e2; cases e2
    rw [hvc] at f2; cases f2
    refine ⟨y, f1, ?_⟩
    rw [abs_le] at e3 f3
    linarith [e3.1, e3.2, f3.1, f3.2]
  have hmon : ∀ {δ δ' : ℝ} {x y : Py ℝ}, δ ≤ δ' → Within δ x y → Within δ' x y := by
    rintro δ δ' x y hd (h | ⟨v, w, e1, e2, e3⟩)
    · exact Or.inl h
    · exact Or.inr ⟨v, w, e1, e2, e3.trans hd⟩
  rcases hlr with ⟨rfl, rfl, rfl⟩ | ⟨rfl, rfl, rfl⟩ | ⟨rfl, rfl, rfl⟩ | ⟨rfl, rfl, rfl⟩
  · exact main fun c hc => hmon (objectiveSlack_mono hε _ (new_cells_le hX hD.labels hD.rows hc _) le_rfl) (hob c hc).1
  · exact main fun c hc => hmon (objectiveSlack_mono hε _ (new_cells_le hX hD.labels hD.rows hc _) le_rfl) (hob c hc).1
  · exact main fun c hc => hmon (objectiveSlack_mono hε _ (new_cells_le hX hD.labels hD.rows hc _) le_rfl)
      (hob c hc).2.1
  · exact main fun c hc => hmon (submodSlack_mono _ (new_cells_le hX hD.labels hD.rows hc _)) (hob c hc).2.2

/-! ### The law of a fit -/

theorem near_fitDivMax (S : Summation) {env : LearnEnv} (he : env.Good) {X Y : Cmp} (hD : LearnData env X Y)
    {pf pl : ℚ} {m : ℕ} (hF : FitsDoubles X Y pf pl m) (p : Params) (fuel : ℕ) :
    Near (fuel * batchErr Y.nMajor m p.nTails p.nHeads)
      (learnFitDivMax env p (LearnObj.new pf pl) X Y fuel)
      (learnFitDivMaxF S env p (learnerDivMax p Y) (LearnObj.new pf pl) X Y fuel) := by
  have h := near_learnRun S he hD hF (p := p) (total_DivMax hD.features.toWF hD.labels hD.rows p) fuel
  unfold learnFitDivMax learnFitDivMaxF
  refine (h.bind le_rfl (fun r _ => ?_) fun r _ => Near.refl ?_).mono (by rw [add_zero]) <;>
  · cases r with
    | none => exact Discrete.proper_done _
    | some st => exact Discrete.bind (Discrete.lift _) fun _ _ => Discrete.proper_done _

/-- **C133.** Whatever a fit of a single-round learner on a new classifier with samplers in doubles returns or raises,
the fit with exact samplers can return or raise too; and no event has a probability that differs by more than the
number of iterations times the error of a batch. -/
theorem C133_law (S : Summation) (env : LearnEnv) (he : env.Good) (X Y : Cmp) (hD : LearnData env X Y)
    (pf pl : ℚ) (m : ℕ) (hF : FitsDoubles X Y pf pl m) (p : Params) (k : ℕ) (hk : p.nMaxRules = some k) (v3 : Bool)
    (fuel : ℕ) :
    (∀ x, (learnFitV2F S env p (if v3 then learnerV3 p else learnerV2 p)
        (if v3 then qualityOfRuleV3 else qualityOfRule) (LearnObj.new pf pl) X Y fuel).Outcome x →
      (learnFitV2 env p (if v3 then learnerV3 p else learnerV2 p)
        (if v3 then qualityOfRuleV3 else qualityOfRule) (LearnObj.new pf pl) X Y fuel).Outcome x) ∧
    ∀ E : Py (Option (LearnObj × ℝ)) → Prop,
      |(learnFitV2F S env p (if v3 then learnerV3 p else learnerV2 p)
          (if v3 then qualityOfRuleV3 else qualityOfRule) (LearnObj.new pf pl) X Y fuel).probOf E -
        (learnFitV2 env p (if v3 then learnerV3 p else learnerV2 p)
          (if v3 then qualityOfRuleV3 else qualityOfRule) (LearnObj.new pf pl) X Y fuel).probOf E| ≤
      fuel * (p.nTails * (tailErr Y.nMajor m + p.nHeads * headErr Y.nMajor)) := by
  have hlr : LearnerTotal X Y (if v3 then learnerV3 p else learnerV2 p) := by
    split
    · exact total_V3 hD.features.toWF hD.labels.toWF hD.rows hk
    · exact total_V2 hD.features.toWF hD.labels.toWF hD.rows hk
  have h := near_fitV2 S he hD hF hlr (if v3 then qualityOfRuleV3 else qualityOfRule) (p := p) fuel
  exact ⟨h.sub, h.probOf⟩

/-- **C133.** The same for the two-round learner, with a budget or with a tolerance. -/
theorem C133_law_divmax (S : Summation) (env : LearnEnv) (he : env.Good) (X Y : Cmp) (hD : LearnData env X Y)
    (pf pl : ℚ) (m : ℕ) (hF : FitsDoubles X Y pf pl m) (p : Params) (fuel : ℕ) :
    (∀ x, (learnFitDivMaxF S env p (learnerDivMax p Y) (LearnObj.new pf pl) X Y fuel).Outcome x →
      (learnFitDivMax env p (LearnObj.new pf pl) X Y fuel).Outcome x) ∧
    ∀ E : Py (Option (LearnObj × FitResult)) → Prop,
      |(learnFitDivMaxF S env p (learnerDivMax p Y) (LearnObj.new pf pl) X Y fuel).probOf E -
        (learnFitDivMax env p (LearnObj.new pf pl) X Y fuel).probOf E| ≤
      fuel * (p.nTails * (tailErr Y.nMajor m + p.nHeads * headErr Y.nMajor)) := by
  have h := near_fitDivMax S he hD hF p fuel
  exact ⟨h.sub, h.probOf⟩

/-! ### The ideal search in doubles -/

/-- **C133.** The whole first round in doubles — both samplers and the objective — of every learner with
`n_max_rules = k`: the probability that it returns a list with a rule that is beaten, in the exact objective, by more
than twice the rounding error of the objective by another rule that can be drawn is at most `k (1 - δ)ⁿ`, plus the
number of iterations times the error of a batch. -/
theorem C133_ideal (S : Summation) {ε : ℝ} {rel : ℝ → ℝ → ℝ} (hrel : RelEntrAccurate ε rel) (hε : 0 ≤ ε)
    (env : LearnEnv) (he : env.Good) (X Y : Cmp) (hD : LearnData env X Y)
    (pf pl : ℚ) (m : ℕ) (hF : FitsDoubles X Y pf pl m) (p : Params) (k : ℕ) (hk : p.nMaxRules = some k)
    (hk53 : k ≤ 2 ^ 53) (hh : 0 < p.nHeads) (lr lrF : Learner) (slack : ℕ → ℝ)
    (hlr : RoundedLearner rel ε p X Y lr lrF slack) (fuel : ℕ) (hf : k < fuel) (δ : ℝ)
    (hδ : ChanceFloor X Y pf pl p.nHeads δ) :
    (learnRunF S env p lrF (LearnObj.new pf pl) X Y fuel).probOf (fun x => ∃ st, x = .ok (some st) ∧
      ¬ NearIdealGreedy env X Y pf pl slack lr.objective st.selected) ≤
    k * (1 - δ) ^ p.nTails + fuel * (p.nTails * (tailErr Y.nMajor m + p.nHeads * headErr Y.nMajor)) := by
  have hN : X.nMajor < 2 ^ 26 := by
    have := hF.rows
    have := hD.rows
    omega
  obtain ⟨htot, hstop⟩ := rounded_total hrel hε hD.features.toWF hD.labels hD.rows hN hk hlr
  have hnear := near_learnRun S he hD hF htot (p := p) fuel
  have hideal := learnRun_ideal he hD pf pl hh htot hstop hδ fuel
  obtain ⟨s, hs, -, hinv⟩ := new_inv he hD pf pl
  have h1 := hnear.probOf fun x => ∃ st, x = .ok (some st) ∧ ¬ IdealGreedy env X Y pf pl lrF.objective st.selected
  have h2 : (learnRunF S env p lrF (LearnObj.new pf pl) X Y fuel).probOf (fun x => ∃ st, x = .ok (some st) ∧
      ¬ NearIdealGreedy env X Y pf pl slack lr.objective st.selected) ≤
    (learnRunF S env p lrF (LearnObj.new pf pl) X Y fuel).probOf (fun x => ∃ st, x = .ok (some st) ∧
      ¬ IdealGreedy env X Y pf pl lrF.objective st.selected) := by
    refine hnear.right.probOf_mono ?_
    rintro x hx ⟨st, rfl, hn⟩
    refine ⟨st, rfl, fun hid => hn (ideal_near hrel hε he hD hN hlr ?_ hid)⟩
    have hx' := hnear.sub _ hx
    rw [learnRun_new hs] at hx'
    have := (learnLoop_budget he hD htot hstop fuel _ _ hinv (by simpa using hf) hx').2 st rfl
    simp only [List.length_nil, Nat.max_zero] at this
    omega
  have h3 := (abs_le.mp h1).2
  unfold batchErr at h3
  linarith

/-! ### What a nearly ideal list is worth -/

theorem near_step {env : LearnEnv} (he : env.Good) {X Y : Cmp} (hD : LearnData env X Y)
    {pf pl : ℚ} {lambd : ℝ} (hl : 0 ≤ lambd) {kl : BRule → ℝ}
    (hkl : ∀ c, Supported X Y c → c.klReal = .ok (kl c)) {slack : ℕ → ℝ} (hs0 : ∀ i, 0 ≤ slack i) {G : List BRule}
    (hG : NearIdealGreedy env X Y pf pl slack (objectiveOfRule qualityOfRule lambd) G) {o : BRule}
    (ho : PossibleRule env X Y pf pl o) {κ : ℝ} (hκ : κ ≤ kl o) (i : ℕ) (hi : i < G.length) :
    κ * o.marginalCoverage (G.take i) ≤
      kl G[i] * (G[i]).marginalCoverage (G.take i) + lambd * distTo G[i] (G.take i) + slack i := by
  have hsup : ∀ b ∈ G, Supported X Y b := by
    intro b hb
    obtain ⟨j, hj, rfl⟩ := List.getElem_of_mem hb
    exact (hG j hj).1.supported he hD
  have hnn : ∀ b, Supported X Y b → 0 ≤ kl b := by
    intro b hb
    obtain ⟨v, h1, h2, -⟩ := klReal_bound hD.rows hb.1
    rw [hkl b hb] at h1
    cases h1
    exact h2
  have hGi := hsup _ (List.getElem_mem hi)
  have hosup := CandidateRule.supported he hD ho
  have hnd : ∀ b ∈ G.take i, b.tail.Nodup := fun b hb => (hsup b (List.mem_of_mem_take hb)).1.2.2
  have hval : ∀ b, Supported X Y b → ∀ v, objectiveOfRule qualityOfRule lambd (G.take i) b = .ok v →
      v = kl b * b.marginalCoverage (G.take i) + lambd * distTo b (G.take i) := by
    intro b hb v hv
    obtain ⟨q, h1, h2⟩ := objectiveOfRule_ok hnd hb.1.2.2 hv
    unfold qualityOfRule at h1
    rw [hkl b hb] at h1
    simp only [Bind.bind, Except.bind, Pure.pure, Except.pure, Except.ok.injEq] at h1
    rw [h2, ← h1]
    ring
  by_cases hsub : area o ⊆ covered (G.take i)
  · have h0 : o.marginalCoverage (G.take i) = 0 := by
      rw [marginalCoverage_eq, Finset.sdiff_eq_empty_iff_subset.mpr hsub, Finset.card_empty]
    rw [h0]
    have h1 := mul_nonneg (hnn _ hGi) (Nat.cast_nonneg (α := ℝ) ((G[i]).marginalCoverage (G.take i)))
    have h2 := mul_nonneg hl (distTo_nonneg G[i] (G.take i))
    simp only [Nat.cast_zero, mul_zero]
    linarith [hs0 i]
  · obtain ⟨v, hv, hmax⟩ := (hG i hi).2
    obtain ⟨w, hw, hle⟩ := hmax o (not_mem_covered_candidate he hD ho hsub)
    rw [hval _ hGi v hv, hval _ hosup w hw] at hle
    have h1 := mul_le_mul_of_nonneg_right hκ (Nat.cast_nonneg (α := ℝ) (o.marginalCoverage (G.take i)))
    have h2 := mul_nonneg hl (distTo_nonneg o (G.take i))
    linarith

theorem near_round {env : LearnEnv} (he : env.Good) {X Y : Cmp} (hD : LearnData env X Y)
    {pf pl : ℚ} {lambd : ℝ} (hl : 0 ≤ lambd) {kl : BRule → ℝ}
    (hkl : ∀ c, Supported X Y c → c.klReal = .ok (kl c)) {slack : ℕ → ℝ} (hs0 : ∀ i, 0 ≤ slack i) {G : List BRule}
    (hG : NearIdealGreedy env X Y pf pl slack (objectiveOfRule qualityOfRule lambd) G) {k : ℕ} {O : List BRule}
    (hO : O.length ≤ k) (hp : ∀ o ∈ O, PossibleRule env X Y pf pl o) {κ : ℝ} (h0 : 0 ≤ κ)
    (hκ : ∀ o ∈ O, κ ≤ kl o) (i : ℕ) (hi : i < G.length) :
    κ * ((covered O).card - (covered (G.take i)).card) ≤
      k * (kl G[i] * (G[i]).marginalCoverage (G.take i) + lambd * distTo G[i] (G.take i) + slack i) := by
  have hsum := List.sum_le_sum (l := O) (f := fun o => κ * (o.marginalCoverage (G.take i) : ℝ))
    (g := fun _ => kl G[i] * (G[i]).marginalCoverage (G.take i) + lambd * distTo G[i] (G.take i) + slack i)
    (fun o ho => near_step he hD hl hkl hs0 hG (hp o ho) (hκ o ho) i hi)
  rw [List.map_const', List.sum_replicate, nsmul_eq_mul, List.sum_map_mul_left] at hsum
  have hm := mul_le_mul_of_nonneg_left (sum_marginal_ge O (G.take i)) h0
  refine (hm.trans hsum).trans (mul_le_mul_of_nonneg_right (by exact_mod_cast hO) ?_)
  have hGi := (hG i hi).1.supported he hD
  obtain ⟨v, h1, h2, -⟩ := klReal_bound hD.rows hGi.1
  rw [hkl _ hGi] at h1
  cases h1
  exact add_nonneg (add_nonneg (mul_nonneg h2 (Nat.cast_nonneg _)) (mul_nonneg hl (distTo_nonneg _ _))) (hs0 i)

/-- **C133.** What a nearly ideal list covers, without a weight on diversity: if all divergences of rules that can be
drawn are at most `K`, at least the share `1 - exp (-κ / K)` of what any list of at most `k` rules that can be drawn,
with divergences of at least `κ`, covers, less `k s / K` cells, where `s` bounds the errors. -/
theorem C133_coverage (env : LearnEnv) (he : env.Good) (X Y : Cmp) (hD : LearnData env X Y)
    (pf pl : ℚ) (kl : BRule → ℝ)
    (hkl : ∀ c, Supported X Y c → c.klReal = .ok (kl c)) (slack : ℕ → ℝ) (hs0 : ∀ i, 0 ≤ slack i) (G : List BRule)
    (hG : NearIdealGreedy env X Y pf pl slack (objectiveOfRule qualityOfRule 0) G) (k : ℕ) (hk : G.length ≤ k)
    (hfull : G.length < k → labelCells Y ⊆ covered G) (s : ℝ) (hs : ∀ i < k, slack i ≤ s) (O : List BRule)
    (hO : O.length ≤ k) (hp : ∀ o ∈ O, PossibleRule env X Y pf pl o) (κ K : ℝ) (h0 : 0 ≤ κ) (hK : 0 < K)
    (hκ : ∀ o ∈ O, κ ≤ kl o) (hmax : ∀ c, PossibleRule env X Y pf pl c → kl c ≤ K) :
    (1 - Real.exp (-(κ / K))) * (covered O).card ≤ (covered G).card + k * (s / K) := by
  have hGp : ∀ i (hi : i < G.length), PossibleRule env X Y pf pl G[i] := by
    intro i hi
    obtain ⟨hb, hH, hT, ha, hp⟩ := CandidateRule.sets he (hG i hi).1
    exact ⟨_, hH, _, hT, ha.trans_le (openArea_anti _ _ _), hp, hb⟩
  have hexp : Real.exp (-(κ / K)) ≤ 1 := by
    rw [Real.exp_le_one_iff]
    have := div_nonneg h0 hK.le
    linarith
  have hks : 0 ≤ k * (s / K) := by
    rcases Nat.eq_zero_or_pos k with rfl | hk0
    · simp
    · exact mul_nonneg (Nat.cast_nonneg _) (div_nonneg ((hs0 0).trans (hs 0 hk0)) hK.le)
  rcases Nat.lt_or_ge G.length k with hlt | hge
  · have hsub : covered O ⊆ covered G := fun c hc => hfull hlt (covered_subset hD.features.toWF hD.labels.toWF hD.rows
      (fun b hb => ((hp b hb).supported he hD).1) hc)
    have h1 : ((covered O).card : ℝ) ≤ (covered G).card := by exact_mod_cast Finset.card_le_card hsub
    have h2 : (1 - Real.exp (-(κ / K))) * ((covered O).card : ℝ) ≤ (covered O).card :=
      mul_le_of_le_one_left (Nat.cast_nonneg _) (by linarith [Real.exp_pos (-(κ / K))])
    linarith
  have hk' : G.length = k := le_antisymm hk hge
  rcases O with _ | ⟨o, O'⟩
  · have : (0 : ℝ) ≤ (covered G).card := Nat.cast_nonneg _
    rw [show covered [] = ∅ from rfl, Finset.card_empty, Nat.cast_zero, mul_zero]
    linarith
  set O := o :: O' with hOdef
  have hkpos : 0 < k := lt_of_lt_of_le (by simp [hOdef]) hO
  have hkr : (0 : ℝ) < k := by exact_mod_cast hkpos
  have hsnn : 0 ≤ s / K := div_nonneg ((hs0 0).trans (hs 0 hkpos)) hK.le
  have hκK : κ ≤ K := (hκ o (by simp [hOdef])).trans (hmax o (hp o (by simp [hOdef])))
  have hr : κ / K ≤ k := by
    rw [div_le_iff₀ hK]
    have : (1 : ℝ) ≤ k := by exact_mod_cast hkpos
    nlinarith
  have hr0 : 0 ≤ 1 - κ / K / k := by
    rw [sub_nonneg, div_le_one hkr]
    exact hr
  have hr1 : 1 - κ / K / k ≤ 1 := by
    have := div_nonneg (div_nonneg h0 hK.le) hkr.le
    linarith
  have hrec : ∀ n ≤ G.length, ((covered O).card : ℝ) - (covered (G.take n)).card ≤
      (1 - κ / K / k) ^ n * (covered O).card + n * (s / K) := by
    intro n
    induction n with
    | zero => intro _; simp [covered]
    | succ n ih =>
      intro hn
      have hi : n < G.length := by omega
      have hround := near_round he hD le_rfl hkl hs0 hG hO hp h0 hκ n hi
      rw [zero_mul, add_zero] at hround
      have hKb : kl G[n] * (G[n]).marginalCoverage (G.take n) + slack n ≤
          K * (G[n]).marginalCoverage (G.take n) + s :=
        add_le_add (mul_le_mul_of_nonneg_right (hmax _ (hGp n hi)) (Nat.cast_nonneg _)) (hs n (by omega))
      have hgain : κ / K / k * ((covered O).card - (covered (G.take n)).card : ℝ) ≤
          (G[n]).marginalCoverage (G.take n) + s / K := by
        have h2 := hround.trans (mul_le_mul_of_nonneg_left hKb hkr.le)
        rw [div_div, div_mul_eq_mul_div, div_le_iff₀ (mul_pos hK hkr)]
        have e : ((G[n]).marginalCoverage (G.take n) + s / K) * (K * k) =
          k * (K * (G[n]).marginalCoverage (G.take n) + s) := by
          field_simp
        linarith
      rw [List.take_add_one, List.getElem?_eq_getElem hi, Option.toList_some, covered_snoc_card, pow_succ']
      have h3 := mul_le_mul_of_nonneg_left (ih (by omega)) hr0
      have h4 : (1 - κ / K / k) * (n * (s / K)) ≤ n * (s / K) :=
        mul_le_of_le_one_left (mul_nonneg (Nat.cast_nonneg _) hsnn) hr1
      push_cast
      linarith
  have hfin := hrec G.length le_rfl
  rw [List.take_length, hk'] at hfin
  have hpow := Real.one_sub_div_pow_le_exp_neg hr
  have := mul_le_mul_of_nonneg_right hpow (Nat.cast_nonneg (α := ℝ) (covered O).card)
  linarith

/-- **C133.** Put together, for `GreedyDivMaxV2` with `lambd = 0`, samplers and objective in doubles: the probability that
it returns a list that covers, by more than `2 k s / K` cells, less than the share `1 - exp (-κ / K)` of what some
competing list covers is at most `k (1 - δ)ⁿ` plus the rounding error of the draws; `s` is the rounding error of the
objective. -/
theorem C133_fit_coverage (S : Summation) {ε : ℝ} {rel : ℝ → ℝ → ℝ} (hrel : RelEntrAccurate ε rel) (hε : 0 ≤ ε)
    (env : LearnEnv) (he : env.Good) (X Y : Cmp) (hD : LearnData env X Y)
    (pf pl : ℚ) (m : ℕ) (hF : FitsDoubles X Y pf pl m) (p : Params) (hlam : p.lambd = 0) (k : ℕ)
    (hk : p.nMaxRules = some k) (hk53 : k ≤ 2 ^ 53) (hh : 0 < p.nHeads)
    (quality : List BRule → BRule → Py ℝ) (fuel : ℕ) (hf : k < fuel) (δ : ℝ)
    (hδ : ChanceFloor X Y pf pl p.nHeads δ)
    (kl : BRule → ℝ) (hkl : ∀ c, Supported X Y c → c.klReal = .ok (kl c)) (κ K : ℝ) (h0 : 0 ≤ κ) (hK : 0 < K)
    (hmax : ∀ c, PossibleRule env X Y pf pl c → kl c ≤ K) :
    (learnFitV2F S env p (learnerV2F rel p) quality (LearnObj.new pf pl) X Y fuel).probOf (fun x =>
      ∃ o obj, x = .ok (some (o, obj)) ∧ ∃ O : List BRule, O.length ≤ k ∧
        (∀ c ∈ O, PossibleRule env X Y pf pl c ∧ κ ≤ kl c) ∧
        (covered o.selected).card + k * (2 * objectiveSlack ε 0 X.nMajor Y.nnz k / K) <
          (1 - Real.exp (-(κ / K))) * (covered O).card) ≤
    k * (1 - δ) ^ p.nTails + fuel * (p.nTails * (tailErr Y.nMajor m + p.nHeads * headErr Y.nMajor)) := by
  have hN : X.nMajor < 2 ^ 26 := by
    have := hF.rows
    have := hD.rows
    omega
  have hlr : RoundedLearner rel ε p X Y (learnerV2 p) (learnerV2F rel p)
      (fun k => 2 * objectiveSlack ε p.lambd X.nMajor Y.nnz k) := Or.inr (Or.inl ⟨rfl, rfl, rfl⟩)
  obtain ⟨htot, hstop⟩ := rounded_total hrel hε hD.features.toWF hD.labels hD.rows hN hk hlr
  have hnear := near_learnRun S he hD hF htot (p := p) fuel
  obtain ⟨s, hs, -, hinv⟩ := new_inv he hD pf pl
  refine le_trans ?_ (C133_ideal S hrel hε env he X Y hD pf pl m hF p k hk hk53 hh _ _ _ hlr fuel hf δ hδ)
  unfold learnFitV2F
  have hb := hnear.right.probOf_bind_le (k := fun r => match r with
      | none => (pure none : RandR (Option (LearnObj × ℝ)))
      | some st => do
        let obj ← .lift (objectiveOf quality p.lambd st.selected st.selected)
        return some ((LearnObj.new pf pl).after st, obj)) (fun r _ => by
      cases r with
      | none => exact Discrete.proper_done _
      | some st => exact Discrete.bind (Discrete.lift _) fun _ _ => Discrete.proper_done _)
    (E := fun x => ∃ o obj, x = .ok (some (o, obj)) ∧ ∃ O : List BRule, O.length ≤ k ∧
        (∀ c ∈ O, PossibleRule env X Y pf pl c ∧ κ ≤ kl c) ∧
        (covered o.selected).card + k * (2 * objectiveSlack ε 0 X.nMajor Y.nnz k / K) <
          (1 - Real.exp (-(κ / K))) * (covered O).card)
    (B := fun x => ∃ st, x = .ok (some st) ∧ ¬ NearIdealGreedy env X Y pf pl
      (fun k => 2 * objectiveSlack ε p.lambd X.nMajor Y.nnz k) (learnerV2 p).objective st.selected)
    (by rintro e _ ⟨_, _, e', -⟩; cases e') (c := 0) le_rfl ?_
  · rw [add_zero] at hb
    exact hb
  intro r hr hB
  cases r with
  | none =>
    refine (Discrete.probOf_zero (Discrete.proper_done _) ?_).le
    rintro x hx ⟨o, obj, rfl, -⟩
    cases hx
  | some st =>
    refine (Discrete.probOf_zero (Discrete.bind (Discrete.lift _) fun _ _ => Discrete.proper_done _) ?_).le
    rintro x hx ⟨o, obj, rfl, O, hO, hp, hlt⟩
    simp only [RandR.outcome_bind] at hx
    rcases hx with ⟨v, -, hx⟩ | ⟨e, -, e'⟩
    swap
    · cases e'
    cases hx
    have hni : NearIdealGreedy env X Y pf pl (fun _ => 2 * objectiveSlack ε 0 X.nMajor Y.nnz k)
        (objectiveOfRule qualityOfRule 0) st.selected := by
      by_contra hcon
      refine hB ⟨st, rfl, fun h => hcon ?_⟩
      have e : (fun k => 2 * objectiveSlack ε p.lambd X.nMajor Y.nnz k) =
          fun _ : ℕ => 2 * objectiveSlack ε 0 X.nMajor Y.nnz k := by
        funext i
        simp [objectiveSlack, hlam]
      have e2 : (learnerV2 p).objective = objectiveOfRule qualityOfRule 0 := by
        rw [← hlam]
        rfl
      rw [e, e2] at h
      exact h
    have hx' := hnear.sub _ hr
    rw [learnRun_new hs] at hx'
    have hle := (learnLoop_budget he hD htot hstop fuel _ _ hinv (by simpa using hf) hx').2 st rfl
    simp only [List.length_nil, Nat.max_zero] at hle
    have hfull : st.selected.length < k → labelCells Y ⊆ covered st.selected := by
      intro hlt'
      rcases learnLoop_outcome he hD htot fuel _ _ hinv hx' with e | ⟨st', e, hi, -, hwhy⟩ | e | ⟨e, -⟩ | ⟨e, -⟩
      · cases e
      · cases e
        rcases hwhy with ⟨new, e, hcov⟩ | ⟨b, -, hb, hst, -⟩
        · rw [List.nil_append] at e
          rw [← e] at hcov
          exact hcov
        · rw [hstop] at hst
          simp only [Except.ok.injEq, decide_eq_true_eq] at hst
          omega
      all_goals cases e
    have hsl : 0 ≤ 2 * objectiveSlack ε 0 X.nMajor Y.nnz k := by
      unfold objectiveSlack
      have := Real.log_natCast_nonneg X.nMajor
      positivity
    have := C133_coverage env he X Y hD pf pl kl hkl _ (fun _ => hsl) st.selected hni k hle hfull _ (fun _ _ => le_rfl) O
      hO (fun c hc => (hp c hc).1) κ K h0 hK (fun c hc => (hp c hc).2) hmax
    exact absurd hlt (not_lt.mpr this)

/-! ### A concrete case -/

theorem eye_samples (a : ℚ) : (samplesOf eyeData a).card ≤ 4 ∧ ∀ T ∈ samplesOf eyeData a, T.card ≤ 2 := by
  classical
  unfold samplesOf
  constructor
  · refine Finset.card_image_le.trans ((Finset.card_filter_le _ _).trans ?_)
    rw [Finset.card_powerset, Finset.card_range]
    exact le_of_eq rfl
  · intro T hT
    obtain ⟨U, hU, rfl⟩ := Finset.mem_image.mp hT
    have := Finset.card_le_card (Finset.mem_powerset.mp (Finset.mem_filter.mp hU).1)
    rw [Finset.card_range] at this
    exact Finset.card_image_le.trans this

theorem eye_fits_doubles (pf pl : ℚ) : FitsDoubles eyeData eyeData pf pl 4 := by
  classical
  have hn : eyeData.nMajor = 2 := rfl
  refine ⟨by rw [hn]; norm_num, fun i _ => (Finset.card_filter_le _ _).trans (eye_samples pl).1, by norm_num, ?_, ?_⟩
  · have h : ∀ T ∈ samplesOf eyeData pl, openArea eyeData [] T ≤ 4 := by
      intro T hT
      unfold openArea
      have : ∀ i ∈ Finset.range eyeData.nMajor,
          (if RowContains eyeData i T then (uncoveredPart [] i T).card else 0) ≤ 2 := by
        intro i _
        split
        · exact (Finset.card_filter_le _ _).trans ((eye_samples pl).2 T hT)
        · norm_num
      refine (Finset.sum_le_card_nsmul _ _ _ this).trans ?_
      rw [Finset.card_range, hn]
      norm_num
    refine (Finset.sum_le_card_nsmul _ _ _ h).trans ?_
    have := (eye_samples pl).1
    rw [smul_eq_mul]
    have h16 : (samplesOf eyeData pl).card * 4 ≤ 4 * 4 := by omega
    exact h16.trans (by norm_num)
  · have := (eye_samples pf).1
    rw [hn]
    have h10 : ((samplesOf eyeData pf).card + 1) * 2 ≤ 10 := by omega
    exact h10.trans (by norm_num)

/-- Two rows with features {0}, {1} and labels {0}, {1}, a budget of five rules, ten tails with three heads each: in
doubles, `fit` returns a list with a positive number of rules with a probability within 10⁻⁷ of one. -/
example (pf pl : ℚ) (S : Summation) :
    1 - 1 / 10 ^ 7 ≤
      (learnFitV2F S (someLearnEnv 10) { lambd := 1, nTails := 10, nHeads := 3, nMaxRules := some 5, tolerance := 0 }
        (learnerV2 { lambd := 1, nTails := 10, nHeads := 3, nMaxRules := some 5, tolerance := 0 }) qualityOfRule
        (LearnObj.new pf pl) eyeData eyeData 6).probOf (fun x =>
      ∃ o obj, x = .ok (some (o, obj)) ∧ 0 < o.selected.length) := by
  have he := someLearnEnv_good 10
  obtain ⟨h1, h2, h3⟩ := eye_clean pl
  have hlaw := (C133_law S (someLearnEnv 10) he eyeData eyeData eye_data pf pl 4 (eye_fits_doubles pf pl)
    { lambd := 1, nTails := 10, nHeads := 3, nMaxRules := some 5, tolerance := 0 } 5 rfl false 6).2
    (fun x => ∃ o obj, x = .ok (some (o, obj)) ∧ 0 < o.selected.length)
  have hone := (C127_finite_law (someLearnEnv 10) he eyeData eyeData eye_data pf pl
    { lambd := 1, nTails := 10, nHeads := 3, nMaxRules := some 5, tolerance := 0 } 5 rfl false 6).probOf_one
    (E := fun x => ∃ o obj, x = .ok (some (o, obj)) ∧ 0 < o.selected.length) (by
      intro x hx
      have hno := (C83_fit_never_raises_iff (someLearnEnv 10) he eyeData eyeData eye_data pf pl
        { lambd := 1, nTails := 10, nHeads := 3, nMaxRules := some 5, tolerance := 0 } 5 rfl (by norm_num)
        (by norm_num) false 6 (by norm_num)).mpr ⟨h1, h2, h3⟩
      rcases C70_fit_outcomes (someLearnEnv 10) he eyeData eyeData eye_data pf pl
        { lambd := 1, nTails := 10, nHeads := 3, nMaxRules := some 5, tolerance := 0 } 5 rfl (by norm_num)
        (by norm_num) false 6 (by norm_num) x hx with ⟨o, obj, rfl, a, -, b⟩ | rfl | ⟨rfl, -⟩
      · refine ⟨o, obj, rfl, ?_⟩
        by_contra hz
        have hz : o.selected = [] := List.length_eq_zero_iff.mp (by omega)
        rw [hz] at b
        have hc : ((0, 0) : ℕ × ℤ) ∈ labelCells eyeData :=
          (mem_labelCells eye_binary.toWF _).mpr ⟨le_rfl, eye_stored.mpr ⟨by norm_num, rfl⟩⟩
        have := b (by norm_num) hc
        simp [covered] at this
      · exact absurd hx (hno _)
      · exact absurd hx (hno _))
  have h := (abs_le.mp hlaw).1
  simp only [Bool.false_eq_true, if_false] at h hone
  rw [hone] at h
  have hn : eyeData.nMajor = 2 := rfl
  rw [hn] at h
  have hb : ((6 : ℕ) : ℝ) * (((10 : ℕ) : ℝ) * (tailErr 2 4 + ((3 : ℕ) : ℝ) * headErr 2)) ≤ 1 / 10 ^ 7 := by
    norm_num [tailErr, headErr]
  refine le_trans (sub_le_sub_left hb 1) ?_
  linarith

/-- The hypotheses of the theorem on the ideal search can be met, with a positive chance for every rule. -/
example (pf pl : ℚ) : ∃ (S : Summation) (δ : ℝ), 0 < δ ∧
    ∀ n, (learnRunF S (someLearnEnv 10)
        { lambd := 1, nTails := n, nHeads := 3, nMaxRules := some 5, tolerance := 0 }
        (learnerV2F roundedRelEntr { lambd := 1, nTails := n, nHeads := 3, nMaxRules := some 5, tolerance := 0 })
        (LearnObj.new pf pl) eyeData eyeData 6).probOf (fun x => ∃ st, x = .ok (some st) ∧
      ¬ NearIdealGreedy (someLearnEnv 10) eyeData eyeData pf pl
        (fun k => 2 * objectiveSlack (1 / 2 ^ 51) 1 eyeData.nMajor eyeData.nnz k)
        (objectiveOfRule qualityOfRule 1) st.selected) ≤
      5 * (1 - δ) ^ n + 6 * (n * (tailErr 2 4 + 3 * headErr 2)) := by
  obtain ⟨S⟩ := exists_summation
  obtain ⟨δ, h0, hδ⟩ := exists_floor eyeData eyeData pf pl (m := 3) (by norm_num)
  refine ⟨S, δ, h0, fun n => ?_⟩
  exact C133_ideal S C131_accurate (by positivity) (someLearnEnv 10) (someLearnEnv_good 10) eyeData eyeData eye_data
    pf pl 4 (eye_fits_doubles pf pl) { lambd := 1, nTails := n, nHeads := 3, nMaxRules := some 5, tolerance := 0 } 5 rfl
    (by norm_num) (by norm_num) _ _ _ (Or.inr (Or.inl ⟨rfl, rfl, rfl⟩)) 6 (by norm_num) δ hδ

end Verif
