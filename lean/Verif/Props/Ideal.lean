/-
Property C127: with many candidates, a whole fit returns the list that a greedy search over all rules builds,
and this list has a guaranteed quality.
-/
import Verif.Lemmas.Ideal
import Verif.Lemmas.Approx
import Verif.Lemmas.Coverage
import Mathlib.Analysis.Complex.Exponential

namespace Verif

open RandR

/-! ### The law of a fit -/

/-- **C127.** `fit` of every learner has a law with finitely many points: there are finitely many results and
exceptions with positive probability, their probabilities sum to one, and nothing else has any influence on the
mean of any function of the result. -/
theorem C127_finite_law (env : LearnEnv) (he : env.Good) (X Y : Cmp) (hD : LearnData env X Y) (pf pl : ℚ)
    (p : Params) (k : ℕ) (hk : p.nMaxRules = some k) (v3 : Bool) (fuel : ℕ) :
    (learnFitV2 env p (if v3 then learnerV3 p else learnerV2 p)
      (if v3 then qualityOfRuleV3 else qualityOfRule) (LearnObj.new pf pl) X Y fuel).Discrete := by
  refine learnFitV2_discrete he hD pf pl ?_ _ fuel
  split
  · exact total_V3 hD.features.toWF hD.labels.toWF hD.rows hk
  · exact total_V2 hD.features.toWF hD.labels.toWF hD.rows hk

/-- **C127.** The same for the two-round learner, with a budget or with a tolerance. -/
theorem C127_finite_law_divmax (env : LearnEnv) (he : env.Good) (X Y : Cmp) (hD : LearnData env X Y) (pf pl : ℚ)
    (p : Params) (fuel : ℕ) : (learnFitDivMax env p (LearnObj.new pf pl) X Y fuel).Discrete :=
  learnFitDivMax_discrete he hD pf pl (total_DivMax hD.features.toWF hD.labels hD.rows p) fuel

/-! ### How often the list is not the one of the ideal search -/

/-- A random program that goes on from another one: what it returns, the other one has returned. -/
theorem probOf_bind_le_of {α β : Type} {m : RandR α} {k : α → RandR β} (hm : m.Discrete)
    (hk : ∀ a, m.Outcome (.ok a) → (k a).Discrete) {E : Py β → Prop} {B : Py α → Prop}
    (hE : ∀ e, ¬ E (.error e)) (h : ∀ a, ¬ B (.ok a) → ∀ x, (k a).Outcome x → ¬ E x) :
    (m.bind k).probOf E ≤ m.probOf B := by
  have := hm.probOf_bind_le hk (E := E) (B := B) (fun e _ => hE e) le_rfl
    (fun a ha hB => ((hk a ha).probOf_zero (h a hB)).le)
  linarith

/-- **C127.** Let `δ` bound from below the chance of every rule that can be drawn. With `n_max_rules = k`, `n` tails
per iteration, the probability that `fit` returns a list other than one that a greedy search over all rules that can
be drawn builds is at most `k (1 - δ)ⁿ`. -/
theorem C127_miss (env : LearnEnv) (he : env.Good) (X Y : Cmp) (hD : LearnData env X Y) (pf pl : ℚ)
    (p : Params) (k : ℕ) (hk : p.nMaxRules = some k) (hh : 0 < p.nHeads) (v3 : Bool) (fuel : ℕ) (δ : ℝ)
    (hδ : ChanceFloor X Y pf pl p.nHeads δ) :
    (learnFitV2 env p (if v3 then learnerV3 p else learnerV2 p)
      (if v3 then qualityOfRuleV3 else qualityOfRule) (LearnObj.new pf pl) X Y fuel).probOf (fun x =>
        ∃ o obj, x = .ok (some (o, obj)) ∧
          ¬ IdealGreedy env X Y pf pl (if v3 then learnerV3 p else learnerV2 p).objective o.selected) ≤
    k * (1 - δ) ^ p.nTails := by
  have hlr : LearnerTotal X Y (if v3 then learnerV3 p else learnerV2 p) := by
    split
    · exact total_V3 hD.features.toWF hD.labels.toWF hD.rows hk
    · exact total_V2 hD.features.toWF hD.labels.toWF hD.rows hk
  have hstop : ∀ sel b, (if v3 then learnerV3 p else learnerV2 p).stop sel b =
      .ok (decide (sel.length ≥ k)) := by
    intro sel b
    split <;> simp only [learnerV3, learnerV2, shouldStopV2, hk]
  refine le_trans ?_ (learnRun_ideal he hD pf pl hh hlr hstop hδ fuel)
  unfold learnFitV2
  refine probOf_bind_le_of (learnRun_discrete he hD pf pl hlr fuel) ?_ (by rintro e ⟨_, _, e', -⟩; cases e') ?_
  · intro r _
    cases r with
    | none => exact Discrete.proper_done _
    | some st => exact Discrete.bind (Discrete.lift _) fun _ _ => Discrete.proper_done _
  · rintro r hB x hx ⟨o, obj, rfl, hn⟩
    cases r with
    | none => cases hx
    | some st =>
      simp only [RandR.bind_eq, RandR.outcome_bind] at hx
      rcases hx with ⟨v, -, hx⟩ | ⟨e, -, e'⟩
      · cases hx
        exact hB ⟨st, rfl, hn⟩
      · cases e'

/-- **C127.** The same for the list of the first round of the two-round learner. -/
theorem C127_miss_divmax (env : LearnEnv) (he : env.Good) (X Y : Cmp) (hD : LearnData env X Y) (pf pl : ℚ)
    (p : Params) (k : ℕ) (hk : p.nMaxRules = some k) (hh : 0 < p.nHeads) (fuel : ℕ) (δ : ℝ)
    (hδ : ChanceFloor X Y pf pl p.nHeads δ) :
    (learnFitDivMax env p (LearnObj.new pf pl) X Y fuel).probOf (fun x =>
        ∃ o res, x = .ok (some (o, res)) ∧
          ¬ IdealGreedy env X Y pf pl (learnerDivMax p Y).objective res.round1) ≤
    k * (1 - δ) ^ p.nTails := by
  have hlr : LearnerTotal X Y (learnerDivMax p Y) := total_DivMax hD.features.toWF hD.labels hD.rows p
  have hstop : ∀ sel b, (learnerDivMax p Y).stop sel b = .ok (decide (sel.length ≥ k)) := by
    intro sel b
    simp only [learnerDivMax, shouldStopDivMax, hk]
  refine le_trans ?_ (learnRun_ideal he hD pf pl hh hlr hstop hδ fuel)
  unfold learnFitDivMax
  refine probOf_bind_le_of (learnRun_discrete he hD pf pl hlr fuel) ?_ (by rintro e ⟨_, _, e', -⟩; cases e') ?_
  · intro r _
    cases r with
    | none => exact Discrete.proper_done _
    | some st => exact Discrete.bind (Discrete.lift _) fun _ _ => Discrete.proper_done _
  · rintro r hB x hx ⟨o, res, rfl, hn⟩
    cases r with
    | none => cases hx
    | some st =>
      simp only [RandR.bind_eq, RandR.outcome_bind] at hx
      rcases hx with ⟨v, hv, hx⟩ | ⟨e, -, e'⟩
      · cases hx
        refine hB ⟨st, rfl, ?_⟩
        have : res.round1 = st.selected := by
          unfold RandR.lift at hv
          change _ = _ at hv
          unfold fitTail at hv
          simp only [Bind.bind, Except.bind] at hv
          split at hv
          · cases hv
          split at hv
          · cases hv
          cases hv
          rfl
        rw [← this]
        exact hn
      · cases e'

/-- **C127.** So this probability vanishes as the number of tails per iteration grows, on all data. -/
theorem C127_limit (env : LearnEnv) (he : env.Good) (X Y : Cmp) (hD : LearnData env X Y) (pf pl : ℚ)
    (p : Params) (k : ℕ) (hk : p.nMaxRules = some k) (hh : 0 < p.nHeads) (v3 : Bool) (fuel : ℕ) :
    Filter.Tendsto (fun n =>
      (learnFitV2 env { p with nTails := n } (if v3 then learnerV3 p else learnerV2 p)
        (if v3 then qualityOfRuleV3 else qualityOfRule) (LearnObj.new pf pl) X Y fuel).probOf (fun x =>
          ∃ o obj, x = .ok (some (o, obj)) ∧
            ¬ IdealGreedy env X Y pf pl (if v3 then learnerV3 p else learnerV2 p).objective o.selected))
      Filter.atTop (nhds 0) := by
  obtain ⟨δ, h0, hδ⟩ := exists_floor X Y pf pl hh
  refine squeeze_zero (g := fun n => k * (1 - δ) ^ n) (fun n => ?_) (fun n => ?_) ?_
  · exact Discrete.probOf_nonneg (C127_finite_law env he X Y hD pf pl { p with nTails := n } k hk v3 fuel) _
  · exact C127_miss env he X Y hD pf pl { p with nTails := n } k hk hh v3 fuel δ hδ
  · have := tendsto_pow_atTop_nhds_zero_of_lt_one (r := 1 - δ) (by linarith [hδ.1]) (by linarith)
    simpa using this.const_mul (k : ℝ)

/-- **C127.** On data on which `fit` cannot fail, `fit` returns the list of the ideal search with probability at least
`1 - k (1 - δ)ⁿ`. -/
theorem C127_clean (env : LearnEnv) (he : env.Good) (X Y : Cmp) (hD : LearnData env X Y) (pf pl : ℚ)
    (h1 : ¬ SharedFeature X Y) (h2 : ¬ FeaturelessTail X Y pl) (h3 : ¬ UniversalLabel Y)
    (p : Params) (k : ℕ) (hk : p.nMaxRules = some k) (ht : 0 < p.nTails) (hh : 0 < p.nHeads) (v3 : Bool) (fuel : ℕ)
    (hf : k < fuel) (δ : ℝ) (hδ : ChanceFloor X Y pf pl p.nHeads δ) :
    1 - k * (1 - δ) ^ p.nTails ≤
    (learnFitV2 env p (if v3 then learnerV3 p else learnerV2 p)
      (if v3 then qualityOfRuleV3 else qualityOfRule) (LearnObj.new pf pl) X Y fuel).probOf (fun x =>
        ∃ o obj, x = .ok (some (o, obj)) ∧ o.selected.length ≤ k ∧
          (o.selected.length < k → labelCells Y ⊆ covered o.selected) ∧
          IdealGreedy env X Y pf pl (if v3 then learnerV3 p else learnerV2 p).objective o.selected) := by
  have hd := C127_finite_law env he X Y hD pf pl p k hk v3 fuel
  have hmiss := C127_miss env he X Y hD pf pl p k hk hh v3 fuel δ hδ
  have hno := (C83_fit_never_raises_iff env he X Y hD pf pl p k hk ht hh v3 fuel hf).mpr ⟨h1, h2, h3⟩
  have hall := hd.probOf_one (E := fun _ => True) fun _ _ => trivial
  have hor := hd.probOf_or (E := fun _ => True)
    (E₁ := fun x => ∃ o obj, x = .ok (some (o, obj)) ∧ o.selected.length ≤ k ∧
      (o.selected.length < k → labelCells Y ⊆ covered o.selected) ∧
      IdealGreedy env X Y pf pl (if v3 then learnerV3 p else learnerV2 p).objective o.selected)
    (E₂ := fun x => ∃ o obj, x = .ok (some (o, obj)) ∧
      ¬ IdealGreedy env X Y pf pl (if v3 then learnerV3 p else learnerV2 p).objective o.selected) (by
    intro x hx _
    rcases C70_fit_outcomes env he X Y hD pf pl p k hk ht hh v3 fuel hf x hx with
      ⟨o, obj, rfl, a, -, b⟩ | rfl | ⟨rfl, -⟩
    · by_cases hi : IdealGreedy env X Y pf pl (if v3 then learnerV3 p else learnerV2 p).objective o.selected
      · exact Or.inl ⟨o, obj, rfl, a, b, hi⟩
      · exact Or.inr ⟨o, obj, rfl, hi⟩
    · exact absurd hx (hno _)
    · exact absurd hx (hno _))
  linarith

/-! ### What the ideal search guarantees -/

theorem not_mem_covered_candidate {env : LearnEnv} (he : env.Good) {X Y : Cmp} (hD : LearnData env X Y)
    {pf pl : ℚ} {o : BRule} (ho : PossibleRule env X Y pf pl o) {sel : List BRule} (h : ¬ area o ⊆ covered sel) :
    CandidateRule env X Y pf pl (sel.map (updateOf env)) o := by
  classical
  obtain ⟨hb, hH, hT, -, hp⟩ := CandidateRule.sets he ho
  have hs := CandidateRule.supported he hD ho
  have hsub := hs.1.area_subset hD.features.toWF hD.labels.toWF hD.rows
  rw [Finset.not_subset] at h
  obtain ⟨⟨i, l⟩, hil, hn⟩ := h
  have hil' := hil
  simp only [area, Finset.mem_product] at hil'
  have hrow : RowContains Y i o.tail.toFinset := by
    intro x hx
    have := (mem_labelCells hD.labels.toWF _).mp (hsub (show (i, x) ∈ area o by
      simp only [area, Finset.mem_product]; exact ⟨hil'.1, hx⟩))
    exact ⟨x.toNat, (Int.toNat_of_nonneg this.1).symm, this.2⟩
  refine ⟨_, hH, _, hT, ?_, hp, hb⟩
  unfold openArea
  refine Finset.sum_pos' (fun _ _ => by positivity) ⟨i, ?_, ?_⟩
  · rw [Finset.mem_range]
    obtain ⟨j, -, hj⟩ := hrow l hil'.2
    exact hj.major_lt hD.labels.toWF
  · rw [if_pos hrow, Finset.card_pos]
    refine ⟨l, ?_⟩
    simp only [uncoveredPart, Finset.mem_filter]
    refine ⟨hil'.2, ?_⟩
    rintro ⟨u, hu, h1, h2⟩
    obtain ⟨b, hb', rfl⟩ := List.mem_map.mp hu
    apply hn
    rw [mem_covered]
    refine ⟨b, hb', ?_⟩
    simp only [updateOf] at h1 h2
    simp only [area, Finset.mem_product]
    exact ⟨((he.heads.1 _).2 i).mp h1, ((he.ints _).2 l).mp h2⟩

theorem covered_snoc_card (l : List BRule) (r : BRule) :
    (covered (l ++ [r])).card = (covered l).card + r.marginalCoverage l := by
  rw [marginalCoverage_eq]
  have : covered (l ++ [r]) = covered l ∪ area r := by
    ext c
    simp only [mem_covered, Finset.mem_union, List.mem_append, List.mem_singleton]
    constructor
    · rintro ⟨b, hb | rfl, hc⟩
      · exact Or.inl ⟨b, hb, hc⟩
      · exact Or.inr hc
    · rintro (⟨b, hb, hc⟩ | hc)
      · exact ⟨b, Or.inl hb, hc⟩
      · exact ⟨r, Or.inr rfl, hc⟩
  rw [this, ← Finset.union_sdiff_self_eq_union, Finset.card_union_of_disjoint Finset.disjoint_sdiff]

theorem distTo_nonneg (r : BRule) (l : List BRule) : 0 ≤ distTo r l :=
  List.sum_nonneg (by
    intro x hx
    obtain ⟨b, -, rfl⟩ := List.mem_map.mp hx
    exact areaDist_nonneg r b)

/-- In every round of the ideal search, the rule chosen is worth what any other rule would still add. -/
theorem ideal_step {env : LearnEnv} (he : env.Good) {X Y : Cmp} (hD : LearnData env X Y)
    {pf pl : ℚ} {lambd : ℝ} (hl : 0 ≤ lambd) {kl : BRule → ℝ}
    (hkl : ∀ c, Supported X Y c → c.klReal = .ok (kl c)) {G : List BRule}
    (hG : IdealGreedy env X Y pf pl (objectiveOfRule qualityOfRule lambd) G) {o : BRule}
    (ho : PossibleRule env X Y pf pl o) {κ : ℝ} (hκ : κ ≤ kl o) (i : ℕ) (hi : i < G.length) :
    κ * o.marginalCoverage (G.take i) ≤
      kl G[i] * (G[i]).marginalCoverage (G.take i) + lambd * distTo G[i] (G.take i) := by
  have hsup : ∀ b ∈ G, Supported X Y b := by
    intro b hb
    obtain ⟨j, hj, rfl⟩ := List.getElem_of_mem hb
    exact (hG j hj).1.supported he hD
  have hnn : ∀ b, Supported X Y b → 0 ≤ kl b := by
    intro b hb
    obtain ⟨v, h1, h2, -⟩ := klReal_bound hD.rows hb.1
    rw [hkl b hb] at h1
    cases h1
    exact h2
  have hGi := hsup _ (List.getElem_mem hi)
  have hosup := CandidateRule.supported he hD ho
  have hnd : ∀ b ∈ G.take i, b.tail.Nodup := fun b hb => (hsup b (List.mem_of_mem_take hb)).1.2.2
  have hval : ∀ b, Supported X Y b → ∀ v, objectiveOfRule qualityOfRule lambd (G.take i) b = .ok v →
      v = kl b * b.marginalCoverage (G.take i) + lambd * distTo b (G.take i) := by
    intro b hb v hv
    obtain ⟨q, h1, h2⟩ := objectiveOfRule_ok hnd hb.1.2.2 hv
    unfold qualityOfRule at h1
    rw [hkl b hb] at h1
    simp only [Bind.bind, Except.bind, Pure.pure, Except.pure, Except.ok.injEq] at h1
    rw [h2, ← h1]
    ring
  by_cases hsub : area o ⊆ covered (G.take i)
  · have h0 : o.marginalCoverage (G.take i) = 0 := by
      rw [marginalCoverage_eq, Finset.sdiff_eq_empty_iff_subset.mpr hsub, Finset.card_empty]
    rw [h0]
    have h1 := mul_nonneg (hnn _ hGi) (Nat.cast_nonneg (α := ℝ) ((G[i]).marginalCoverage (G.take i)))
    have h2 := mul_nonneg hl (distTo_nonneg G[i] (G.take i))
    simp only [Nat.cast_zero, mul_zero]
    linarith
  · obtain ⟨v, hv, hmax⟩ := (hG i hi).2
    obtain ⟨w, hw, hle⟩ := hmax o (not_mem_covered_candidate he hD ho hsub)
    rw [hval _ hGi v hv, hval _ hosup w hw] at hle
    have h1 := mul_le_mul_of_nonneg_right hκ (Nat.cast_nonneg (α := ℝ) (o.marginalCoverage (G.take i)))
    have h2 := mul_nonneg hl (distTo_nonneg o (G.take i))
    linarith

theorem ideal_round {env : LearnEnv} (he : env.Good) {X Y : Cmp} (hD : LearnData env X Y)
    {pf pl : ℚ} {lambd : ℝ} (hl : 0 ≤ lambd) {kl : BRule → ℝ}
    (hkl : ∀ c, Supported X Y c → c.klReal = .ok (kl c)) {G : List BRule}
    (hG : IdealGreedy env X Y pf pl (objectiveOfRule qualityOfRule lambd) G) {k : ℕ} {O : List BRule}
    (hO : O.length ≤ k) (hp : ∀ o ∈ O, PossibleRule env X Y pf pl o) {κ : ℝ} (h0 : 0 ≤ κ)
    (hκ : ∀ o ∈ O, κ ≤ kl o) (i : ℕ) (hi : i < G.length) :
    κ * ((covered O).card - (covered (G.take i)).card) ≤
      k * (kl G[i] * (G[i]).marginalCoverage (G.take i) + lambd * distTo G[i] (G.take i)) := by
  have hsum := List.sum_le_sum (l := O) (f := fun o => κ * (o.marginalCoverage (G.take i) : ℝ))
    (g := fun _ => kl G[i] * (G[i]).marginalCoverage (G.take i) + lambd * distTo G[i] (G.take i))
    (fun o ho => ideal_step he hD hl hkl hG (hp o ho) (hκ o ho) i hi)
  rw [List.map_const', List.sum_replicate, nsmul_eq_mul, List.sum_map_mul_left] at hsum
  have hm := mul_le_mul_of_nonneg_left (sum_marginal_ge O (G.take i)) h0
  refine (hm.trans hsum).trans (mul_le_mul_of_nonneg_right (by exact_mod_cast hO) ?_)
  have hGi := (hG i hi).1.supported he hD
  obtain ⟨v, h1, h2, -⟩ := klReal_bound hD.rows hGi.1
  rw [hkl _ hGi] at h1
  cases h1
  exact add_nonneg (mul_nonneg h2 (Nat.cast_nonneg _)) (mul_nonneg hl (distTo_nonneg _ _))

/-- **C127.** What the ideal search guarantees. Let `G` be its list for a budget of `k` rules. No list `O` of at most
`k` rules that can be drawn, each with a divergence of at least `κ`, covers much more: `κ` times the number of label
occurrences that `O` covers is at most the summed gains of the choices (divergence times newly covered occurrences),
plus `κ` times the number of occurrences that `G` covers, plus the weighted diversity of `G`. -/
theorem C127_guarantee (env : LearnEnv) (he : env.Good) (X Y : Cmp) (hD : LearnData env X Y)
    (pf pl : ℚ) (lambd : ℝ) (hl : 0 ≤ lambd) (kl : BRule → ℝ)
    (hkl : ∀ c, Supported X Y c → c.klReal = .ok (kl c)) (G : List BRule)
    (hG : IdealGreedy env X Y pf pl (objectiveOfRule qualityOfRule lambd) G) (k : ℕ) (hk : G.length ≤ k)
    (hfull : G.length < k → labelCells Y ⊆ covered G) (O : List BRule)
    (hO : O.length ≤ k) (hp : ∀ o ∈ O, PossibleRule env X Y pf pl o) (κ : ℝ) (h0 : 0 ≤ κ)
    (hκ : ∀ o ∈ O, κ ≤ kl o) :
    κ * (covered O).card ≤
      (∑ i : Fin G.length, kl G[i] * ((area G[i] \ covered (G.take i)).card : ℝ)) +
      κ * (covered G).card + lambd * diversity G := by
  have hsup : ∀ b ∈ G, Supported X Y b := by
    intro b hb
    obtain ⟨j, hj, rfl⟩ := List.getElem_of_mem hb
    exact (hG j hj).1.supported he hD
  have hV : 0 ≤ ∑ i : Fin G.length, kl G[i] * ((area G[i] \ covered (G.take i)).card : ℝ) := by
    refine Finset.sum_nonneg fun i _ => mul_nonneg ?_ (Nat.cast_nonneg _)
    have hb := hsup _ (List.getElem_mem i.2)
    obtain ⟨v, h1, h2, -⟩ := klReal_bound hD.rows hb.1
    rw [hkl _ hb] at h1
    cases h1
    exact h2
  have hdn := mul_nonneg hl (diversity_nonneg G)
  rcases Nat.lt_or_ge G.length k with hlt | hge
  · have hsub : covered O ⊆ covered G := fun c hc => hfull hlt (covered_subset hD.features.toWF hD.labels.toWF hD.rows
      (fun b hb => ((hp b hb).supported he hD).1) hc)
    have := mul_le_mul_of_nonneg_left (Nat.cast_le (α := ℝ).mpr (Finset.card_le_card hsub)) h0
    linarith
  have hk' : G.length = k := le_antisymm hk hge
  subst hk'
  rcases Nat.eq_zero_or_pos G.length with hz | hpos
  · have hOn : O = [] := List.length_eq_zero_iff.mp (by omega)
    subst hOn
    have := mul_nonneg h0 (Nat.cast_nonneg (α := ℝ) (covered G).card)
    rw [show covered [] = ∅ from rfl, Finset.card_empty, Nat.cast_zero, mul_zero]
    linarith
  have hsum := Finset.sum_le_sum (s := (Finset.univ : Finset (Fin G.length))) fun i _ =>
    ideal_round he hD hl hkl hG hO hp h0 hκ i i.2
  have hmono : ∀ i : Fin G.length, κ * ((covered O).card - (covered G).card : ℝ) ≤
      κ * ((covered O).card - (covered (G.take i)).card) := by
    intro i
    have : (covered (G.take i)).card ≤ (covered G).card := by
      apply Finset.card_le_card
      intro x hx
      rw [mem_covered] at hx ⊢
      obtain ⟨r, hr, hxr⟩ := hx
      exact ⟨r, List.mem_of_mem_take hr, hxr⟩
    have : ((covered (G.take i)).card : ℝ) ≤ (covered G).card := by exact_mod_cast this
    exact mul_le_mul_of_nonneg_left (by linarith) h0
  have hall := (Finset.sum_le_sum (s := (Finset.univ : Finset (Fin G.length))) fun i _ => hmono i).trans hsum
  rw [Finset.sum_const, Finset.card_univ, Fintype.card_fin, nsmul_eq_mul, ← Finset.mul_sum,
    Finset.sum_add_distrib, ← Finset.mul_sum] at hall
  have hdiv : ∑ i : Fin G.length, distTo G[i] (G.take i) = diversity G := by
    have key : ∀ n ≤ G.length, ∑ i ∈ Finset.range n, (if h : i < G.length then distTo G[i] (G.take i) else 0) =
        diversity (G.take n) := by
      intro n
      induction n with
      | zero => intro _; simp [diversity]
      | succ n ih =>
        intro hn
        rw [Finset.sum_range_succ, ih (by omega), List.take_add_one,
          List.getElem?_eq_getElem (by omega), Option.toList_some, diversity_snoc]
        simp [show n < G.length by omega]
    have := key G.length le_rfl
    rw [List.take_length] at this
    rw [← this, Finset.sum_range]
    exact Finset.sum_congr rfl fun i _ => by simp
  have hkr : (0 : ℝ) < G.length := by exact_mod_cast hpos
  have := le_of_mul_le_mul_left hall hkr
  have e : ∑ i : Fin G.length, kl G[i] * ((area G[i] \ covered (G.take i)).card : ℝ) =
      ∑ i : Fin G.length, kl G[i] * ((G[i]).marginalCoverage (G.take i) : ℝ) :=
    Finset.sum_congr rfl fun i _ => by rw [marginalCoverage_eq]
  rw [e]
  simp only [Fin.getElem_fin] at hdiv this ⊢
  rw [hdiv] at this
  linarith

/-- **C127.** Without a weight on diversity: if all divergences of rules that can be drawn are at most `K`, the list
of the ideal search covers at least the share `1 - exp (-κ / K)` of what any list of at most `k` rules that can be
drawn, with divergences of at least `κ`, covers. -/
theorem C127_coverage (env : LearnEnv) (he : env.Good) (X Y : Cmp) (hD : LearnData env X Y)
    (pf pl : ℚ) (kl : BRule → ℝ)
    (hkl : ∀ c, Supported X Y c → c.klReal = .ok (kl c)) (G : List BRule)
    (hG : IdealGreedy env X Y pf pl (objectiveOfRule qualityOfRule 0) G) (k : ℕ) (hk : G.length ≤ k)
    (hfull : G.length < k → labelCells Y ⊆ covered G) (O : List BRule)
    (hO : O.length ≤ k) (hp : ∀ o ∈ O, PossibleRule env X Y pf pl o) (κ K : ℝ) (h0 : 0 ≤ κ) (hK : 0 < K)
    (hκ : ∀ o ∈ O, κ ≤ kl o) (hmax : ∀ c, PossibleRule env X Y pf pl c → kl c ≤ K) :
    (1 - Real.exp (-(κ / K))) * (covered O).card ≤ (covered G).card := by
  have hGp : ∀ i (hi : i < G.length), PossibleRule env X Y pf pl G[i] := by
    intro i hi
    obtain ⟨hb, hH, hT, ha, hp⟩ := CandidateRule.sets he (hG i hi).1
    exact ⟨_, hH, _, hT, ha.trans_le (openArea_anti _ _ _), hp, hb⟩
  have hexp : Real.exp (-(κ / K)) ≤ 1 := by
    rw [Real.exp_le_one_iff]
    have := div_nonneg h0 hK.le
    linarith
  rcases Nat.lt_or_ge G.length k with hlt | hge
  · have hsub : covered O ⊆ covered G := fun c hc => hfull hlt (covered_subset hD.features.toWF hD.labels.toWF hD.rows
      (fun b hb => ((hp b hb).supported he hD).1) hc)
    have h1 : ((covered O).card : ℝ) ≤ (covered G).card := by exact_mod_cast Finset.card_le_card hsub
    refine le_trans ?_ h1
    exact mul_le_of_le_one_left (Nat.cast_nonneg _) (by linarith [Real.exp_pos (-(κ / K))])
  have hk' : G.length = k := le_antisymm hk hge
  rcases O with _ | ⟨o, O'⟩
  · simp [covered]
  set O := o :: O' with hOdef
  have hkpos : 0 < k := lt_of_lt_of_le (by simp [hOdef]) hO
  have hkr : (0 : ℝ) < k := by exact_mod_cast hkpos
  have hκK : κ ≤ K := (hκ o (by simp [hOdef])).trans (hmax o (hp o (by simp [hOdef])))
  have hr : κ / K ≤ k := by
    rw [div_le_iff₀ hK]
    have : (1 : ℝ) ≤ k := by exact_mod_cast hkpos
    nlinarith
  have hr0 : 0 ≤ 1 - κ / K / k := by
    rw [sub_nonneg, div_le_one hkr]
    exact hr
  have hrec : ∀ n ≤ G.length, ((covered O).card : ℝ) - (covered (G.take n)).card ≤
      (1 - κ / K / k) ^ n * (covered O).card := by
    intro n
    induction n with
    | zero => intro _; simp [covered]
    | succ n ih =>
      intro hn
      have hi : n < G.length := by omega
      have hround := ideal_round he hD le_rfl hkl hG hO hp h0 hκ n hi
      rw [zero_mul, add_zero] at hround
      have hKb : kl G[n] * (G[n]).marginalCoverage (G.take n) ≤ K * (G[n]).marginalCoverage (G.take n) :=
        mul_le_mul_of_nonneg_right (hmax _ (hGp n hi)) (Nat.cast_nonneg _)
      have hgain : κ / K / k * ((covered O).card - (covered (G.take n)).card : ℝ) ≤
          (G[n]).marginalCoverage (G.take n) := by
        have h2 := hround.trans (mul_le_mul_of_nonneg_left hKb hkr.le)
        rw [div_div, div_mul_eq_mul_div, div_le_iff₀ (mul_pos hK hkr)]
        linarith
      rw [List.take_add_one, List.getElem?_eq_getElem hi, Option.toList_some, covered_snoc_card, pow_succ']
      have h3 := mul_le_mul_of_nonneg_left (ih (by omega)) hr0
      push_cast
      linarith
  have hfin := hrec G.length le_rfl
  rw [List.take_length, hk'] at hfin
  have hpow := Real.one_sub_div_pow_le_exp_neg hr
  have := mul_le_mul_of_nonneg_right hpow (Nat.cast_nonneg (α := ℝ) (covered O).card)
  linarith

/-- **C127.** Put together, for `GreedyDivMaxV2` with `lambd = 0` on data on which `fit` cannot fail: with probability
at least `1 - k (1 - δ)ⁿ`, `fit` returns a list that covers the share `1 - exp (-κ / K)` of what any competing list
covers. -/
theorem C127_fit_coverage (env : LearnEnv) (he : env.Good) (X Y : Cmp) (hD : LearnData env X Y) (pf pl : ℚ)
    (h1 : ¬ SharedFeature X Y) (h2 : ¬ FeaturelessTail X Y pl) (h3 : ¬ UniversalLabel Y)
    (p : Params) (hlam : p.lambd = 0) (k : ℕ) (hk : p.nMaxRules = some k) (ht : 0 < p.nTails) (hh : 0 < p.nHeads)
    (fuel : ℕ) (hf : k < fuel) (δ : ℝ) (hδ : ChanceFloor X Y pf pl p.nHeads δ)
    (kl : BRule → ℝ) (hkl : ∀ c, Supported X Y c → c.klReal = .ok (kl c)) (κ K : ℝ) (h0 : 0 ≤ κ) (hK : 0 < K)
    (hmax : ∀ c, PossibleRule env X Y pf pl c → kl c ≤ K) :
    1 - k * (1 - δ) ^ p.nTails ≤
    (learnFitV2 env p (learnerV2 p) qualityOfRule (LearnObj.new pf pl) X Y fuel).probOf (fun x =>
      ∃ o obj, x = .ok (some (o, obj)) ∧ ∀ O : List BRule, O.length ≤ k →
        (∀ c ∈ O, PossibleRule env X Y pf pl c ∧ κ ≤ kl c) →
        (1 - Real.exp (-(κ / K))) * (covered O).card ≤ (covered o.selected).card) := by
  have hc := C127_clean env he X Y hD pf pl h1 h2 h3 p k hk ht hh false fuel hf δ hδ
  refine hc.trans ((C127_finite_law env he X Y hD pf pl p k hk false fuel).probOf_mono ?_)
  rintro x hx ⟨o, obj, rfl, a, b, c⟩
  refine ⟨o, obj, rfl, fun O hO hp => ?_⟩
  have hG : IdealGreedy env X Y pf pl (objectiveOfRule qualityOfRule 0) o.selected := by
    rw [← hlam]
    exact c
  exact C127_coverage env he X Y hD pf pl kl hkl o.selected hG k a b O hO (fun c hc => (hp c hc).1) κ K h0 hK
    (fun c hc => (hp c hc).2) hmax

/-! ### A concrete case -/

theorem eye_clean (pl : ℚ) : ¬ SharedFeature eyeData eyeData ∧ ¬ FeaturelessTail eyeData eyeData pl ∧
    ¬ UniversalLabel eyeData := by
  refine ⟨?_, ?_, ?_⟩
  · rintro ⟨i, j, f, l, h1, h2, h3, h4⟩
    rw [eye_stored] at h1 h2 h3 h4
    exact h4 ⟨h2.1, by rw [h3.2, ← h1.2, h2.2]⟩
  · rintro ⟨g, U, -, hU, ⟨i, hi, h1⟩, ⟨j, hj, l, hl, h2⟩, h3⟩
    exact h3 i h1 i (eye_stored.mpr ⟨hi, rfl⟩)
  · rintro ⟨j, hj⟩
    have h0 := eye_stored.mp (hj 0 (by decide))
    have h1 := eye_stored.mp (hj 1 (by decide))
    omega

theorem possible_finite {env : LearnEnv} (he : env.Good) (X Y : Cmp) (pf pl : ℚ) :
    {c | PossibleRule env X Y pf pl c}.Finite := by
  refine Set.Finite.of_finite_image (f := fun c : BRule => (c.head.toFinset, c.tail.toFinset))
    (((samplesOf X pf ×ˢ samplesOf Y pl).finite_toSet).subset ?_) ?_
  · rintro _ ⟨c, hc, rfl⟩
    obtain ⟨-, h1, h2, -⟩ := CandidateRule.sets he hc
    simpa using ⟨h1, h2⟩
  · intro c hc c' hc' e
    simp only [Prod.mk.injEq] at e
    exact CandidateRule.ext he hc hc' e.1 e.2

/-- Two rows with features {0}, {1} and labels {0}, {1}, a budget of five rules, three heads for each of `n` tails and
no weight on diversity: `fit` returns a list with the guaranteed coverage with a probability that tends to one; all
divergences of rules that can be drawn are in the range that the bounds `κ` and `K` ask for. -/
example (pf pl : ℚ) : ∃ (kl : BRule → ℝ) (K δ : ℝ), 0 < δ ∧ 0 < K ∧
    (∀ c, Supported eyeData eyeData c → c.klReal = .ok (kl c)) ∧
    ∀ n, 0 < n → 1 - 5 * (1 - δ) ^ n ≤
      (learnFitV2 (someLearnEnv 10) { lambd := 0, nTails := n, nHeads := 3, nMaxRules := some 5, tolerance := 0 }
        (learnerV2 { lambd := 0, nTails := n, nHeads := 3, nMaxRules := some 5, tolerance := 0 }) qualityOfRule
        (LearnObj.new pf pl) eyeData eyeData 6).probOf (fun x =>
      ∃ o obj, x = .ok (some (o, obj)) ∧ ∀ O : List BRule, O.length ≤ 5 →
        (∀ c ∈ O, PossibleRule (someLearnEnv 10) eyeData eyeData pf pl c ∧ 1 / 2 ≤ kl c) →
        (1 - Real.exp (-(1 / 2 / K))) * (covered O).card ≤ (covered o.selected).card) := by
  have he := someLearnEnv_good 10
  let kl : BRule → ℝ := fun c => match c.klReal with
    | .ok v => v
    | .error _ => 0
  have hkl : ∀ c, Supported eyeData eyeData c → c.klReal = .ok (kl c) := by
    intro c hc
    obtain ⟨v, h, -⟩ := klReal_bound eye_data.rows hc.1
    simp only [kl, h]
  obtain ⟨B, hB⟩ := ((possible_finite he eyeData eyeData pf pl).image kl).bddAbove
  obtain ⟨δ, h0, hδ⟩ := exists_floor eyeData eyeData pf pl (m := 3) (by norm_num)
  obtain ⟨h1, h2, h3⟩ := eye_clean pl
  refine ⟨kl, max B 1, δ, h0, by positivity, hkl, fun n hn => ?_⟩
  exact C127_fit_coverage _ he eyeData eyeData eye_data pf pl h1 h2 h3
    { lambd := 0, nTails := n, nHeads := 3, nMaxRules := some 5, tolerance := 0 } rfl 5 rfl hn (by norm_num) 6
    (by norm_num) δ hδ kl hkl (1 / 2) (max B 1) (by norm_num) (by positivity)
    (fun c hc => (hB ⟨c, hc, rfl⟩).trans (le_max_left _ _))

end Verif
