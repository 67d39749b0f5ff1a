/-
Probabilities of events of programs with a finite law, and one iteration of the learners with many candidates.
-/
import Verif.Lemmas.Discrete
import Verif.Spec.Ideal

namespace Verif

open RandR

namespace RandR

variable {α β : Type}

theorem FiniteLaw.mono {m : RandR α} {L : List (ℝ × Py α)} (hL : m.FiniteLaw L) {F G : Py α → ℝ}
    (h : ∀ x, m.Outcome x → F x ≤ G x) : m.expect F ≤ m.expect G := by
  obtain ⟨h1, -, h3⟩ := hL
  rw [h3, h3]
  exact List.sum_le_sum fun q hq => mul_le_mul_of_nonneg_left (h _ (h1 q hq).2) (h1 q hq).1.le

theorem Discrete.mono {m : RandR α} (hm : m.Discrete) {F G : Py α → ℝ} (h : ∀ x, m.Outcome x → F x ≤ G x) :
    m.expect F ≤ m.expect G := by
  obtain ⟨L, hL⟩ := hm
  exact hL.mono h

theorem Discrete.expect_add {m : RandR α} (hm : m.Discrete) (F G : Py α → ℝ) :
    m.expect (fun x => F x + G x) = m.expect F + m.expect G := by
  obtain ⟨L, h1, -, h3⟩ := hm
  rw [h3, h3, h3, ← List.sum_map_add]
  congr 1
  exact List.map_congr_left fun q _ => by ring

theorem Discrete.expect_const {m : RandR α} (hm : m.Discrete) (c : ℝ) : m.expect (fun _ => c) = c := by
  obtain ⟨L, h1, h2, h3⟩ := hm
  rw [h3, List.sum_map_mul_right, show (L.map fun q => q.1).sum = 1 from h2, one_mul]

theorem Discrete.probOf_mono {m : RandR α} (hm : m.Discrete) {E E' : Py α → Prop}
    (h : ∀ x, m.Outcome x → E x → E' x) : m.probOf E ≤ m.probOf E' := by
  classical
  refine hm.mono fun x hx => ?_
  by_cases hE : E x
  · rw [if_pos hE, if_pos (h x hx hE)]
  · rw [if_neg hE]
    split_ifs <;> norm_num

theorem Discrete.probOf_le_one {m : RandR α} (hm : m.Discrete) (E : Py α → Prop) : m.probOf E ≤ 1 := by
  rw [← hm.expect_const 1]
  exact hm.mono fun x _ => by split_ifs <;> norm_num

theorem Discrete.probOf_nonneg {m : RandR α} (hm : m.Discrete) (E : Py α → Prop) : 0 ≤ m.probOf E := by
  rw [← hm.expect_const 0]
  exact hm.mono fun x _ => by split_ifs <;> norm_num

theorem Discrete.probOf_or {m : RandR α} (hm : m.Discrete) {E E₁ E₂ : Py α → Prop}
    (h : ∀ x, m.Outcome x → E x → E₁ x ∨ E₂ x) : m.probOf E ≤ m.probOf E₁ + m.probOf E₂ := by
  classical
  unfold RandR.probOf
  rw [← hm.expect_add]
  refine hm.mono fun x hx => ?_
  by_cases hE : E x
  · rcases h x hx hE with h1 | h1 <;> simp only [if_pos hE, if_pos h1] <;> split_ifs <;> norm_num
  · rw [if_neg hE]
    split_ifs <;> norm_num

theorem Discrete.probOf_zero {m : RandR α} (hm : m.Discrete) {E : Py α → Prop} (h : ∀ x, m.Outcome x → ¬ E x) :
    m.probOf E = 0 := by
  refine le_antisymm ?_ (hm.probOf_nonneg E)
  rw [← hm.expect_const 0]
  exact hm.mono fun x hx => by rw [if_neg (h x hx)]

theorem Discrete.probOf_one {m : RandR α} (hm : m.Discrete) {E : Py α → Prop} (h : ∀ x, m.Outcome x → E x) :
    m.probOf E = 1 := by
  refine le_antisymm (hm.probOf_le_one E) ?_
  rw [← hm.expect_const 1]
  exact hm.mono fun x hx => by rw [if_pos (h x hx)]

theorem Discrete.probOf_bind_le {m : RandR α} {k : α → RandR β} (hm : m.Discrete)
    (hk : ∀ a, m.Outcome (.ok a) → (k a).Discrete) {E : Py β → Prop}
    (hE : ∀ e, m.Outcome (.error e) → ¬ E (.error e)) {B : Py α → Prop} {c : ℝ} (hc : 0 ≤ c)
    (h : ∀ a, m.Outcome (.ok a) → ¬ B (.ok a) → (k a).probOf E ≤ c) :
    (m.bind k).probOf E ≤ m.probOf B + c := by
  classical
  unfold RandR.probOf
  rw [RandR.expect_bind, ← hm.expect_const c, ← hm.expect_add]
  refine hm.mono fun x hx => ?_
  cases x with
  | error e =>
    simp only [RandR.after]
    rw [if_neg (hE e hx)]
    split_ifs <;> linarith
  | ok a =>
    simp only [RandR.after]
    by_cases hB : B (.ok a)
    · rw [if_pos hB]
      exact ((hk a hx).probOf_le_one E).trans (by linarith)
    · rw [if_neg hB, zero_add]
      exact h a hx hB

end RandR

/-! ### One iteration -/

theorem openArea_anti (Y : Cmp) (us : List (List ℕ × List ℤ)) (T : Finset ℤ) : openArea Y us T ≤ openArea Y [] T := by
  unfold openArea
  refine Finset.sum_le_sum fun i _ => ?_
  split_ifs
  · refine Finset.card_le_card fun l hl => ?_
    simp only [uncoveredPart, Finset.mem_filter] at hl ⊢
    exact ⟨hl.1, by simp [CoveredBy]⟩
  · exact le_refl _

theorem leastChance_pos {X Y : Cmp} {pf pl : ℚ} {m : ℕ} (hm : 0 < m) {H T : Finset ℤ} (hH : H ∈ samplesOf X pf)
    (hT : T ∈ samplesOf Y pl) (ha : 0 < openArea Y [] T) (hp : 0 < rulePairs X Y T H) :
    0 < leastChance X Y pf pl m H T := by
  classical
  unfold leastChance
  refine div_pos ?_ (Finset.sum_pos' (fun _ _ => by positivity) ⟨T, hT, by exact_mod_cast ha⟩)
  have h1 := headChance_pos hH hp
  have h2 : headChance X Y pf T H ≤ 1 - noHead X Y pf T := by
    rw [← head_complement]
    exact Finset.single_le_sum (f := fun H => headChance X Y pf T H) (fun H' _ => headChance_nonneg X Y pf T H') hH
  have := pow_lt_pow_left₀ (show 1 - noHead X Y pf T - headChance X Y pf T H < 1 - noHead X Y pf T by linarith)
    (by linarith) hm.ne'
  linarith

theorem leastChance_le_one {X Y : Cmp} {pf pl : ℚ} {m : ℕ} {H T : Finset ℤ} (hH : H ∈ samplesOf X pf)
    (hT : T ∈ samplesOf Y pl) (ha : 0 < openArea Y [] T) : leastChance X Y pf pl m H T ≤ 1 := by
  classical
  unfold leastChance
  have hA : (1 : ℝ) ≤ ∑ U ∈ samplesOf Y pl, (openArea Y [] U : ℝ) := by
    refine le_trans (by exact_mod_cast ha) (Finset.single_le_sum (f := fun U => (openArea Y [] U : ℝ))
      (fun U _ => by positivity) hT)
  rw [div_le_one (by linarith)]
  have h2 : headChance X Y pf T H ≤ 1 - noHead X Y pf T := by
    rw [← head_complement]
    exact Finset.single_le_sum (f := fun H => headChance X Y pf T H) (fun H' _ => headChance_nonneg X Y pf T H') hH
  have h0 := (noHead_range X Y pf T).1
  have h3 : (1 - noHead X Y pf T) ^ m ≤ 1 := pow_le_one₀ (by linarith [headChance_nonneg X Y pf T H]) (by linarith)
  have h4 : 0 ≤ (1 - noHead X Y pf T - headChance X Y pf T H) ^ m := pow_nonneg (by linarith) _
  linarith

/-- Leaving out a rule that can be drawn costs at least its least chance. -/
theorem round_avoid_le {X Y : Cmp} {pf pl : ℚ} {us : List (List ℕ × List ℤ)} {m : ℕ}
    {A : Finset ℤ → Finset ℤ → Prop} {H T : Finset ℤ} (hH : H ∈ samplesOf X pf) (hT : T ∈ samplesOf Y pl)
    (ha : 0 < openArea Y us T) (hA : ¬ A H T) :
    roundChance X Y pf pl us m A ≤ 1 - leastChance X Y pf pl m H T := by
  classical
  have hpos : 0 < ∑ T ∈ samplesOf Y pl, openArea Y us T :=
    Finset.sum_pos' (fun _ _ => by positivity) ⟨T, hT, ha⟩
  have hposR : (0 : ℝ) < ∑ T ∈ samplesOf Y pl, (openArea Y us T : ℝ) := by exact_mod_cast hpos
  have hmono : roundChance X Y pf pl us m A ≤ roundChance X Y pf pl us m fun H' T' => ¬ (H' = H ∧ T' = T) := by
    unfold roundChance
    refine Finset.sum_le_sum fun U _ => mul_le_mul_of_nonneg_left (pow_le_pow_left₀
      (Finset.sum_nonneg fun H' _ => headChance_nonneg X Y pf U H') ?_ m) (tailChance_nonneg Y pl us U)
    refine Finset.sum_le_sum_of_subset_of_nonneg (fun H' hH' => ?_) fun H' _ _ => headChance_nonneg X Y pf U H'
    simp only [Finset.mem_filter] at hH' ⊢
    refine ⟨hH'.1, ?_⟩
    rintro ⟨rfl, rfl⟩
    exact hA hH'.2
  refine hmono.trans ?_
  rw [round_avoid X Y pf pl us m hH hT]
  have hone : ∑ U ∈ samplesOf Y pl, tailChance Y pl us U * (1 - noHead X Y pf U) ^ m ≤ 1 := by
    refine le_of_le_of_eq (Finset.sum_le_sum fun U _ => ?_) (tailChance_total hpos)
    have := noHead_range X Y pf U
    exact mul_le_of_le_one_right (tailChance_nonneg Y pl us U) (pow_le_one₀ (by linarith) (by linarith))
  have h2 : headChance X Y pf T H ≤ 1 - noHead X Y pf T := by
    rw [← head_complement]
    exact Finset.single_le_sum (f := fun H => headChance X Y pf T H) (fun H' _ => headChance_nonneg X Y pf T H') hH
  have hd : 0 ≤ (1 - noHead X Y pf T) ^ m - (1 - noHead X Y pf T - headChance X Y pf T H) ^ m := by
    have := pow_le_pow_left₀ (show 0 ≤ 1 - noHead X Y pf T - headChance X Y pf T H by linarith)
      (show _ ≤ 1 - noHead X Y pf T by linarith [headChance_nonneg X Y pf T H]) m
    linarith
  have hle : (∑ U ∈ samplesOf Y pl, (openArea Y us U : ℝ)) ≤ ∑ U ∈ samplesOf Y pl, (openArea Y [] U : ℝ) :=
    Finset.sum_le_sum fun U _ => by exact_mod_cast openArea_anti Y us U
  have htc : 1 / (∑ U ∈ samplesOf Y pl, (openArea Y [] U : ℝ)) ≤ tailChance Y pl us T := by
    unfold tailChance
    exact div_le_div₀ (by positivity) (by exact_mod_cast ha) hposR hle
  have : leastChance X Y pf pl m H T ≤ tailChance Y pl us T *
      ((1 - noHead X Y pf T) ^ m - (1 - noHead X Y pf T - headChance X Y pf T H) ^ m) := by
    unfold leastChance
    rw [div_eq_mul_one_div, mul_comm]
    exact mul_le_mul_of_nonneg_right htc hd
  linarith

/-- With the candidates of one iteration, the learner misses the best rule with a small probability. -/
theorem learnIter_miss {env : LearnEnv} (he : env.Good) {X Y : Cmp} (hD : LearnData env X Y) {pf pl : ℚ}
    {p : Params} (hh : 0 < p.nHeads) {lr : Learner} (hlr : LearnerTotal X Y lr) {st : LearnState}
    (hst : LoopInv env pf pl X Y st) {δ : ℝ} (hδ : ChanceFloor X Y pf pl p.nHeads δ) :
    (learnIter env p lr X X.flip Y.flip st).probOf (fun x => ∃ st' best, x = .ok (.next st') ∧
      st'.selected = st.selected ++ [best] ∧
      ¬ BestPossible env X Y pf pl (st.selected.map (updateOf env)) (lr.objective st.selected) best) ≤
    (1 - δ) ^ p.nTails := by
  classical
  have hnn : 0 ≤ (1 - δ) ^ p.nTails := pow_nonneg (by linarith [hδ.1]) _
  set us := st.selected.map (updateOf env) with hus
  have hs := hst.tails
  by_cases hne : ∃ c, CandidateRule env X Y pf pl us c
  swap
  · rw [(learnIter_discrete he hD hst).probOf_zero]
    · exact hnn
    · rintro x hx ⟨st', best, rfl, e, -⟩
      obtain ⟨h', cands, best', hg, hgc, -⟩ := learnIter_next hx
      exact hne ⟨_, learnGen_candidates he hD hs p.nHeads p.nTails _ [] cands h' hst.inv.heads hst.threshold (by simp)
        hg _ hgc.1⟩
  have hval : ∀ c, CandidateRule env X Y pf pl us c → ∃ v, lr.objective st.selected c = .ok v := fun c hc =>
    hlr.objective _ c hst.inv.selected (hc.supported he hD)
  obtain ⟨cs, hcs, vs, hvs, hmax⟩ : ∃ cs, CandidateRule env X Y pf pl us cs ∧ ∃ vs,
      lr.objective st.selected cs = .ok vs ∧
      ∀ c, CandidateRule env X Y pf pl us c → ∃ vc, lr.objective st.selected c = .ok vc ∧ vc ≤ vs := by
    have hfin : {c | CandidateRule env X Y pf pl us c}.Finite := by
      refine Set.Finite.of_finite_image (f := fun c : BRule => (c.head.toFinset, c.tail.toFinset))
        (((samplesOf X pf ×ˢ samplesOf Y pl).finite_toSet).subset ?_) ?_
      · rintro _ ⟨c, hc, rfl⟩
        obtain ⟨-, h1, h2, -⟩ := CandidateRule.sets he hc
        simpa using ⟨h1, h2⟩
      · intro c hc c' hc' e
        simp only [Prod.mk.injEq] at e
        exact CandidateRule.ext he hc hc' e.1 e.2
    let val : BRule → ℝ := fun c => match lr.objective st.selected c with
      | .ok v => v
      | .error _ => 0
    obtain ⟨cs, hcs, hm'⟩ := Set.exists_max_image _ val hfin hne
    obtain ⟨vs, hvs⟩ := hval cs hcs
    refine ⟨cs, hcs, vs, hvs, fun c hc => ?_⟩
    obtain ⟨v, hv⟩ := hval c hc
    refine ⟨v, hv, ?_⟩
    have := hm' c hc
    simpa only [val, hv, hvs] using this
  obtain ⟨-, hH, hT, ha, hp⟩ := hcs.sets he
  have hpos : 0 < ∑ T ∈ samplesOf Y pl, openArea Y us T :=
    Finset.sum_pos' (fun _ _ => by positivity) ⟨_, hT, ha⟩
  let A : Finset ℤ → Finset ℤ → Prop := fun H T => ¬ (H = cs.head.toFinset ∧ T = cs.tail.toFinset)
  have hbatch := C123_within env he X Y hD pf pl us st.sampler.1 hs hpos st.sampler.2 hst.inv.heads hst.tight
    hst.threshold p.nTails p.nHeads hh A
  have hbound : (learnGen env X X.flip Y.flip p.nHeads st.sampler.1 p.nTails st.sampler.2 []).probOf
      (Returned fun batch => ∀ b ∈ batch, A b.head.toFinset b.tail.toFinset) ≤ (1 - δ) ^ p.nTails := by
    rw [hbatch]
    refine pow_le_pow_left₀ (round_nonneg X Y pf pl us p.nHeads A) ?_ _
    have h1 := round_avoid_le (A := A) (m := p.nHeads) hH hT ha (by simp [A])
    have h2 := hδ.2 _ hH _ hT (ha.trans_le (openArea_anti Y us _)) hp
    exact h1.trans (by linarith)
  unfold learnIter
  rw [RandR.bind_eq]
  refine ((learnGen_discrete he hD hs p.nHeads p.nTails _ [] hst.inv.heads hst.tight
    hst.threshold).1.probOf_bind_le ?_ ?_ (B := Returned fun batch => ∀ b ∈ batch, A b.head.toFinset b.tail.toFinset)
    le_rfl ?_).trans (by linarith)
  · rintro ⟨g, h'⟩ _
    cases g with
    | ok cands => exact Discrete.lift _
    | error e => cases e <;> exact Discrete.proper_done _
  · rintro e _ ⟨_, _, e', -⟩
    cases e'
  · rintro ⟨g, h'⟩ hg hB
    refine le_of_eq (Discrete.probOf_zero ?_ ?_)
    · cases g with
      | ok cands => exact Discrete.lift _
      | error e => cases e <;> exact Discrete.proper_done _
    rintro x hx ⟨st', best, rfl, e, hnot⟩
    cases g with
    | error e =>
      cases e <;> cases hx
    | ok cands =>
      have hx' : (learnIter env p lr X X.flip Y.flip st).Outcome (.ok (.next st')) := by
        unfold learnIter
        rw [RandR.bind_eq, RandR.outcome_bind]
        exact Or.inl ⟨_, hg, hx⟩
      change Except.ok (IterResult.next st') = learnChoose env lr st h' cands at hx
      have hcand := learnGen_candidates he hD hs p.nHeads p.nTails _ [] cands h' hst.inv.heads hst.threshold
        (by simp) hg
      obtain ⟨b, hb, hb1, hb2⟩ : ∃ b ∈ cands, b.head.toFinset = cs.head.toFinset ∧
          b.tail.toFinset = cs.tail.toFinset := by
        by_contra hcon
        exact hB ⟨cands, h', rfl, fun b hb hbs => hcon ⟨b, hb, hbs⟩⟩
      have hbc : b = cs := (hcand b hb).ext he hcs hb1 hb2
      subst hbc
      apply hnot
      unfold learnChoose at hx
      rcases hbest : pyMax (lr.objective st.selected) (env.setOrder cands) with e' | best'
      · rw [hbest] at hx; cases hx
      rw [hbest] at hx
      simp only [Bind.bind, Except.bind] at hx
      rcases hstop : lr.stop st.selected best' with e' | stop
      · rw [hstop] at hx; cases hx
      rw [hstop] at hx
      simp only at hx
      cases stop
      swap
      · cases hx
      simp only [Bool.false_eq_true, if_false] at hx
      rcases hup : updateRowWeights st.sampler.1 (env.order best'.support) (env.orderZ best'.tail.toFinset) with
        e' | s'
      · rw [hup] at hx; cases hx
      rw [hup] at hx
      cases hx
      have hbb : best' = best := by simpa using e
      subst hbb
      obtain ⟨-, v, m2, m3⟩ := pyMax_spec hbest
      obtain ⟨w, hw, hle⟩ := m3 b ((env.setOrder_perm cands).mem_iff.mpr hb)
      rw [hvs] at hw
      cases hw
      refine ⟨v, m2, fun c hc => ?_⟩
      obtain ⟨vc, hvc, hle'⟩ := hmax c hc
      exact ⟨vc, hvc, hle'.trans hle⟩

/-! ### The loop -/

theorem IdealGreedy.nil (env : LearnEnv) (X Y : Cmp) (pf pl : ℚ) (obj : List BRule → BRule → Py ℝ) :
    IdealGreedy env X Y pf pl obj [] := fun i hi => absurd hi (by simp)

theorem IdealGreedy.snoc {env : LearnEnv} {X Y : Cmp} {pf pl : ℚ} {obj : List BRule → BRule → Py ℝ}
    {sel : List BRule} {b : BRule} (h : IdealGreedy env X Y pf pl obj sel)
    (hc : CandidateRule env X Y pf pl (sel.map (updateOf env)) b)
    (hb : BestPossible env X Y pf pl (sel.map (updateOf env)) (obj sel) b) :
    IdealGreedy env X Y pf pl obj (sel ++ [b]) := by
  intro i hi
  rcases Nat.lt_or_ge i sel.length with h1 | h1
  · have := h i h1
    rw [List.take_append_of_le_length h1.le, List.getElem_append_left h1]
    exact this
  · have e : i = sel.length := by
      rw [List.length_append, List.length_singleton] at hi
      omega
    subst e
    simpa using ⟨hc, hb⟩

theorem learnLoop_ideal {env : LearnEnv} (he : env.Good) {X Y : Cmp} (hD : LearnData env X Y) {pf pl : ℚ}
    {p : Params} (hh : 0 < p.nHeads) {lr : Learner} (hlr : LearnerTotal X Y lr) {k : ℕ}
    (hstop : ∀ sel b, lr.stop sel b = .ok (decide (sel.length ≥ k))) {δ : ℝ}
    (hδ : ChanceFloor X Y pf pl p.nHeads δ) :
    ∀ (fuel : ℕ) (st : LearnState), LoopInv env pf pl X Y st →
      IdealGreedy env X Y pf pl lr.objective st.selected →
      (learnLoop env p lr X X.flip Y.flip fuel st).probOf (fun x => ∃ st', x = .ok (some st') ∧
        ¬ IdealGreedy env X Y pf pl lr.objective st'.selected) ≤
      (k - st.selected.length : ℕ) * (1 - δ) ^ p.nTails
  | 0, st, hst, _ => by
    have hnn : 0 ≤ (1 - δ) ^ p.nTails := pow_nonneg (by linarith [hδ.1]) _
    rw [(learnLoop_discrete he hD hlr 0 st hst).probOf_zero]
    · positivity
    · rintro x hx ⟨st', rfl, -⟩
      cases hx
  | fuel + 1, st, hst, hid => by
    have hnn : 0 ≤ (1 - δ) ^ p.nTails := pow_nonneg (by linarith [hδ.1]) _
    have hdone : ∀ st', (learnIter env p lr X X.flip Y.flip st).Outcome (.ok (.done st')) →
        st'.selected = st.selected := by
      intro st' hr
      rcases learnIter_outcome he hD hlr hst.inv hr with ⟨_, e, -, hs, -⟩ | ⟨_, _, e, -⟩ | e | ⟨e, -⟩ | ⟨e, -⟩ <;>
        cases e
      exact hs
    have hd := learnIter_discrete (p := p) (lr := lr) he hD hst
    have hk' : ∀ r, (learnIter env p lr X X.flip Y.flip st).Outcome (.ok r) → (match r with
        | IterResult.done st' => (pure (some st') : RandR (Option LearnState))
        | IterResult.next st' => learnLoop env p lr X X.flip Y.flip fuel st').Discrete := by
      intro r hr
      cases r with
      | done st' => exact Discrete.proper_done _
      | next st' => exact learnLoop_discrete he hD hlr fuel st' (hst.next he hD hlr hr)
    have hfin : ∀ st', (learnIter env p lr X X.flip Y.flip st).Outcome (.ok (.done st')) →
        (pure (some st') : RandR (Option LearnState)).probOf (fun x => ∃ st', x = .ok (some st') ∧
          ¬ IdealGreedy env X Y pf pl lr.objective st'.selected) = 0 := by
      intro st' hr
      refine Discrete.probOf_zero (Discrete.proper_done _) ?_
      rintro x hx ⟨st'', rfl, hn⟩
      cases hx
      rw [hdone _ hr] at hn
      exact hn hid
    rw [learnLoop]
    rcases Nat.lt_or_ge st.selected.length k with hlt | hge
    · have hmiss := learnIter_miss he hD hh hlr hst hδ
      have e : ((k - st.selected.length : ℕ) : ℝ) = (k - (st.selected.length + 1) : ℕ) + 1 := by
        have : k - st.selected.length = (k - (st.selected.length + 1)) + 1 := by omega
        exact_mod_cast this
      rw [e, add_mul, one_mul, add_comm]
      refine (hd.probOf_bind_le hk' ?_ (B := fun x => ∃ st' best, x = .ok (.next st') ∧
        st'.selected = st.selected ++ [best] ∧
        ¬ BestPossible env X Y pf pl (st.selected.map (updateOf env)) (lr.objective st.selected) best)
        (c := (k - (st.selected.length + 1) : ℕ) * (1 - δ) ^ p.nTails) (by positivity) ?_).trans
        (add_le_add hmiss le_rfl)
      · rintro e _ ⟨_, e', -⟩
        cases e'
      · intro r hr hB
        cases r with
        | done st' =>
          rw [hfin st' hr]
          positivity
        | next st' =>
          obtain ⟨h', cands, best, hg, hgc, -, hsel, -⟩ := learnIter_next hr
          have hbest : BestPossible env X Y pf pl (st.selected.map (updateOf env)) (lr.objective st.selected)
              best := by
            by_contra hcon
            exact hB ⟨st', best, rfl, hsel, hcon⟩
          have hcand := learnGen_candidates he hD hst.tails p.nHeads p.nTails _ [] cands h' hst.inv.heads
            hst.threshold (by simp) hg _ hgc.1
          have hrec := learnLoop_ideal he hD hh hlr hstop hδ fuel st' (hst.next he hD hlr hr)
            (by rw [hsel]; exact hid.snoc hcand hbest)
          rw [hsel, List.length_append, List.length_singleton] at hrec
          exact hrec
    · refine le_of_eq_of_le (Discrete.probOf_zero (Discrete.bind hd hk') ?_) (by positivity)
      rintro x hx ⟨st', rfl, hn⟩
      rw [RandR.outcome_bind] at hx
      rcases hx with ⟨r, hr, hx⟩ | ⟨e, -, e'⟩
      swap
      · cases e'
      cases r with
      | done st'' =>
        cases hx
        rw [hdone _ hr] at hn
        exact hn hid
      | next st'' =>
        obtain ⟨_, _, best, -, -, hs, -⟩ := learnIter_next hr
        rw [hstop] at hs
        simp [hge] at hs

theorem learnRun_ideal {env : LearnEnv} (he : env.Good) {X Y : Cmp} (hD : LearnData env X Y) (pf pl : ℚ)
    {p : Params} (hh : 0 < p.nHeads) {lr : Learner} (hlr : LearnerTotal X Y lr) {k : ℕ}
    (hstop : ∀ sel b, lr.stop sel b = .ok (decide (sel.length ≥ k))) {δ : ℝ}
    (hδ : ChanceFloor X Y pf pl p.nHeads δ) (fuel : ℕ) :
    (learnRun env p lr (LearnObj.new pf pl) X Y fuel).probOf (fun x => ∃ st', x = .ok (some st') ∧
        ¬ IdealGreedy env X Y pf pl lr.objective st'.selected) ≤ k * (1 - δ) ^ p.nTails := by
  obtain ⟨s, hs, hi⟩ := start_inv he hD pf pl
  rw [learnRun_new hs]
  have := learnLoop_ideal he hD hh hlr hstop hδ fuel _ hi (IdealGreedy.nil env X Y pf pl lr.objective)
  simpa using this

/-- A floor exists. -/
theorem exists_floor (X Y : Cmp) (pf pl : ℚ) {m : ℕ} (hm : 0 < m) : ∃ δ, 0 < δ ∧ ChanceFloor X Y pf pl m δ := by
  classical
  let S := (samplesOf X pf ×ˢ samplesOf Y pl).filter fun HT => 0 < openArea Y [] HT.2 ∧ 0 < rulePairs X Y HT.2 HT.1
  have hS : ∀ HT ∈ S, 0 < leastChance X Y pf pl m HT.1 HT.2 := by
    intro HT h
    simp only [S, Finset.mem_filter, Finset.mem_product] at h
    exact leastChance_pos hm h.1.1 h.1.2 h.2.1 h.2.2
  obtain ⟨δ, h0, h1⟩ : ∃ δ, 0 < δ ∧ ∀ HT ∈ S, δ ≤ leastChance X Y pf pl m HT.1 HT.2 := by
    rcases S.eq_empty_or_nonempty with h | h
    · exact ⟨1, one_pos, by simp [h]⟩
    · obtain ⟨HT, hm', hmin⟩ := S.exists_min_image (fun HT => leastChance X Y pf pl m HT.1 HT.2) h
      exact ⟨_, hS _ hm', fun HT' h' => hmin _ h'⟩
  refine ⟨min δ 1, by positivity, min_le_right _ _, fun H hH T hT ha hp => (min_le_left _ _).trans ?_⟩
  exact h1 (H, T) (by simp only [S, Finset.mem_filter, Finset.mem_product]; exact ⟨⟨hH, hT⟩, ha, hp⟩)

end Verif
