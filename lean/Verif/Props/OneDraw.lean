/-
C156: the law of a fit that draws one candidate per iteration.
-/
import Verif.Spec.OneDraw
import Verif.Props.Repeats

namespace Verif

open Cmp

theorem RandR.expect_mul_left {α : Type} (c : ℝ) (f : Py α → ℝ) (m : RandR α) :
    m.expect (fun x => c * f x) = c * m.expect f := by
  induction m with
  | done r => rfl
  | choice p k ih =>
    simp only [RandR.expect, ih, Finset.mul_sum]
    exact Finset.sum_congr rfl fun i _ => by ring
  | unif k ih =>
    simp only [RandR.expect, ih]
    exact intervalIntegral.integral_const_mul _ _

theorem openArea_congr (Y : Cmp) {us us' : List (List ℕ × List ℤ)}
    (h : ∀ i l, CoveredBy us i l ↔ CoveredBy us' i l) (T : Finset ℤ) : openArea Y us T = openArea Y us' T := by
  unfold openArea uncoveredPart
  simp only [h]

theorem tailChance_congr (Y : Cmp) {us us' : List (List ℕ × List ℤ)}
    (h : ∀ i l, CoveredBy us i l ↔ CoveredBy us' i l) (pl : ℚ) (T : Finset ℤ) :
    tailChance Y pl us T = tailChance Y pl us' T := by
  unfold tailChance
  simp only [openArea_congr Y h]

theorem mem_bothRows {X Y : Cmp} (hX : X.WF) (hY : Y.WF) (hn : X.nMajor = Y.nMajor) {b : BRule} (hb : BoundTo X Y b)
    (i : ℕ) : i ∈ bothRows X Y b.head.toFinset b.tail.toFinset ↔ i ∈ b.support := by
  classical
  obtain ⟨h1, h2, h3, h4, h5, -⟩ := hb.spec hX hY hn
  have hrow : ∀ (M : Cmp) (l : List ℤ), RowContains M i l.toFinset ↔ ∀ f ∈ l, 0 ≤ f ∧ M.Stored i f.toNat := by
    intro M l
    constructor
    · intro h f hf
      obtain ⟨j, rfl, hj⟩ := h f (List.mem_toFinset.mpr hf)
      exact ⟨by positivity, by simpa using hj⟩
    · intro h f hf
      obtain ⟨h0, hs⟩ := h f (List.mem_toFinset.mp hf)
      exact ⟨f.toNat, by omega, hs⟩
  rw [h5, bothRows, Finset.mem_filter, Finset.mem_range, hrow, hrow]
  constructor
  · exact fun h => h.2
  · intro h
    refine ⟨?_, h⟩
    obtain ⟨l, hl⟩ := List.exists_mem_of_ne_nil _ h2
    exact Stored.major_lt hY (h.2 l hl).2

/-- The updates of the learner cover what the rules cover. -/
theorem cover_iff {env : LearnEnv} (he : env.Good) {X Y : Cmp} (hX : X.WF) (hY : Y.WF) (hn : X.nMajor = Y.nMajor)
    {sel : List BRule} (hs : ∀ b ∈ sel, BoundTo X Y b) (i : ℕ) (l : ℤ) :
    CoveredBy (sel.map (updateOf env)) i l ↔ CoveredBy (ruleCover X Y (asSets sel)) i l := by
  unfold CoveredBy ruleCover asSets updateOf
  simp only [List.mem_map, exists_exists_and_eq_and]
  refine exists_congr fun b => and_congr_right fun hb => ?_
  rw [(he.heads.1 b.support).2 i, (he.ints b.tail.toFinset).2 l, Finset.mem_toList, Finset.mem_toList,
    mem_bothRows hX hY hn (hs b hb)]

theorem asSets_append (a b : List BRule) : asSets (a ++ b) = asSets a ++ asSets b := by simp [asSets]

/-- What an iteration with one tail and one head does, while something is uncovered. -/
theorem iter_cases {env : LearnEnv} (he : env.Good) {X Y : Cmp} (hD : LearnData env X Y) {pf pl : ℚ} {lr : Learner}
    (hlr : LearnerTotal X Y lr) {k : ℕ} (hstop : ∀ sel b, lr.stop sel b = .ok (decide (sel.length ≥ k)))
    {st : LearnState} (hst : LoopInv env pf pl X Y st)
    (hpos : 0 < ∑ T ∈ samplesOf Y pl, openArea Y (st.selected.map (updateOf env)) T)
    {x : Py (Py (List BRule) × HeadSampler)}
    (hx : (learnGen env X X.flip Y.flip 1 st.sampler.1 1 st.sampler.2 []).Outcome x) :
    (∃ b h', x = .ok (.ok [b], h') ∧
      (st.selected.length < k → ∃ st', learnChoose env lr st h' [b] = .ok (.next st')) ∧
      (k ≤ st.selected.length → ∃ st', learnChoose env lr st h' [b] = .ok (.done st'))) ∨
    ∃ e h', x = .ok (.error e, h') ∧ e ≠ .noMoreSamples := by
  obtain ⟨g, h', rfl, -, hcase⟩ := learnGen_outcome he hD hst.tails 1 1 _ [] x hst.inv.heads (by simp) hx
  rcases hcase with ⟨out, rfl, hsup, -⟩ | ⟨rfl, h0⟩ | rfl | ⟨rfl, -⟩
  · left
    have hone := learnGen_single he hD hst.tails hst.inv.heads hx
    obtain ⟨b, rfl⟩ := List.length_eq_one_iff.mp hone
    have hb := hsup b (by simp)
    obtain ⟨v, hv⟩ := hlr.objective st.selected b hst.inv.selected hb
    obtain ⟨s', hs', -⟩ := tailAfter_update he hD hst.tails hb.1
    have hord : env.setOrder [b] = [b] := List.perm_singleton.mp (env.setOrder_perm [b])
    refine ⟨b, h', rfl,
      fun hlt => ⟨{ sampler := (s', h'), selected := st.selected ++ [b], pool := poolUnion st.pool [b] }, ?_⟩,
      fun hge => ⟨{ sampler := (st.sampler.1, h'), selected := st.selected, pool := poolUnion st.pool [b] }, ?_⟩⟩
    · unfold learnChoose
      rw [hord]
      simp only [pyMax, pyMaxLoop, hv, bind, Except.bind, hstop, hs', pure, Except.pure]
      rw [decide_eq_false (by omega)]
      rfl
    · unfold learnChoose
      rw [hord]
      simp only [pyMax, pyMaxLoop, hv, bind, Except.bind, hstop, pure, Except.pure]
      rw [decide_eq_true (by omega)]
      rfl
  · rw [(tail_area he hD hst.tails).2.2] at h0
    omega
  · exact Or.inr ⟨_, _, rfl, by simp⟩
  · exact Or.inr ⟨_, _, rfl, by simp⟩

/-- When nothing is uncovered, every iteration ends the loop. -/
theorem iter_exhausted {env : LearnEnv} (he : env.Good) {X Y : Cmp} (hD : LearnData env X Y) {pf pl : ℚ} {p : Params}
    {lr : Learner} (hT : 0 < p.nTails) {st : LearnState} (hst : LoopInv env pf pl X Y st)
    (h0 : ∑ T ∈ samplesOf Y pl, openArea Y (st.selected.map (updateOf env)) T = 0)
    {x : Py (IterResult (UState × HeadSampler))} (hx : (learnIter env p lr X X.flip Y.flip st).Outcome x) :
    ∃ st', x = .ok (.done st') ∧ st'.selected = st.selected := by
  obtain ⟨n, hn⟩ : ∃ n, p.nTails = n + 1 := ⟨p.nTails - 1, by omega⟩
  unfold learnIter at hx
  rw [RandR.bind_eq, RandR.outcome_bind, hn] at hx
  have hg : ∀ y, (learnGen env X X.flip Y.flip p.nHeads st.sampler.1 (n + 1) st.sampler.2 []).Outcome y →
      y = .ok (.error .noMoreSamples, st.sampler.2) := by
    intro y hy
    rw [learnGen, RandR.bind_eq, RandR.outcome_bind] at hy
    have ht' : ∀ t, (sampleOnce st.sampler.1).toReal.attempt.Outcome t → t = .ok (.error .noMoreSamples) := by
      intro t ht
      rw [outcome_attempt] at ht
      obtain ⟨r, ht, rfl⟩ := ht
      rw [outcome_toReal] at ht
      rcases tail_outcome he.heads hD.labels hD.depthY hD.pos hst.tails ht with ⟨rfl, -⟩ |
        ⟨T, rfl, hTs, -, -, i, hi, hTi, l, hl, hnc⟩
      · rfl
      · exfalso
        have hTm : T ∈ samplesOf Y pl := by
          rw [← (tail_area he hD hst.tails).1]
          exact List.mem_toFinset.mpr hTs
        have h1 := (Finset.sum_eq_zero_iff.mp h0) T hTm
        unfold openArea at h1
        have h2 := (Finset.sum_eq_zero_iff.mp h1) i (Finset.mem_range.mpr hi)
        rw [if_pos hTi, Finset.card_eq_zero] at h2
        have : l ∈ uncoveredPart (st.selected.map (updateOf env)) i T := Finset.mem_filter.mpr ⟨hl, hnc⟩
        rw [h2] at this
        simp at this
    rcases hy with ⟨t, ht, hy⟩ | ⟨e, ht, -⟩
    · have := ht' _ ht
      cases this
      exact hy
    · have := ht' _ ht
      cases this
  rcases hx with ⟨g, hgo, hx⟩ | ⟨e, hgo, -⟩
  · have := hg _ hgo
    cases this
    exact ⟨_, hx, rfl⟩
  · have := hg _ hgo
    cases this

/-- The probability that an iteration with one tail and one head ends the loop. -/
theorem iter_ends {env : LearnEnv} (he : env.Good) {X Y : Cmp} (hD : LearnData env X Y) {pf pl : ℚ} {p : Params}
    (hT1 : p.nTails = 1) (hH1 : p.nHeads = 1) {lr : Learner} (hlr : LearnerTotal X Y lr) {k : ℕ}
    (hstop : ∀ sel b, lr.stop sel b = .ok (decide (sel.length ≥ k))) {st : LearnState}
    (hst : LoopInv env pf pl X Y st) :
    (learnIter env p lr X X.flip Y.flip st).probOf (fun x => ∃ st', x = .ok (.done st')) =
      endChance X Y pf pl k (asSets st.selected) := by
  classical
  have hcov := cover_iff he hD.features.toWF hD.labels.toWF hD.rows (sel := st.selected)
    (fun b hb => (hst.inv.selected b hb).1)
  have hsum : ∑ T ∈ samplesOf Y pl, openArea Y (ruleCover X Y (asSets st.selected)) T =
      ∑ T ∈ samplesOf Y pl, openArea Y (st.selected.map (updateOf env)) T :=
    Finset.sum_congr rfl fun T _ => (openArea_congr Y hcov T).symm
  have hch : ∀ T, tailChance Y pl (ruleCover X Y (asSets st.selected)) T =
      tailChance Y pl (st.selected.map (updateOf env)) T := fun T => (tailChance_congr Y hcov pl T).symm
  have hlen : (asSets st.selected).length = st.selected.length := by simp [asSets]
  unfold endChance
  rw [hsum, hlen]
  simp only [hch]
  split_ifs with h0 hk
  · rw [← (learnIter_discrete (p := p) (lr := lr) he hD hst).expect_const 1]
    refine RandR.expect_congr (learnIter_proper _ _ _ _ _ _ _) fun x hx => ?_
    obtain ⟨st', rfl, -⟩ := iter_exhausted he hD (by omega) hst h0 hx
    exact if_pos ⟨st', rfl⟩
  · have hpos := Nat.pos_of_ne_zero h0
    have := (C123_returns env he X Y hD pf pl _ _ hst.tails hpos _ hst.inv.heads hst.tight hst.threshold 1 1
      one_pos).1
    simp only [pow_one] at this
    rw [← this]
    unfold RandR.probOf learnIter
    rw [RandR.bind_eq, RandR.expect_bind, hT1, hH1]
    refine RandR.expect_congr (learnGen_proper _ _ _ _ _ _ _ _ _) fun x hx => ?_
    rcases iter_cases he hD hlr hstop hst hpos hx with ⟨b, h', rfl, -, hge⟩ | ⟨e, h', rfl, hne⟩
    · obtain ⟨st', hc⟩ := hge hk
      change (if (∃ st'', learnChoose env lr st h' [b] = .ok (.done st'')) then (1 : ℝ) else 0) = _
      rw [if_pos ⟨st', hc⟩, if_pos ⟨_, _, rfl, trivial⟩]
    · rw [if_neg (by rintro ⟨_, _, e', -⟩; cases e')]
      cases e <;> first | exact absurd rfl hne | exact if_neg (by rintro ⟨_, e'⟩; cases e')
  · have hpos := Nat.pos_of_ne_zero h0
    refine RandR.Discrete.probOf_zero (learnIter_discrete he hD hst) ?_
    rintro x hx ⟨st', rfl⟩
    unfold learnIter at hx
    rw [RandR.bind_eq, RandR.outcome_bind, hT1, hH1] at hx
    rcases hx with ⟨g, hg, hx⟩ | ⟨e, -, e'⟩
    swap
    · cases e'
    rcases iter_cases he hD hlr hstop hst hpos hg with ⟨b, h', e, hlt, -⟩ | ⟨e, h', e', hne⟩
    · cases e
      obtain ⟨st'', hc⟩ := hlt (by omega)
      have hx' : Except.ok (IterResult.done st') = learnChoose env lr st h' [b] := hx
      rw [hc] at hx'
      cases hx'
    · cases e'
      cases e <;> first | exact absurd rfl hne | cases hx

/-- The law of the loop. -/
theorem loop_law {env : LearnEnv} (he : env.Good) {X Y : Cmp} (hD : LearnData env X Y) {pf pl : ℚ} {p : Params}
    (hT1 : p.nTails = 1) (hH1 : p.nHeads = 1) {lr : Learner} (hlr : LearnerTotal X Y lr) {k : ℕ}
    (hstop : ∀ sel b, lr.stop sel b = .ok (decide (sel.length ≥ k))) :
    ∀ (rs : List (Finset ℤ × Finset ℤ)) (fuel : ℕ) (st : LearnState), LoopInv env pf pl X Y st →
      st.selected.length + rs.length ≤ k → k < fuel + st.selected.length →
      (∀ r ∈ rs, r.1 ∈ samplesOf X pf ∧ r.2 ∈ samplesOf Y pl) →
      (learnLoop env p lr X X.flip Y.flip fuel st).probOf (fun x => ∃ st', x = .ok (some st') ∧
          asSets st'.selected = asSets st.selected ++ rs) =
        drawChance X Y pf pl (asSets st.selected) rs * endChance X Y pf pl k (asSets st.selected ++ rs)
  | rs, 0, st, hst, h1, h2, hrs => by omega
  | [], fuel + 1, st, hst, h1, h2, hrs => by
    classical
    rw [drawChance, one_mul, List.append_nil, ← iter_ends he hD hT1 hH1 hlr hstop hst]
    unfold RandR.probOf
    rw [learnLoop, RandR.bind_eq, RandR.expect_bind]
    refine RandR.expect_congr (learnIter_proper _ _ _ _ _ _ _) fun x hx => ?_
    rcases learnIter_outcome he hD hlr hst.inv hx with ⟨st', rfl, -, hs, -⟩ | ⟨st', b, rfl, hi, hs⟩ | rfl | ⟨rfl, -⟩ |
      ⟨rfl, -⟩
    · rw [if_pos ⟨st', rfl⟩]
      exact if_pos ⟨st', rfl, by rw [hs]⟩
    · rw [if_neg (by rintro ⟨_, e⟩; cases e)]
      have hst' := hst.next he hD hlr hx
      refine RandR.Discrete.probOf_zero (learnLoop_discrete he hD hlr fuel st' hst') ?_
      rintro y hy ⟨st'', rfl, e⟩
      rcases learnLoop_outcome he hD hlr fuel st' _ hst'.inv hy with e' | ⟨_, e', -, hpre, -⟩ | e' | ⟨e', -⟩ | ⟨e', -⟩ <;>
        cases e'
      have hl := hpre.length_le
      have := congrArg List.length e
      rw [hs, List.length_append] at hl
      simp only [asSets, List.length_map, List.length_singleton] at this hl
      omega
    all_goals
      rw [if_neg (by rintro ⟨_, e⟩; cases e)]
      exact if_neg (by rintro ⟨_, e, -⟩; cases e)
  | (H, T) :: rs, fuel + 1, st, hst, h1, h2, hrs => by
    classical
    have hcov := cover_iff he hD.features.toWF hD.labels.toWF hD.rows (sel := st.selected)
      (fun b hb => (hst.inv.selected b hb).1)
    obtain ⟨hH, hT⟩ := hrs (H, T) (by simp)
    simp only [List.length_cons] at h1
    have hstop' : ∀ b, lr.stop st.selected b = .ok false := by
      intro b
      rw [hstop, decide_eq_false (by omega)]
    set c : ℝ := drawChance X Y pf pl (asSets st.selected ++ [(H, T)]) rs *
      endChance X Y pf pl k (asSets st.selected ++ (H, T) :: rs) with hc
    have hnext : (learnIter env p lr X X.flip Y.flip st).probOf (fun x => ∃ st' b,
        x = .ok (.next st') ∧ st'.selected = st.selected ++ [b] ∧ b.head.toFinset = H ∧ b.tail.toFinset = T) =
        tailChance Y pl (ruleCover X Y (asSets st.selected)) T * headChance X Y pf T H := by
      rw [← tailChance_congr Y hcov]
      rcases Nat.eq_zero_or_pos (∑ T ∈ samplesOf Y pl, openArea Y (st.selected.map (updateOf env)) T) with h0 | hpos
      · have hz : tailChance Y pl (st.selected.map (updateOf env)) T = 0 := by
          unfold tailChance
          rw [Finset.sum_eq_zero_iff.mp h0 T hT, Nat.cast_zero, zero_div]
        rw [hz, zero_mul]
        refine RandR.Discrete.probOf_zero (learnIter_discrete he hD hst) ?_
        rintro x hx ⟨st', b, rfl, -⟩
        obtain ⟨_, e, -⟩ := iter_exhausted he hD (by omega) hst h0 hx
        cases e
      · exact one_candidate he hD hT1 hH1 hlr hstop' hst.inv.selected hst.tails hst.inv.heads hst.tight hst.threshold
          hpos hH hT
    rw [drawChance, ← hnext, mul_assoc, ← hc, mul_comm]
    unfold RandR.probOf
    rw [← RandR.expect_mul_left, learnLoop, RandR.bind_eq, RandR.expect_bind]
    refine RandR.expect_congr (learnIter_proper _ _ _ _ _ _ _) fun x hx => ?_
    rcases learnIter_outcome he hD hlr hst.inv hx with ⟨st', rfl, -, hs, -⟩ | ⟨st', b, rfl, hi, hs⟩ | rfl | ⟨rfl, -⟩ |
      ⟨rfl, -⟩
    · rw [if_neg (by rintro ⟨_, _, e, -⟩; cases e), mul_zero]
      refine if_neg ?_
      rintro ⟨_, e, h⟩
      cases e
      have := congrArg List.length h
      rw [hs] at this
      simp at this
    · have hst' := hst.next he hD hlr hx
      have hrec : (learnLoop env p lr X X.flip Y.flip fuel st').probOf (fun x => ∃ st'', x = .ok (some st'') ∧
          asSets st''.selected = asSets st.selected ++ (H, T) :: rs) =
          c * if b.head.toFinset = H ∧ b.tail.toFinset = T then 1 else 0 := by
        have hsets : asSets st'.selected = asSets st.selected ++ [(b.head.toFinset, b.tail.toFinset)] := by
          rw [hs, asSets_append]
          rfl
        split_ifs with hbt
        · obtain ⟨rfl, rfl⟩ := hbt
          have := loop_law he hD hT1 hH1 hlr hstop rs fuel st' hst'
            (by rw [hs, List.length_append, List.length_singleton]; omega)
            (by rw [hs, List.length_append, List.length_singleton]; omega)
            (fun r hr => hrs r (List.mem_cons_of_mem _ hr))
          rw [hsets, List.append_assoc, List.singleton_append] at this
          rw [this, mul_one]
        · rw [mul_zero]
          refine RandR.Discrete.probOf_zero (learnLoop_discrete he hD hlr fuel st' hst') ?_
          rintro y hy ⟨st'', rfl, e⟩
          rcases learnLoop_outcome he hD hlr fuel st' _ hst'.inv hy with e' | ⟨_, e', -, hpre, -⟩ | e' | ⟨e', -⟩ |
            ⟨e', -⟩ <;> cases e'
          obtain ⟨t, ht⟩ := hpre
          rw [← ht, asSets_append, hsets, List.append_assoc] at e
          have e2 := List.append_cancel_left e
          rw [List.singleton_append, List.cons.injEq, Prod.mk.injEq] at e2
          exact hbt e2.1
      refine hrec.trans ?_
      congr 1
      refine if_congr ⟨fun h => ⟨st', b, rfl, hs, h⟩, ?_⟩ rfl rfl
      rintro ⟨st'', b', e, hs', hh, ht⟩
      cases e
      rw [hs] at hs'
      have : b = b' := by simpa using hs'
      subst this
      exact ⟨hh, ht⟩
    all_goals
      rw [if_neg (by rintro ⟨_, _, e, -⟩; cases e), mul_zero]
      exact if_neg (by rintro ⟨_, e, -⟩; cases e)

/-- **C156** The law of `GreedyCFTPDivMaxV2.fit` and `GreedyCFTPDivMaxV3.fit` with `n_tails_per_iter = n_heads_per_tail = 1`
and `n_max_rules = k` on a new classifier: the probability that the learned rules are, in this order, `rs` (heads and
tails) is the product over them of the tail's share of the area that the rules before left uncovered and the
probability of the head, times the probability that the fit ends there. -/
theorem C156_law (env : LearnEnv) (he : env.Good) (X Y : Cmp) (hD : LearnData env X Y) (pf pl : ℚ) (p : Params)
    (hT1 : p.nTails = 1) (hH1 : p.nHeads = 1) (k : ℕ) (hk : p.nMaxRules = some k) (v3 : Bool) (fuel : ℕ) (hf : k < fuel)
    (rs : List (Finset ℤ × Finset ℤ)) (hlen : rs.length ≤ k)
    (hrs : ∀ r ∈ rs, r.1 ∈ samplesOf X pf ∧ r.2 ∈ samplesOf Y pl) :
    (learnFitV2 env p (if v3 then learnerV3 p else learnerV2 p) (if v3 then qualityOfRuleV3 else qualityOfRule)
        (LearnObj.new pf pl) X Y fuel).probOf (fun x => ∃ o v, x = .ok (some (o, v)) ∧ asSets o.selected = rs) =
      drawChance X Y pf pl [] rs * endChance X Y pf pl k rs := by
  classical
  have hXw := hD.features.toWF
  have hYw := hD.labels.toWF
  have hlr : LearnerTotal X Y (if v3 then learnerV3 p else learnerV2 p) := by
    split
    · exact total_V3 hXw hYw hD.rows hk
    · exact total_V2 hXw hYw hD.rows hk
  have hstop : ∀ sel b, (if v3 then learnerV3 p else learnerV2 p).stop sel b = .ok (decide (sel.length ≥ k)) := by
    intro sel b
    have : shouldStopV2 p sel b = .ok (decide (sel.length ≥ k)) := by
      simp only [shouldStopV2, hk]
    cases v3 <;> exact this
  have hq : ∀ sel b, BoundTo X Y b → ∃ v, (if v3 then qualityOfRuleV3 else qualityOfRule) sel b = .ok v := by
    intro sel b hb
    cases v3
    · exact ⟨_, quality_gain hD.rows sel hb⟩
    · exact ⟨_, qualityV3_gain hD.rows sel hb⟩
  generalize (if v3 then learnerV3 p else learnerV2 p) = lr at hlr hstop
  generalize (if v3 then qualityOfRuleV3 else qualityOfRule) = q at hq
  obtain ⟨s, hs, hi⟩ := start_inv he hD pf pl
  have := loop_law he hD hT1 hH1 hlr hstop rs fuel _ hi (by simpa using hlen) (by simpa using hf) hrs
  change _ = drawChance X Y pf pl [] rs * endChance X Y pf pl k ([] ++ rs) at this
  rw [List.nil_append] at this
  rw [← this]
  unfold RandR.probOf learnFitV2
  rw [RandR.bind_eq, RandR.expect_bind, learnRun_new hs]
  refine RandR.expect_congr (learnLoop_proper _ _ _ _ _ _ _ _) fun x hx => ?_
  rcases learnLoop_outcome he hD hlr fuel _ _ hi.inv hx with rfl | ⟨st', rfl, hi', -⟩ | rfl | ⟨rfl, -⟩ | ⟨rfl, -⟩
  · rw [if_neg (by rintro ⟨_, e, -⟩; cases e)]
    exact if_neg (by rintro ⟨_, _, e, -⟩; cases e)
  · obtain ⟨v, hv⟩ := objectiveOf_total hXw hYw hD.rows hq p.lambd st'.selected st'.selected hi'.selected
    simp only [RandR.after, hv]
    refine if_congr ⟨?_, ?_⟩ rfl rfl
    · rintro ⟨o, v', e, h⟩
      cases e
      exact ⟨st', rfl, h⟩
    · rintro ⟨st'', e, h⟩
      cases e
      exact ⟨_, _, rfl, h⟩
  all_goals
    rw [if_neg (by rintro ⟨_, e, -⟩; cases e)]
    exact if_neg (by rintro ⟨_, _, e, -⟩; cases e)

theorem loop_sets {env : LearnEnv} (he : env.Good) {X Y : Cmp} (hD : LearnData env X Y) {pf pl : ℚ} {p : Params}
    {lr : Learner} (hlr : LearnerTotal X Y lr) :
    ∀ (fuel : ℕ) (st st' : LearnState), LoopInv env pf pl X Y st →
      (∀ r ∈ asSets st.selected, r.1 ∈ samplesOf X pf ∧ r.2 ∈ samplesOf Y pl) →
      (learnLoop env p lr X X.flip Y.flip fuel st).Outcome (.ok (some st')) →
      ∀ r ∈ asSets st'.selected, r.1 ∈ samplesOf X pf ∧ r.2 ∈ samplesOf Y pl
  | 0, st, st', hst, h, hx => by cases hx
  | fuel + 1, st, st', hst, h, hx => by
    rw [learnLoop, RandR.bind_eq, RandR.outcome_bind] at hx
    rcases hx with ⟨y, hy, hx⟩ | ⟨e, he', e'⟩
    · rcases learnIter_outcome he hD hlr hst.inv hy with ⟨s1, e, -, hs, -⟩ | ⟨s1, b, e, -, -⟩ | e | ⟨e, -⟩ | ⟨e, -⟩ <;>
        cases e
      · cases hx
        rw [hs]
        exact h
      · obtain ⟨h', cands, best, hg, hc, -, hs, -⟩ := learnIter_next hy
        refine loop_sets he hD hlr fuel s1 st' (hst.next he hD hlr hy) ?_ hx
        rw [hs, asSets_append]
        intro r hr
        rcases List.mem_append.mp hr with hr | hr
        · exact h r hr
        · have hcand := learnGen_candidates he hD hst.tails p.nHeads _ _ _ _ _ hst.inv.heads hst.threshold (by simp) hg
            best hc.1
          obtain ⟨-, h1, h2, -⟩ := CandidateRule.sets he hcand
          simp only [asSets, List.map_cons, List.map_nil, List.mem_singleton] at hr
          subst hr
          exact ⟨h1, h2⟩
    · cases e'

/-- **C156** Nothing else is learned: whatever the batch sizes, a fit that returns has at most `k` rules, every head a
sample of the features and every tail a sample of the labels. -/
theorem C156_only (env : LearnEnv) (he : env.Good) (X Y : Cmp) (hD : LearnData env X Y) (pf pl : ℚ) (p : Params)
    (ht : 0 < p.nTails) (hh : 0 < p.nHeads) (k : ℕ) (hk : p.nMaxRules = some k) (v3 : Bool) (fuel : ℕ) (hf : k < fuel)
    (o : LearnObj) (v : ℝ)
    (hx : (learnFitV2 env p (if v3 then learnerV3 p else learnerV2 p) (if v3 then qualityOfRuleV3 else qualityOfRule)
        (LearnObj.new pf pl) X Y fuel).Outcome (.ok (some (o, v)))) :
    (asSets o.selected).length ≤ k ∧
      ∀ r ∈ asSets o.selected, r.1 ∈ samplesOf X pf ∧ r.2 ∈ samplesOf Y pl := by
  refine ⟨?_, ?_⟩
  · rcases C70_fit_outcomes env he X Y hD pf pl p k hk ht hh v3 fuel hf _ hx with ⟨_, _, e, h, -⟩ | e | ⟨e, -⟩ <;> cases e
    simpa [asSets] using h
  · have hlr : LearnerTotal X Y (if v3 then learnerV3 p else learnerV2 p) := by
      split
      · exact total_V3 hD.features.toWF hD.labels.toWF hD.rows hk
      · exact total_V2 hD.features.toWF hD.labels.toWF hD.rows hk
    obtain ⟨s, hs, hi⟩ := start_inv he hD pf pl
    unfold learnFitV2 at hx
    rw [learnRun_new hs, RandR.bind_eq, RandR.outcome_bind] at hx
    rcases hx with ⟨y, hy, hx⟩ | ⟨e, -, e'⟩
    · rcases learnLoop_outcome he hD hlr fuel _ _ hi.inv hy with e | ⟨st', e, -⟩ | e | ⟨e, -⟩ | ⟨e, -⟩ <;> cases e
      · cases hx
      · have hset := loop_sets he hD hlr fuel _ st' hi (by simp [asSets]) hy
        dsimp only at hx
        cases hob : objectiveOf (if v3 then qualityOfRuleV3 else qualityOfRule) p.lambd st'.selected st'.selected with
        | ok w =>
          rw [hob] at hx
          cases hx
          exact hset
        | error e =>
          rw [hob] at hx
          cases hx
    · cases e'

/-- On data with a label occurrence, the two-round learner does not raise once the loop of its first round has been
left. -/
theorem second_round_returns {env : LearnEnv} (he : env.Good) {X Y : Cmp} (hD : LearnData env X Y)
    (hlab : ∃ i l, Y.Stored i l) {pf pl : ℚ} {p : Params} {fuel : ℕ} {st : LearnState}
    (hr : (learnRun env p (learnerDivMax p Y) (LearnObj.new pf pl) X Y fuel).Outcome (.ok (some st))) :
    ∃ res, fitTail env.secondRound p st = .ok res ∧ res.round1 = st.selected := by
  have hXw := hD.features.toWF
  have hYw := hD.labels.toWF
  have htot := total_DivMax hXw hD.labels hD.rows p
  obtain ⟨s, hs, -, hinv⟩ := new_inv he hD pf pl
  obtain ⟨ws, hws⟩ := real_run_is_tape_run he hD hr
  rw [learnRun_new hs] at hr
  rcases learnLoop_outcome he hD htot fuel _ _ hinv hr with e | ⟨st', e, hi, -, hwhy⟩ | e | ⟨e, -⟩ | ⟨e, -⟩ <;> cases e
  obtain ⟨v, hv⟩ := objectiveOf_total (quality := qualityOfRule) hXw hYw hD.rows
    (fun sel b hb => (quality_total hD.rows sel b hb).1) p.lambd st.selected st.selected hi.selected
  have hpool : st.pool ≠ [] := by
    intro hpool
    have hsel : st.selected = [] :=
      (C29_insufficient_candidates (tapeSamplers env pl []) p X Y ws fuel (forget st) hws).2.1 hpool
    rcases hwhy with ⟨new, e, hcov⟩ | ⟨b, ⟨c, hc, -⟩, -⟩
    · rw [hsel, List.nil_append] at e
      subst e
      obtain ⟨i, l, h⟩ := hlab
      have := hcov ((mem_labelCells hYw (i, (l : ℤ))).mpr ⟨by simp, by simpa using h⟩)
      simp [covered] at this
    · rw [hpool] at hc
      simp at hc
  obtain ⟨sel2, obj2, h2⟩ := fit2ndRound_succeeds env.secondRound p X Y hD.rows st.pool hpool
    (fun b hb => (hi.pool b hb).1) (fun b hb => (hi.pool b hb).area_nonempty hXw hYw hD.rows) st.selected.length
  exact ⟨_, by unfold fitTail; rw [hv, h2]; rfl, rfl⟩

/-- **C156** The same law for the first round of `GreedyCFTPDivMax`, on data with at least one label occurrence. -/
theorem C156_law_divmax (env : LearnEnv) (he : env.Good) (X Y : Cmp) (hD : LearnData env X Y)
    (hlab : ∃ i l, Y.Stored i l) (pf pl : ℚ) (p : Params)
    (hT1 : p.nTails = 1) (hH1 : p.nHeads = 1) (k : ℕ) (hk : p.nMaxRules = some k) (fuel : ℕ) (hf : k < fuel)
    (rs : List (Finset ℤ × Finset ℤ)) (hlen : rs.length ≤ k)
    (hrs : ∀ r ∈ rs, r.1 ∈ samplesOf X pf ∧ r.2 ∈ samplesOf Y pl) :
    (learnFitDivMax env p (LearnObj.new pf pl) X Y fuel).probOf
        (fun x => ∃ o res, x = .ok (some (o, res)) ∧ asSets res.round1 = rs) =
      drawChance X Y pf pl [] rs * endChance X Y pf pl k rs := by
  classical
  have hlr : LearnerTotal X Y (learnerDivMax p Y) := total_DivMax hD.features.toWF hD.labels hD.rows p
  have hstop : ∀ sel b, (learnerDivMax p Y).stop sel b = .ok (decide (sel.length ≥ k)) := by
    intro sel b
    change shouldStopDivMax p Y sel b = _
    simp only [shouldStopDivMax, hk]
  obtain ⟨s, hs, hi⟩ := start_inv he hD pf pl
  have := loop_law he hD hT1 hH1 hlr hstop rs fuel _ hi (by simpa using hlen) (by simpa using hf) hrs
  change _ = drawChance X Y pf pl [] rs * endChance X Y pf pl k ([] ++ rs) at this
  rw [List.nil_append] at this
  rw [← this, ← learnRun_new hs]
  unfold RandR.probOf learnFitDivMax
  rw [RandR.bind_eq, RandR.expect_bind]
  refine RandR.expect_congr (by rw [learnRun_new hs]; exact learnLoop_proper _ _ _ _ _ _ _ _) fun x hx => ?_
  have hx' := hx
  rw [learnRun_new hs] at hx'
  rcases learnLoop_outcome he hD hlr fuel _ _ hi.inv hx' with rfl | ⟨st', rfl, hi', -⟩ | rfl | ⟨rfl, -⟩ | ⟨rfl, -⟩
  · rw [if_neg (by rintro ⟨_, e, -⟩; cases e)]
    exact if_neg (by rintro ⟨_, _, e, -⟩; cases e)
  · obtain ⟨res, hres, h1⟩ := second_round_returns he hD hlab hx
    simp only [RandR.after, hres]
    refine if_congr ⟨?_, ?_⟩ rfl rfl
    · rintro ⟨o, v', e, h⟩
      cases e
      exact ⟨st', rfl, by rw [← h1]; exact h⟩
    · rintro ⟨st'', e, h⟩
      cases e
      exact ⟨_, _, rfl, by rw [h1]; exact h⟩
  all_goals
    rw [if_neg (by rintro ⟨_, e, -⟩; cases e)]
    exact if_neg (by rintro ⟨_, _, e, -⟩; cases e)

theorem eye_row {i : ℕ} (hi : i < 2) {T : Finset ℤ} : RowContains eyeData i T ↔ ∀ x ∈ T, x = i := by
  constructor
  · intro h x hx
    obtain ⟨j, rfl, hj⟩ := h x hx
    rw [(eye_stored.mp hj).2]
  · intro h x hx
    exact ⟨i, h x hx, eye_stored.mpr ⟨hi, rfl⟩⟩

theorem eye_pairs {i : ℕ} (hi : i < 2) : 0 < rulePairs eyeData eyeData {(i : ℤ)} {(i : ℤ)} := by
  classical
  have h2 : eyeData.nMajor = 2 := by decide
  have hj : 1 - i < 2 := by omega
  have r0 : RowContains eyeData i {(i : ℤ)} := (eye_row hi).mpr (by simp)
  have r1 : ¬ RowContains eyeData (1 - i) {(i : ℤ)} := by
    rw [eye_row hj]
    intro h
    have := h i (by simp)
    omega
  unfold rulePairs
  rw [Finset.card_pos]
  refine ⟨(i, 1 - i), ?_⟩
  rw [Finset.mem_filter, Finset.mem_product, Finset.mem_range, Finset.mem_range, h2]
  exact ⟨⟨hi, hj⟩, ⟨r0, r0⟩, r1, r1⟩

/-- Two rows with features {0}, {1} and labels {0}, {1}, one candidate per iteration, at most one rule: the fit returns
exactly the rule `{0} → {0}` with the probability of the law, which is positive. -/
example (pf pl l : ℚ) : ∃ p : Params, p.nTails = 1 ∧ p.nHeads = 1 ∧
    (learnFitV2 (someLearnEnv 10) p (learnerV2 p) qualityOfRule (LearnObj.new pf pl) eyeData eyeData 2).probOf
        (fun x => ∃ o v, x = .ok (some (o, v)) ∧ asSets o.selected = [({0}, {0})]) =
      tailChance eyeData pl [] {0} * headChance eyeData eyeData pf {0} {0} * 1 *
        endChance eyeData eyeData pf pl 1 [({0}, {0})] ∧
    0 < tailChance eyeData pl [] {0} * headChance eyeData eyeData pf {0} {0} * 1 *
        endChance eyeData eyeData pf pl 1 [({0}, {0})] := by
  classical
  have hn : eyeData.nMinor = 2 := by decide
  have hmem : ∀ i : ℕ, i < 2 → ∀ a, ({(i : ℤ)} : Finset ℤ) ∈ samplesOf eyeData a := fun i hi a =>
    single_mem_samplesOf (j := i) eye_binary a (by omega)
  have h0 : ∀ a, ({0} : Finset ℤ) ∈ samplesOf eyeData a := hmem 0 (by norm_num)
  refine ⟨{ lambd := l, nMaxRules := some 1, nTails := 1, nHeads := 1, tolerance := 0 }, rfl, rfl, ?_, ?_⟩
  · exact C156_law _ (someLearnEnv_good 10) eyeData eyeData eye_data pf pl _ rfl rfl 1 rfl false 2 (by norm_num)
      [({0}, {0})] (by simp) (by simpa using ⟨h0 pf, h0 pl⟩)
  · have ha : 0 < openArea eyeData [] {0} := by
      unfold openArea
      refine Finset.sum_pos' (fun _ _ => by positivity) ⟨0, by decide, ?_⟩
      rw [if_pos ((eye_row (by norm_num)).mpr (by simp))]
      simp [uncoveredPart, CoveredBy]
    have hs : 0 < ∑ T ∈ samplesOf eyeData pl, openArea eyeData [] T :=
      Finset.sum_pos' (fun _ _ => by positivity) ⟨_, h0 pl, ha⟩
    have hT : 0 < tailChance eyeData pl [] {0} := by
      unfold tailChance
      exact div_pos (by exact_mod_cast ha) (by exact_mod_cast hs)
    have hH : 0 < headChance eyeData eyeData pf {0} {0} := headChance_pos (h0 pf) (eye_pairs (i := 0) (by norm_num))
    have hE : 0 < endChance eyeData eyeData pf pl 1 [({0}, {0})] := by
      unfold endChance
      split_ifs with hz hl
      · norm_num
      · obtain ⟨T, hTm, hTz⟩ := Finset.exists_ne_zero_of_sum_ne_zero hz
        refine Finset.sum_pos' (fun U _ => mul_nonneg (tailChance_nonneg _ _ _ _)
          (sub_nonneg.mpr (noHead_range _ _ _ _).2.1)) ⟨T, hTm, mul_pos ?_ (sub_pos.mpr ?_)⟩
        · unfold tailChance
          have h1 := Nat.pos_of_ne_zero hTz
          have h2 := Finset.single_le_sum (f := fun T => openArea eyeData (ruleCover eyeData eyeData [({0}, {0})]) T)
            (fun _ _ => Nat.zero_le _) hTm
          exact div_pos (by exact_mod_cast h1) (by exact_mod_cast (lt_of_lt_of_le h1 h2))
        · obtain ⟨i, hi, hne⟩ := Finset.exists_ne_zero_of_sum_ne_zero hTz
          have hi2 : i < 2 := by
            have : eyeData.nMajor = 2 := by decide
            rw [← this]
            exact Finset.mem_range.mp hi
          split_ifs at hne with hrow
          · have hTi : T = {(i : ℤ)} := by
              refine Finset.eq_singleton_iff_nonempty_unique_mem.mpr ⟨?_, (eye_row hi2).mp hrow⟩
              obtain ⟨x, hx⟩ := Finset.card_pos.mp (Nat.pos_of_ne_zero hne)
              exact ⟨x, (Finset.mem_filter.mp hx).1⟩
            subst hTi
            exact (noHead_range _ _ _ _).2.2 ⟨_, hmem i hi2 pf, eye_pairs hi2⟩
          · exact absurd rfl hne
      · exact absurd le_rfl hl
    exact mul_pos (mul_pos (mul_pos hT hH) one_pos) hE

end Verif
