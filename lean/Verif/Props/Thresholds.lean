/-
C91: the rules a learner selects respect the two probability thresholds it was given. C92: fitting again
keeps the rules that were held.
-/
import Mathlib.Data.List.GetD
import Verif.Props.Refit

namespace Verif

open Cmp

/-- The rule joins a set of features that is probable in the graph of the feature matrix with a set of
labels that is probable in the graph of the label matrix. -/
def ProbableRule (X Y : Cmp) (pf pl : ℚ) (b : BRule) : Prop :=
  ∃ gX gY U W, buildGraph X.flip = .ok gX ∧ buildGraph Y.flip = .ok gY ∧
    gX.Probable pf U ∧ gY.Probable pl W ∧ b.head.toFinset = intSet U ∧ b.tail.toFinset = intSet W

/-- What `sample(n)` returns belongs to the sample space. -/
theorem headSample_space {env : HeadEnv} (he : env.Good) {X : Cmp} (hX : X.Binary)
    (hd : X.nMinor < env.depth) {s s' : HeadSampler} (hs : HeadReach env X s) {y : List ℤ}
    (hf : headFit env s X y = .ok s') : ∀ (n : ℕ) (hs : List (Option (Finset ℤ))) (s'' : HeadSampler),
    (headSample env n s').Outcome (.ok (hs, s'')) →
      ∀ T, some T ∈ hs → ∃ space, s'.space = some space ∧ T ∈ space
  | 0, l, s'', h, T, hT => by cases h; simp at hT
  | n + 1, l, s'', h, T, hT => by
    rw [headSample, RandR.bind_eq, RandR.outcome_bind] at h
    rcases h with ⟨r, hr, h⟩ | ⟨e, -, h⟩
    swap
    · cases h
    have key : r.2 = s' ∧ (∀ T, r.1 = some T → ∃ space, s'.space = some space ∧ T ∈ space) := by
      rcases C58_outcomes env he X hX hd s s' hs y hf _ hr with e | ⟨T, space, h1, h2, e, -⟩
      · cases e; exact ⟨rfl, by simp⟩
      · cases e
        refine ⟨rfl, ?_⟩
        rintro T' e
        cases e
        exact ⟨space, h1, h2⟩
    rw [key.1, RandR.bind_eq, RandR.outcome_bind] at h
    rcases h with ⟨q, hq, h⟩ | ⟨e, -, h⟩
    swap
    · cases h
    cases h
    rcases List.mem_cons.mp hT with h | h
    · exact key.2 T h.symm
    · exact headSample_space he hX hd hs hf n q.1 q.2 hq T h

/-- Candidate generation joins probable heads with probable tails, and leaves the head sampler's threshold
as it was. -/
theorem learnGen_probable {env : LearnEnv} (he : env.Good) {X Y : Cmp} (hD : LearnData env X Y) {pf pl : ℚ}
    {prune : Bool} {us : List (List ℕ × List ℤ)} {s : UState}
    (hs : TailAfter env.toHeadEnv pl prune Y us s) (nHeads : ℕ) :
    ∀ (todo : ℕ) (h : HeadSampler) (rules : List BRule) (g : Py (List BRule)) (h' : HeadSampler),
      HeadReach env.toHeadEnv X h → h.minProba = pf → (∀ b ∈ rules, ProbableRule X Y pf pl b) →
      (learnGen env X X.flip Y.flip nHeads s todo h rules).Outcome (.ok (g, h')) →
      h'.minProba = pf ∧ ∀ out, g = .ok out → ∀ b ∈ out, ProbableRule X Y pf pl b
  | 0, h, rules, g, h', hh, hm, hr, hx => by
    rw [learnGen] at hx
    cases hx
    refine ⟨hm, ?_⟩
    rintro out e
    cases e
    exact hr
  | todo + 1, h, rules, g, h', hh, hm, hr, hx => by
    have hX := hD.features
    have hY := hD.labels
    obtain ⟨gY, hgY, -, -, -, hspY⟩ := tailAfter_space he.heads hY hD.depthY hs
    rw [learnGen, RandR.bind_eq, RandR.outcome_bind] at hx
    rcases hx with ⟨t, ht, hx⟩ | ⟨e, -, hx⟩
    swap
    · cases hx
    rw [outcome_attempt] at ht
    obtain ⟨r, ht, e⟩ := ht
    cases e
    rw [outcome_toReal] at ht
    rw [outcome_orRaise] at hx
    rcases hx with ⟨T, rfl, hx⟩ | ⟨e, rfl, hx⟩
    swap
    · cases hx; exact ⟨hm, by intro _ h; cases h⟩
    have hT : T ∈ s.space := by
      rcases tail_outcome he.heads hY hD.depthY hD.pos hs ht with ⟨e, -⟩ | ⟨T', e, h1, -⟩
      · cases e
      · cases e; exact h1
    obtain ⟨W, hW, rfl⟩ := (hspY T).mp hT
    rw [outcome_orRaise] at hx
    rcases hx with ⟨y, -, hx⟩ | ⟨e, -, hx⟩
    swap
    · cases hx; exact ⟨hm, by intro _ h; cases h⟩
    rw [outcome_orRaise] at hx
    rcases hx with ⟨h1, hf, hx⟩ | ⟨e, -, hx⟩
    swap
    · cases hx; exact ⟨hm, by intro _ h; cases h⟩
    obtain ⟨-, -, -, c3⟩ := C58_fit env.toHeadEnv he.heads X hX hD.depthX h hh (labels01 y)
    obtain ⟨gX, space, hgX, hsp, -, hspX⟩ := c3 h1 hf
    have hm1 : h1.minProba = pf := by
      obtain ⟨-, -, -, -, rfl⟩ := inv_fit he.heads hX hD.depthX (headInv_of_reach he.heads hX hD.depthX hh) hf
      exact hm
    rw [RandR.bind_eq, RandR.outcome_bind] at hx
    rcases hx with ⟨q, hq, hx⟩ | ⟨e, -, hx⟩
    swap
    · cases hx
    rw [outcome_attempt] at hq
    obtain ⟨r, hq, e⟩ := hq
    cases e
    obtain ⟨hs', rfl, -⟩ := headSample_outcome he.heads hX hD.depthX hh hf nHeads q hq
    rw [outcome_orRaise] at hx
    rcases hx with ⟨a, ha, hx⟩ | ⟨e, e', -⟩
    swap
    · cases e'
    cases ha
    rw [outcome_orRaise] at hx
    rcases hx with ⟨out, hout, hx⟩ | ⟨e, -, hx⟩
    swap
    · cases hx; exact ⟨hm1, by intro _ h; cases h⟩
    refine learnGen_probable he hD hs nHeads todo h1 out g h' (.fit _ _ _ hh hf) hm1 ?_ hx
    obtain ⟨-, -, -, a4, -⟩ := addHeads_ok hout
    intro b hb
    rcases a4 b hb with hb | ⟨hd, hmem, hbd⟩
    · exact hr b hb
    obtain ⟨o, ho, e⟩ := List.mem_map.mp hmem
    cases o with
    | none => cases e
    | some H =>
      cases e
      obtain ⟨space', hsp', hH⟩ := headSample_space he.heads hX hD.depthX hh hf nHeads hs' h1 hq H ho
      rw [hsp] at hsp'
      cases hsp'
      obtain ⟨U, hU, rfl⟩ := (hspX H).mp hH
      rw [hm] at hU
      have hbr := bindDataset_toRule hbd
      refine ⟨gX, gY, U, W, hgX, hgY, hU, hW, ?_, ?_⟩
      · ext z
        rw [List.mem_toFinset, show b.head = (Rule.new (env.orderZ (intSet U)) (env.orderZ (intSet W))).head
          from congrArg Rule.head hbr, Rule.mem_new_head, (he.ints _).2]
      · ext z
        rw [List.mem_toFinset, show b.tail = (Rule.new (env.orderZ (intSet U)) (env.orderZ (intSet W))).tail
          from congrArg Rule.tail hbr, Rule.mem_new_tail, (he.ints _).2]

/-- The threshold of the head sampler and the rules held by a learner in its loop. -/
structure ProbableState (X Y : Cmp) (pf pl : ℚ) (st : LearnState) : Prop where
  threshold : st.sampler.2.minProba = pf
  selected : ∀ b ∈ st.selected, ProbableRule X Y pf pl b
  pool : ∀ b ∈ st.pool, ProbableRule X Y pf pl b

/-- The state with which an iteration ends. -/
def IterResult.state {σ : Type} : IterResult σ → LoopState σ
  | .done st => st
  | .next st => st

theorem learnIter_probable {env : LearnEnv} (he : env.Good) {X Y : Cmp} (hD : LearnData env X Y) {pf pl : ℚ}
    {p : Params} {lr : Learner} {held : List BRule} {st : LearnState}
    (hst : LearnInv env pl X Y held st) (hps : ProbableState X Y pf pl st)
    {x : IterResult (UState × HeadSampler)}
    (hx : (learnIter env p lr X X.flip Y.flip st).Outcome (.ok x)) : ProbableState X Y pf pl x.state := by
  obtain ⟨⟨new, -, hta⟩, hhr, -, -⟩ := hst
  obtain ⟨hm, hsel, hpool⟩ := hps
  unfold learnIter at hx
  rw [RandR.bind_eq, RandR.outcome_bind] at hx
  rcases hx with ⟨⟨g, h'⟩, hg, hx⟩ | ⟨e, -, hx⟩
  swap
  · cases hx
  obtain ⟨hm', hout⟩ := learnGen_probable he hD hta p.nHeads p.nTails _ [] g h' hhr hm (by simp) hg
  dsimp only at hx
  cases g with
  | error e =>
    cases e <;> cases hx
    exact ⟨hm', hsel, hpool⟩
  | ok cands =>
    have hc := hout cands rfl
    change Except.ok x = learnChoose env lr st h' cands at hx
    have hpu : ∀ b ∈ poolUnion st.pool cands, ProbableRule X Y pf pl b := by
      intro b hb
      rcases (mem_poolUnion (pool := st.pool) (cands := cands)).1 b hb with h | h
      · exact hpool b h
      · exact hc b h
    unfold learnChoose at hx
    rcases hb : pyMax (lr.objective st.selected) (env.setOrder cands) with e | best
    · rw [hb] at hx; cases hx
    rw [hb] at hx
    have hbest := hc best ((env.setOrder_perm cands).mem_iff.mp (pyMax_spec hb).1)
    simp only [bind, Except.bind] at hx
    rcases hstop : lr.stop st.selected best with e | v
    · rw [hstop] at hx; cases hx
    rw [hstop] at hx
    cases v with
    | true => cases hx; exact ⟨hm', hsel, hpu⟩
    | false =>
      simp only [Bool.false_eq_true, if_false] at hx
      split at hx
      · cases hx
      · cases hx
        refine ⟨hm', ?_, hpu⟩
        intro b hb
        rcases List.mem_append.mp hb with h | h
        · exact hsel b h
        · rw [List.mem_singleton] at h; subst h; exact hbest

theorem learnLoop_probable {env : LearnEnv} (he : env.Good) {X Y : Cmp} (hD : LearnData env X Y) {pf pl : ℚ}
    {p : Params} {lr : Learner} (hlr : LearnerTotal X Y lr) {held : List BRule} :
    ∀ (fuel : ℕ) (st st' : LearnState), LearnInv env pl X Y held st → ProbableState X Y pf pl st →
      (learnLoop env p lr X X.flip Y.flip fuel st).Outcome (.ok (some st')) → ProbableState X Y pf pl st'
  | 0, st, st', _, _, hx => by cases hx
  | fuel + 1, st, st', hst, hps, hx => by
    rw [learnLoop, RandR.bind_eq, RandR.outcome_bind] at hx
    rcases hx with ⟨r, hr, hx⟩ | ⟨e, -, hx⟩
    swap
    · cases hx
    have h1 := learnIter_probable he hD hst hps hr
    cases r with
    | done st1 => cases hx; exact h1
    | next st1 =>
      rcases learnIter_outcome he hD hlr hst hr with ⟨_, e, -⟩ | ⟨_, b, e, hi, -⟩ | e | ⟨e, -⟩ | ⟨e, -⟩ <;>
        cases e
      exact learnLoop_probable he hD hlr fuel st1 st' hi h1 hx

/-! ### C91 -/

/-- **C91** Every rule that a new `GreedyCFTPDivMaxV2` or `V3` holds after `fit` joins a feature set that is
probable for `min_feature_proba` in the graph of the features with a label set that is probable for
`min_label_proba` in the graph of the labels. -/
theorem C91_v2_probable (env : LearnEnv) (he : env.Good) (X Y : Cmp) (hD : LearnData env X Y)
    (pf pl : ℚ) (p : Params) (k : ℕ) (hk : p.nMaxRules = some k) (v3 : Bool) (fuel : ℕ) (o : LearnObj)
    (obj : ℝ)
    (hx : (learnFitV2 env p (if v3 then learnerV3 p else learnerV2 p)
      (if v3 then qualityOfRuleV3 else qualityOfRule) (LearnObj.new pf pl) X Y fuel).Outcome
        (.ok (some (o, obj)))) : ∀ b ∈ o.selected, ProbableRule X Y pf pl b := by
  have hXw := hD.features.toWF
  have hYw := hD.labels.toWF
  have hlr : LearnerTotal X Y (if v3 then learnerV3 p else learnerV2 p) := by
    split
    · exact total_V3 hXw hYw hD.rows hk
    · exact total_V2 hXw hYw hD.rows hk
  obtain ⟨s, hs, -, hinv⟩ := new_inv he hD pf pl
  unfold learnFitV2 at hx
  rw [learnRun_new hs, RandR.bind_eq, RandR.outcome_bind] at hx
  rcases hx with ⟨r, hr, hx⟩ | ⟨e, hr, e'⟩
  swap
  · cases e'
  cases r with
  | none => cases hx
  | some st =>
    have hps := learnLoop_probable (pf := pf) he hD hlr fuel _ _ hinv ⟨rfl, by simp, by simp⟩ hr
    simp only [RandR.bind_eq, RandR.outcome_bind] at hx
    rcases hx with ⟨v', e, hx⟩ | ⟨e, -, e'⟩
    swap
    · cases e'
    cases hx
    exact hps.selected

/-- The rules of `GreedyDivMax.fit` come from its first round or its pool. -/
theorem fitTail_members {σ ω : Type} {S : Samplers σ ω} {p : Params} {st : LoopState σ} {res : FitResult}
    (h : fitTail S p st = .ok res) : res.round1 = st.selected ∧ (∀ b ∈ res.round2, b ∈ st.pool) ∧
      (res.selected = res.round1 ∨ res.selected = res.round2) := by
  unfold fitTail at h
  rcases h1 : objectiveOf qualityOfRule p.lambd st.selected st.selected with e | o1
  · rw [h1] at h; cases h
  rw [h1] at h
  rcases h2 : fit2ndRound S p st.pool st.selected.length with e | ⟨sel2, o2⟩
  · rw [h2] at h; cases h
  rw [h2] at h
  simp only [bind, Except.bind, pure, Except.pure, Except.ok.injEq] at h
  subst h
  refine ⟨rfl, ?_, ?_⟩
  · intro b hb
    obtain ⟨i, hi, rfl⟩ := List.getElem_of_mem hb
    exact ((C25_second_round S p st.pool _ sel2 o2 h2).2 i hi).1
  · dsimp only
    split
    · exact Or.inl rfl
    · exact Or.inr rfl

/-- **C91** The same for `GreedyCFTPDivMax`: the rules of both rounds and the rules it ends up with. -/
theorem C91_divmax_probable (env : LearnEnv) (he : env.Good) (X Y : Cmp) (hD : LearnData env X Y)
    (pf pl : ℚ) (p : Params) (fuel : ℕ) (o : LearnObj) (res : FitResult)
    (hx : (learnFitDivMax env p (LearnObj.new pf pl) X Y fuel).Outcome (.ok (some (o, res)))) :
    (∀ b ∈ res.round1, ProbableRule X Y pf pl b) ∧ (∀ b ∈ res.round2, ProbableRule X Y pf pl b) ∧
    ∀ b ∈ o.selected, ProbableRule X Y pf pl b := by
  have hlr := total_DivMax hD.features.toWF hD.labels hD.rows p
  obtain ⟨s, hs, -, hinv⟩ := new_inv he hD pf pl
  unfold learnFitDivMax at hx
  rw [learnRun_new hs, RandR.bind_eq, RandR.outcome_bind] at hx
  rcases hx with ⟨r, hr, hx⟩ | ⟨e, hr, e'⟩
  swap
  · cases e'
  cases r with
  | none => cases hx
  | some st =>
    have hps := learnLoop_probable (pf := pf) he hD hlr fuel _ _ hinv ⟨rfl, by simp, by simp⟩ hr
    simp only [RandR.bind_eq, RandR.outcome_bind] at hx
    rcases hx with ⟨res', e, hx⟩ | ⟨e, -, e'⟩
    swap
    · cases e'
    cases hx
    obtain ⟨h1, h2, h3⟩ := fitTail_members (show fitTail env.secondRound p st = .ok res from e.symm)
    have h1' : ∀ b ∈ res.round1, ProbableRule X Y pf pl b := by rw [h1]; exact hps.selected
    have h2' : ∀ b ∈ res.round2, ProbableRule X Y pf pl b := fun b hb => hps.pool b (h2 b hb)
    refine ⟨h1', h2', ?_⟩
    change ∀ b ∈ res.selected, _
    rcases h3 with h3 | h3 <;> rw [h3]
    · exact h1'
    · exact h2'

/-! ### C92 -/

theorem learnIter_keeps {env : LearnEnv} {p : Params} {lr : Learner} {X Xc Yc : Cmp} {st : LearnState}
    {x : IterResult (UState × HeadSampler)} (hx : (learnIter env p lr X Xc Yc st).Outcome (.ok x)) :
    st.selected <+: x.state.selected := by
  cases x with
  | next st' =>
    obtain ⟨-, -, best, -, -, -, e, -⟩ := learnIter_next hx
    exact e ▸ List.prefix_append _ _
  | done st' =>
    unfold learnIter at hx
    rw [RandR.bind_eq, RandR.outcome_bind] at hx
    rcases hx with ⟨⟨g, h'⟩, -, hx⟩ | ⟨e, -, hx⟩
    swap
    · cases hx
    dsimp only at hx
    cases g with
    | error e => cases e <;> cases hx; exact List.prefix_refl _
    | ok cands =>
      change Except.ok (IterResult.done st') = learnChoose env lr st h' cands at hx
      unfold learnChoose at hx
      rcases hb : pyMax (lr.objective st.selected) (env.setOrder cands) with e | best
      · rw [hb] at hx; cases hx
      rw [hb] at hx
      simp only [bind, Except.bind] at hx
      rcases hstop : lr.stop st.selected best with e | v
      · rw [hstop] at hx; cases hx
      rw [hstop] at hx
      cases v with
      | true => cases hx; exact List.prefix_refl _
      | false =>
        simp only [Bool.false_eq_true, if_false] at hx
        split at hx <;> cases hx

theorem learnRun_keeps {env : LearnEnv} {p : Params} {lr : Learner} {o : LearnObj} {X Y : Cmp} {fuel : ℕ}
    {st : LearnState} (hx : (learnRun env p lr o X Y fuel).Outcome (.ok (some st))) :
    o.selected <+: st.selected := by
  have loop : ∀ (fuel : ℕ) (st st' : LearnState),
      (learnLoop env p lr X X.flip Y.flip fuel st).Outcome (.ok (some st')) →
      st.selected <+: st'.selected := by
    intro fuel
    induction fuel with
    | zero => intro st st' h; cases h
    | succ fuel ih =>
      intro st st' h
      rw [learnLoop, RandR.bind_eq, RandR.outcome_bind] at h
      rcases h with ⟨r, hr, h⟩ | ⟨e, -, h⟩
      swap
      · cases h
      have h1 := learnIter_keeps hr
      cases r with
      | done st1 => cases h; exact h1
      | next st1 => exact h1.trans (ih st1 st' h)
  unfold learnRun at hx
  rw [RandR.bind_eq, RandR.outcome_bind] at hx
  rcases hx with ⟨s, -, hx⟩ | ⟨e, -, hx⟩
  · exact loop _ _ _ hx
  · cases hx

/-- **C92** Fitting keeps the rules held. Whatever object, data and parameters: when `fit` of the
`GreedyDivMaxV2` and `V3` learners returns, the rules held before are still there, in the same order, before
the rules added. -/
theorem C92_fit_extends (env : LearnEnv) (p : Params) (lr : Learner) (quality : List BRule → BRule → Py ℝ)
    (o o' : LearnObj) (X Y : Cmp) (fuel : ℕ) (obj : ℝ)
    (hx : (learnFitV2 env p lr quality o X Y fuel).Outcome (.ok (some (o', obj)))) :
    o.selected <+: o'.selected := by
  unfold learnFitV2 at hx
  rw [RandR.bind_eq, RandR.outcome_bind] at hx
  rcases hx with ⟨r, hr, hx⟩ | ⟨e, -, hx⟩
  swap
  · cases hx
  cases r with
  | none => cases hx
  | some st =>
    simp only [RandR.bind_eq, RandR.outcome_bind] at hx
    rcases hx with ⟨v', e, hx⟩ | ⟨e, -, e'⟩
    swap
    · cases e'
    cases hx
    exact learnRun_keeps hr

theorem learnGen_bound {env : LearnEnv} {X Xc Yc : Cmp} {nHeads : ℕ} {s : UState} :
    ∀ (todo : ℕ) (h : HeadSampler) (rules out : List BRule) (h' : HeadSampler),
      (∀ b ∈ rules, ∃ r, bindDataset r Xc Yc = .ok b) →
      (learnGen env X Xc Yc nHeads s todo h rules).Outcome (.ok (.ok out, h')) →
      ∀ b ∈ out, ∃ r, bindDataset r Xc Yc = .ok b
  | 0, h, rules, out, h', hr, hx => by
    rw [learnGen] at hx
    cases hx
    exact hr
  | todo + 1, h, rules, out, h', hr, hx => by
    rw [learnGen, RandR.bind_eq, RandR.outcome_bind] at hx
    rcases hx with ⟨t, -, hx⟩ | ⟨e, -, hx⟩
    swap
    · cases hx
    rw [outcome_orRaise] at hx
    rcases hx with ⟨T, -, hx⟩ | ⟨e, -, hx⟩
    swap
    · cases hx
    rw [outcome_orRaise] at hx
    rcases hx with ⟨y, -, hx⟩ | ⟨e, -, hx⟩
    swap
    · cases hx
    rw [outcome_orRaise] at hx
    rcases hx with ⟨h1, hf, hx⟩ | ⟨e, -, hx⟩
    swap
    · cases hx
    rw [RandR.bind_eq, RandR.outcome_bind] at hx
    rcases hx with ⟨q, -, hx⟩ | ⟨e, -, hx⟩
    swap
    · cases hx
    rw [outcome_orRaise] at hx
    rcases hx with ⟨a, -, hx⟩ | ⟨e, -, hx⟩
    swap
    · cases hx
    rw [outcome_orRaise] at hx
    rcases hx with ⟨rules', hout, hx⟩ | ⟨e, -, hx⟩
    swap
    · cases hx
    refine learnGen_bound todo a.2 rules' out h' ?_ hx
    obtain ⟨-, -, -, a4, -⟩ := addHeads_ok hout
    intro b hb
    rcases a4 b hb with hb | ⟨hd, -, hbd⟩
    · exact hr b hb
    · exact ⟨_, hbd⟩

/-- The candidate pool holds rules bound to the data of this call only. -/
theorem learnIter_pool {env : LearnEnv} {p : Params} {lr : Learner} {X Xc Yc : Cmp} {st : LearnState}
    (hst : ∀ b ∈ st.pool, ∃ r, bindDataset r Xc Yc = .ok b)
    {x : IterResult (UState × HeadSampler)} (hx : (learnIter env p lr X Xc Yc st).Outcome (.ok x)) :
    ∀ b ∈ x.state.pool, ∃ r, bindDataset r Xc Yc = .ok b := by
  unfold learnIter at hx
  rw [RandR.bind_eq, RandR.outcome_bind] at hx
  rcases hx with ⟨⟨g, h'⟩, hg, hx⟩ | ⟨e, -, hx⟩
  swap
  · cases hx
  dsimp only at hx
  cases g with
  | error e => cases e <;> cases hx; exact hst
  | ok cands =>
    have hc := learnGen_bound p.nTails _ [] cands h' (by simp) hg
    have hpu : ∀ b ∈ poolUnion st.pool cands, ∃ r, bindDataset r Xc Yc = .ok b := by
      intro b hb
      rcases (mem_poolUnion (pool := st.pool) (cands := cands)).1 b hb with h | h
      · exact hst b h
      · exact hc b h
    change Except.ok x = learnChoose env lr st h' cands at hx
    unfold learnChoose at hx
    rcases hb : pyMax (lr.objective st.selected) (env.setOrder cands) with e | best
    · rw [hb] at hx; cases hx
    rw [hb] at hx
    simp only [bind, Except.bind] at hx
    rcases hstop : lr.stop st.selected best with e | v
    · rw [hstop] at hx; cases hx
    rw [hstop] at hx
    cases v with
    | true => cases hx; exact hpu
    | false =>
      simp only [Bool.false_eq_true, if_false] at hx
      split at hx
      · cases hx
      · cases hx; exact hpu

theorem learnRun_pool {env : LearnEnv} {p : Params} {lr : Learner} {o : LearnObj} {X Y : Cmp} {fuel : ℕ}
    {st : LearnState} (hx : (learnRun env p lr o X Y fuel).Outcome (.ok (some st))) :
    ∀ b ∈ st.pool, ∃ r, bindDataset r X.flip Y.flip = .ok b := by
  have loop : ∀ (fuel : ℕ) (st st' : LearnState), (∀ b ∈ st.pool, ∃ r, bindDataset r X.flip Y.flip = .ok b) →
      (learnLoop env p lr X X.flip Y.flip fuel st).Outcome (.ok (some st')) →
      ∀ b ∈ st'.pool, ∃ r, bindDataset r X.flip Y.flip = .ok b := by
    intro fuel
    induction fuel with
    | zero => intro st st' _ h; cases h
    | succ fuel ih =>
      intro st st' h0 h
      rw [learnLoop, RandR.bind_eq, RandR.outcome_bind] at h
      rcases h with ⟨r, hr, h⟩ | ⟨e, -, h⟩
      swap
      · cases h
      have h1 := learnIter_pool h0 hr
      cases r with
      | done st1 => cases h; exact h1
      | next st1 => exact ih st1 st' h1 h
  unfold learnRun at hx
  rw [RandR.bind_eq, RandR.outcome_bind] at hx
  rcases hx with ⟨s, -, hx⟩ | ⟨e, -, hx⟩
  · exact loop _ _ _ (by simp) hx
  · cases hx

/-- **C92** For `GreedyDivMax` the rules held are kept in the first round. The second round selects as many
rules as the first one holds, old ones included, but only among candidates generated in this call: they are
bound to the data of this call, whatever data the old rules were bound to. -/
theorem C92_divmax_first_round (env : LearnEnv) (p : Params) (o o' : LearnObj) (X Y : Cmp) (fuel : ℕ)
    (res : FitResult) (hx : (learnFitDivMax env p o X Y fuel).Outcome (.ok (some (o', res)))) :
    o.selected <+: res.round1 ∧ res.round2.length = res.round1.length ∧
    (∀ b ∈ res.round2, ∃ r, bindDataset r X.flip Y.flip = .ok b) ∧
    (o'.selected = res.round1 ∨ o'.selected = res.round2) := by
  unfold learnFitDivMax at hx
  rw [RandR.bind_eq, RandR.outcome_bind] at hx
  rcases hx with ⟨r, hr, hx⟩ | ⟨e, -, hx⟩
  swap
  · cases hx
  cases r with
  | none => cases hx
  | some st =>
    simp only [RandR.bind_eq, RandR.outcome_bind] at hx
    rcases hx with ⟨res', e, hx⟩ | ⟨e, -, e'⟩
    swap
    · cases e'
    cases hx
    have h : fitTail env.secondRound p st = .ok res := e.symm
    obtain ⟨h1, h2, h3⟩ := fitTail_members h
    refine ⟨h1 ▸ learnRun_keeps hr, ?_, fun b hb => learnRun_pool hr b (h2 b hb), h3⟩
    unfold fitTail at h
    rcases h4 : objectiveOf qualityOfRule p.lambd st.selected st.selected with e | o1
    · rw [h4] at h; cases h
    rw [h4] at h
    rcases h5 : fit2ndRound env.secondRound p st.pool st.selected.length with e | ⟨sel2, o2⟩
    · rw [h5] at h; cases h
    rw [h5] at h
    simp only [bind, Except.bind, pure, Except.pure, Except.ok.injEq] at h
    subst h
    exact (C25_second_round _ p st.pool _ sel2 o2 h5).1

/-- The tail sampler fitted, with any history, on labels that do not occur cannot draw anything. -/
theorem sampleOnce_no_labels {env : LearnEnv} (he : env.Good) {X Y : Cmp} (hD : LearnData env X Y)
    (hno : ∀ i l, ¬ Y.Stored i l) {pl : ℚ} {hist : List (List ℕ × List ℤ)} {s : UState}
    (hs : tailFit env.toHeadEnv pl true hist Y = .ok s) (r : Py (Finset ℤ)) :
    (sampleOnce s).Outcome r ↔ r = .error .noMoreSamples := by
  obtain ⟨g, space, hg, hfit, hnd, hmem⟩ := tailFit_ok he.heads pl true hist hD.labels hD.colsY hD.depthY
  rw [hfit] at hs
  cases hs
  have hlen := naiveNewRows_length Y space
  have hempty : ∀ i, (naiveNewRows Y space).getD i [] = [] := by
    intro i
    by_cases hi : i < Y.nMajor
    · rw [List.eq_nil_iff_forall_not_mem]
      intro id hid
      have hid' : id ∈ recordAt (naiveNewRows Y space) i := List.mem_toFinset.mpr hid
      rw [recordAt_naive Y space hi] at hid'
      have hin : space.getD id ∅ ∈ space := by rw [getD_lt hid'.1]; exact List.getElem_mem _
      obtain ⟨U, hU, e⟩ := (hmem _).mp hin
      obtain ⟨j, hj⟩ := Finset.nonempty_iff_ne_empty.mpr hU.1
      obtain ⟨l, -, hl⟩ := hid'.2 (j : ℤ) (by rw [e]; exact Finset.mem_image_of_mem _ hj)
      exact hno i l hl
    · rw [List.getD_eq_default _ _ (by omega)]
  have hzero : totalArea space (naiveNewRows Y space) [] = 0 := by
    unfold totalArea
    apply Finset.sum_eq_zero
    intro i hi
    unfold rowArea
    rw [hempty]
    simp
  have hsame : sampleOnce (assignRowWeights space (naiveNewRows Y space) hist) =
      sampleOnce (assignRowWeights space (naiveNewRows Y space) []) := by
    have hw : ∀ (h : List (List ℕ × List ℤ)) (row : ℕ),
        sampleWeights (assignRowWeights space (naiveNewRows Y space) h) row = [] := by
      intro h row
      unfold sampleWeights assignRowWeights
      rw [hempty]
      rfl
    unfold sampleOnce
    congr 1
    funext row
    unfold sampleItemsetFromRow
    simp only [hw]
    rfl
  rw [hsame]
  have hne : naiveNewRows Y space ≠ [] := by
    intro h; rw [h] at hlen; simp at hlen; have := hD.pos; omega
  obtain ⟨-, e⟩ := fresh_applyUpdates_inv (space := space) (newRows := naiveNewRows Y space) (us := []) rfl
  change (sampleOnce (freshSampler space (naiveNewRows Y space))).Outcome r ↔ _
  rw [e]
  have := outcome_once space (naiveNewRows Y space) [] hne (x := r)
  rw [if_pos hzero] at this
  exact this

/-- `C92_no_labels` for features of any shape. -/
theorem fit_no_labels (env : LearnEnv) (he : env.Good) (X Y : Cmp) (hD : LearnData env Y Y)
    (hno : ∀ i l, ¬ Y.Stored i l) (o : LearnObj) (p : Params) (ht : 0 < p.nTails) (lr : Learner)
    (quality : List BRule → BRule → Py ℝ) (fuel : ℕ) (hf : 0 < fuel) (x : Py (Option (LearnObj × ℝ))) :
    (learnFitV2 env p lr quality o X Y fuel).Outcome x ↔
      (∃ obj, objectiveOf quality p.lambd o.selected o.selected = .ok obj ∧ x = .ok (some (o, obj))) ∨
      ∃ e, objectiveOf quality p.lambd o.selected o.selected = .error e ∧ x = .error e := by
  obtain ⟨fuel, rfl⟩ : ∃ f, fuel = f + 1 := ⟨fuel - 1, by omega⟩
  obtain ⟨n, hn⟩ : ∃ n, p.nTails = n + 1 := ⟨p.nTails - 1, by omega⟩
  obtain ⟨-, space, -, hfit, -⟩ := tailFit_ok he.heads o.minLabelProba true o.history hD.labels hD.colsY hD.depthY
  have hdraw := sampleOnce_no_labels he hD hno hfit
  have hgen : ∀ y, (learnGen env X X.flip Y.flip p.nHeads
      (assignRowWeights space (naiveNewRows Y space) o.history) p.nTails o.heads []).Outcome y ↔
      y = .ok (.error .noMoreSamples, o.heads) := by
    intro y
    rw [hn, learnGen, RandR.bind_eq, RandR.outcome_bind]
    simp only [outcome_attempt, outcome_toReal, hdraw]
    constructor
    · rintro (⟨t, ⟨r, rfl, e⟩, hx⟩ | ⟨e, ⟨r, rfl, e'⟩, -⟩)
      · cases e; exact hx
      · cases e'
    · rintro rfl
      exact Or.inl ⟨_, ⟨_, rfl, rfl⟩, rfl⟩
  obtain ⟨st, hst⟩ : ∃ st : LearnState, st = LoopState.mk
    (assignRowWeights space (naiveNewRows Y space) o.history, o.heads) o.selected [] := ⟨_, rfl⟩
  have hiter : ∀ y, (learnIter env p lr X X.flip Y.flip st).Outcome y ↔ y = .ok (.done st) := by
    intro y
    unfold learnIter
    rw [RandR.bind_eq, RandR.outcome_bind]
    simp only [hst, hgen]
    constructor
    · rintro (⟨g, e, hx⟩ | ⟨e, e', -⟩)
      · cases e; exact hx
      · cases e'
    · rintro rfl
      exact Or.inl ⟨_, rfl, rfl⟩
  have hrun : ∀ y, (learnRun env p lr o X Y (fuel + 1)).Outcome y ↔ y = .ok (some st) := by
    intro y
    unfold learnRun
    change ((RandR.lift (tailFit env.toHeadEnv o.minLabelProba true o.history Y)).bind _).Outcome _ ↔ _
    rw [hfit]
    change (learnLoop env p lr X X.flip Y.flip (fuel + 1) (LoopState.mk _ _ _)).Outcome y ↔ _
    rw [← hst]
    rw [learnLoop, RandR.bind_eq, RandR.outcome_bind]
    simp only [hiter]
    constructor
    · rintro (⟨g, e, hx⟩ | ⟨e, e', -⟩)
      · cases e; exact hx
      · cases e'
    · rintro rfl
      exact Or.inl ⟨_, rfl, rfl⟩
  unfold learnFitV2
  rw [RandR.bind_eq, RandR.outcome_bind]
  simp only [hrun]
  have hafter : o.after st = o := by rw [hst]; rfl
  have hsel : st.selected = o.selected := by rw [hst]
  have hlift : ∀ y, ((RandR.lift (objectiveOf quality p.lambd st.selected st.selected)).bind
      fun obj => RandR.done (.ok (some (o.after st, obj)))).Outcome y ↔
      (∃ obj, objectiveOf quality p.lambd o.selected o.selected = .ok obj ∧ y = .ok (some (o, obj))) ∨
      ∃ e, objectiveOf quality p.lambd o.selected o.selected = .error e ∧ y = .error e := by
    intro y
    rw [hafter, hsel]
    rcases objectiveOf quality p.lambd o.selected o.selected with e | v
    · simp [RandR.lift, RandR.bind, RandR.Outcome]
    · simp [RandR.lift, RandR.bind, RandR.Outcome]
  constructor
  · rintro (⟨g, e, hx⟩ | ⟨e, e', -⟩)
    · cases e; exact (hlift x).mp hx
    · cases e'
  · intro h
    exact Or.inl ⟨_, rfl, (hlift x).mpr h⟩

/-! ### The hypotheses can be met -/

/-- **C92** Fitting any classifier of the V2 and V3 classes on data without labels changes nothing: the rules,
the samplers' histories and the head sampler are as before, and `obj` is the objective of the rules held. -/
theorem C92_no_labels (env : LearnEnv) (he : env.Good) (X Y : Cmp) (hD : LearnData env X Y)
    (hno : ∀ i l, ¬ Y.Stored i l) (o : LearnObj) (p : Params) (ht : 0 < p.nTails) (lr : Learner)
    (quality : List BRule → BRule → Py ℝ) (fuel : ℕ) (hf : 0 < fuel) (x : Py (Option (LearnObj × ℝ))) :
    (learnFitV2 env p lr quality o X Y fuel).Outcome x ↔
      (∃ obj, objectiveOf quality p.lambd o.selected o.selected = .ok obj ∧ x = .ok (some (o, obj))) ∨
      ∃ e, objectiveOf quality p.lambd o.selected o.selected = .error e ∧ x = .error e :=
  fit_no_labels env he X Y ⟨hD.labels, hD.labels, rfl, hD.pos, hD.depthY, hD.depthY, hD.colsY, hD.colsY⟩ hno o p ht lr
    quality fuel hf x

/-- Fitting on the identity data and then on data without labels: the second call returns and keeps the
rule, which joins a probable head with a probable tail. -/
example (pf pl : ℚ) (v3 : Bool) (fuel : ℕ) (hf : 5 < fuel) :
    ∃ o obj, (learnFitV2 (someLearnEnv 10) demoParams
      (if v3 then learnerV3 demoParams else learnerV2 demoParams)
      (if v3 then qualityOfRuleV3 else qualityOfRule) (LearnObj.new pf pl) eyeData eyeData fuel).Outcome
        (.ok (some (o, obj))) ∧ o.selected ≠ [] ∧ (∀ b ∈ o.selected, ProbableRule eyeData eyeData pf pl b) ∧
      ∀ x, (learnFitV2 (someLearnEnv 10) demoParams
        (if v3 then learnerV3 demoParams else learnerV2 demoParams)
        (if v3 then qualityOfRuleV3 else qualityOfRule) o eyeData noLabels fuel).Outcome x →
        ∀ r, x = .ok r → ∃ obj', r = some (o, obj') := by
  obtain ⟨o, obj, hx, hne⟩ := eye_fits pf pl v3 fuel hf
  refine ⟨o, obj, hx, hne, C91_v2_probable (someLearnEnv 10) (someLearnEnv_good 10) eyeData eyeData eye_data
    pf pl demoParams 5 rfl v3 fuel o obj hx, ?_⟩
  intro x h r e
  subst e
  have := (C92_no_labels (someLearnEnv 10) (someLearnEnv_good 10) eyeData noLabels
    ⟨eye_binary, noLabels_binary, rfl, by decide, by decide, by decide, by decide, by decide⟩ (by
      intro i l h
      have hi : i < 2 := Stored.major_lt noLabels_binary.toWF h
      rw [← mem_segIdx] at h
      interval_cases i
      · have e : noLabels.segIdx 0 = [] := by decide
        rw [e] at h; simp at h
      · have e : noLabels.segIdx 1 = [] := by decide
        rw [e] at h; simp at h) o demoParams Nat.one_pos _ _ fuel (by omega) _).mp h
  rcases this with ⟨obj', -, e⟩ | ⟨e, -, e'⟩
  · cases e; exact ⟨obj', rfl⟩
  · cases e'

end Verif
