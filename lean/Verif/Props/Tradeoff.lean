/-
C154: what the parameter `lambd` does.
-/
import Verif.Spec.Tradeoff
import Verif.Props.Learner
import Verif.Props.HeadDetails
import Verif.Props.Ideal
import Verif.Props.Malformed
import Verif.Lemmas.RowOrder

namespace Verif

open Cmp

/-! ### Two weights -/

theorem tradeoff_mono {g d : BRule → ℝ} {l1 l2 : ℝ} (hlt : l1 < l2) {cands : List BRule} {b1 b2 : BRule}
    (h1 : BestTradeoff g d l1 cands b1) (h2 : BestTradeoff g d l2 cands b2) :
    d b1 ≤ d b2 ∧ (0 ≤ l1 → g b2 ≤ g b1) := by
  have e1 := h1.2 b2 h2.1
  have e2 := h2.2 b1 h1.1
  have hd : d b1 ≤ d b2 := by nlinarith
  refine ⟨hd, fun h0 => ?_⟩
  nlinarith

theorem tradeoff_zero {g d : BRule → ℝ} {cands : List BRule} {b : BRule} (h : BestTradeoff g d 0 cands b) :
    ∀ c ∈ cands, g c ≤ g b := by
  intro c hc
  have := h.2 c hc
  simpa using this

theorem tradeoff_large (g d : BRule → ℝ) (cands : List BRule) :
    ∃ L : ℝ, ∀ l > L, ∀ b, BestTradeoff g d l cands b →
      ∀ c ∈ cands, d c ≤ d b ∧ (d c = d b → g c ≤ g b) := by
  let f : BRule × BRule → ℝ := fun x => (g x.2 - g x.1) / (d x.1 - d x.2)
  have hbd : BddAbove ((cands.product cands).map f |>.toFinset : Set ℝ) := (List.toFinset _).bddAbove
  obtain ⟨L, hL⟩ := hbd
  refine ⟨L, fun l hl b hb c hc => ?_⟩
  have h := hb.2 c hc
  constructor
  · by_contra hlt
    rw [not_le] at hlt
    have h1 : f (c, b) ≤ L := by
      apply hL
      rw [Finset.mem_coe, List.mem_toFinset]
      exact List.mem_map_of_mem (List.mem_product.mpr ⟨hc, hb.1⟩)
    have h2 : l ≤ f (c, b) := by
      rw [le_div_iff₀ (by simpa using hlt)]
      simp only
      nlinarith
    linarith
  · intro he
    rw [he] at h
    linarith

/-! ### What the learners maximise -/

theorem klReal_value {X Y : Cmp} (hn : X.nMajor = Y.nMajor) {b : BRule} (hb : BoundTo X Y b) :
    b.klReal = .ok (klValue b) := by
  obtain ⟨k, h1, -, h2⟩ := klReal_bound hn hb
  rw [h1, klValue, h2]
  rfl

theorem quality_gain {X Y : Cmp} (hn : X.nMajor = Y.nMajor) (sel : List BRule) {b : BRule} (hb : BoundTo X Y b) :
    qualityOfRule sel b = .ok (gain (fun n => n) sel b) := by
  unfold qualityOfRule gain newCells
  rw [klReal_value hn hb, marginalCoverage_eq]
  rfl

theorem qualityV3_gain {X Y : Cmp} (hn : X.nMajor = Y.nMajor) (sel : List BRule) {b : BRule} (hb : BoundTo X Y b) :
    qualityOfRuleV3 sel b = .ok (gain (fun n => Real.sqrt n) sel b) := by
  unfold qualityOfRuleV3 gain newCells
  rw [klReal_value hn hb, marginalCoverage_eq]
  rfl

theorem choice_tradeoff {q : List BRule → BRule → Py ℝ} {w : ℕ → ℝ} {sel cands : List BRule}
    (hq : ∀ b ∈ cands, q sel b = .ok (gain w sel b)) (hs : ∀ b ∈ sel, b.tail.Nodup) (hc : ∀ b ∈ cands, b.tail.Nodup)
    {l : ℝ} {b : BRule} (h : GreedyChoice (objectiveOfRule q l) sel cands b) :
    BestTradeoff (gain w sel) (fun b => distTo b sel) l cands b := by
  obtain ⟨hm, v, hv, hle⟩ := h
  obtain ⟨u, hu, ev⟩ := objectiveOfRule_ok hs (hc b hm) hv
  rw [hq b hm] at hu
  cases hu
  refine ⟨hm, fun c hcm => ?_⟩
  obtain ⟨vc, hvc, hlec⟩ := hle c hcm
  obtain ⟨u', hu', evc⟩ := objectiveOfRule_ok hs (hc c hcm) hvc
  rw [hq c hcm] at hu'
  cases hu'
  rw [← ev, ← evc]
  exact hlec

theorem best_tradeoff {σ ω : Type} {S : Samplers σ ω} {q : List BRule → BRule → Py ℝ} {w : ℕ → ℝ} {sel cands : List BRule}
    (hq : ∀ b ∈ cands, q sel b = .ok (gain w sel b)) (hs : ∀ b ∈ sel, b.tail.Nodup) (hc : ∀ b ∈ cands, b.tail.Nodup)
    {l : ℝ} {b : BRule} (h : selectBest S (objectiveOfRule q l sel) cands = .ok b) :
    BestTradeoff (gain w sel) (fun b => distTo b sel) l cands b :=
  choice_tradeoff hq hs hc (selectBest_ok (S := S) (obj := objectiveOfRule q l) h)

theorem best_submod {σ ω : Type} {S : Samplers σ ω} {X Y : Cmp} (hn : X.nMajor = Y.nMajor) {sel cands : List BRule}
    (hc : ∀ b ∈ cands, BoundTo X Y b) {l : ℝ} {b : BRule} (h : selectBest S (objectiveSubmod l sel) cands = .ok b) :
    BestTradeoff (gain (fun n => if n = 0 then 0 else 1) sel) (fun b => newCells sel b) l cands b := by
  obtain ⟨hm, v, hv, hle⟩ := selectBest_ok (S := S) (obj := fun sel => objectiveSubmod l sel) h
  have hval : ∀ c ∈ cands, objectiveSubmod l sel c =
      .ok (gain (fun n => if n = 0 then 0 else 1) sel c + l * newCells sel c) := by
    intro c hcm
    unfold objectiveSubmod gain newCells
    rw [klReal_value hn (hc c hcm), marginalCoverage_eq]
    simp only [bind, Except.bind, pure, Except.pure, Except.ok.injEq]
    rcases Nat.eq_zero_or_pos (area c \ covered sel).card with h0 | h0
    · rw [h0]; simp
    · rw [if_pos (by exact_mod_cast h0), if_neg h0.ne']
  refine ⟨hm, fun c hcm => ?_⟩
  obtain ⟨vc, hvc, hlec⟩ := hle c hcm
  have hv' : objectiveSubmod l sel b = .ok v := hv
  have hvc' : objectiveSubmod l sel c = .ok vc := hvc
  rw [hval b hm] at hv'
  rw [hval c hcm] at hvc'
  cases hv'
  cases hvc'
  exact hlec

/-! ### C154: the choice -/

section choice
variable (X Y : Cmp) (hn : X.nMajor = Y.nMajor) (sel cands : List BRule) (hs : ∀ b ∈ sel, BoundTo X Y b)
  (hc : ∀ b ∈ cands, BoundTo X Y b) {σ ω σ' ω' : Type} (S : Samplers σ ω) (S' : Samplers σ' ω')
include hn hs hc

/-- **C154** Of two weights, the greater never makes the learner choose, from the same candidates and with the same
rules selected, a rule that is nearer to the selected ones; and, both weights being at least 0, never one with a
greater gain, whatever the iteration order of the candidate set. `GreedyDivMax`, `GreedyDivMaxV2` (the gain is the
divergence times the number of newly covered occurrences) and `GreedyDivMaxV3` (times its square root). -/
theorem C154_choice (l1 l2 : ℝ) (hlt : l1 < l2) (b1 b2 : BRule) :
    (selectBest S (objectiveOfRule qualityOfRule l1 sel) cands = .ok b1 →
      selectBest S' (objectiveOfRule qualityOfRule l2 sel) cands = .ok b2 →
      distTo b1 sel ≤ distTo b2 sel ∧ (0 ≤ l1 → gain (fun n => n) sel b2 ≤ gain (fun n => n) sel b1)) ∧
    (selectBest S (objectiveOfRule qualityOfRuleV3 l1 sel) cands = .ok b1 →
      selectBest S' (objectiveOfRule qualityOfRuleV3 l2 sel) cands = .ok b2 →
      distTo b1 sel ≤ distTo b2 sel ∧
        (0 ≤ l1 → gain (fun n => Real.sqrt n) sel b2 ≤ gain (fun n => Real.sqrt n) sel b1)) := by
  have hs' := fun b hb => (hs b hb).2.2
  have hc' := fun b hb => (hc b hb).2.2
  constructor <;> intro h1 h2
  · have hq := fun b hb => quality_gain hn sel (hc b hb)
    exact tradeoff_mono hlt (best_tradeoff hq hs' hc' h1) (best_tradeoff hq hs' hc' h2)
  · have hq := fun b hb => qualityV3_gain hn sel (hc b hb)
    exact tradeoff_mono hlt (best_tradeoff hq hs' hc' h1) (best_tradeoff hq hs' hc' h2)

/-- With `lambd = 0` the chosen rule has the greatest gain, whatever its distance. Beyond some weight, the chosen rule
is among the candidates farthest from the selected rules, and has the greatest gain of these. -/
theorem C154_extremes :
    (∀ b, selectBest S (objectiveOfRule qualityOfRule 0 sel) cands = .ok b →
      ∀ c ∈ cands, gain (fun n => n) sel c ≤ gain (fun n => n) sel b) ∧
    (∀ b, selectBest S (objectiveOfRule qualityOfRuleV3 0 sel) cands = .ok b →
      ∀ c ∈ cands, gain (fun n => Real.sqrt n) sel c ≤ gain (fun n => Real.sqrt n) sel b) ∧
    ∃ L : ℝ, ∀ l > L, ∀ b,
      (selectBest S (objectiveOfRule qualityOfRule l sel) cands = .ok b →
        ∀ c ∈ cands, distTo c sel ≤ distTo b sel ∧
          (distTo c sel = distTo b sel → gain (fun n => n) sel c ≤ gain (fun n => n) sel b)) ∧
      (selectBest S (objectiveOfRule qualityOfRuleV3 l sel) cands = .ok b →
        ∀ c ∈ cands, distTo c sel ≤ distTo b sel ∧
          (distTo c sel = distTo b sel → gain (fun n => Real.sqrt n) sel c ≤ gain (fun n => Real.sqrt n) sel b)) := by
  have hs' := fun b hb => (hs b hb).2.2
  have hc' := fun b hb => (hc b hb).2.2
  have hq := fun b hb => quality_gain hn sel (hc b hb)
  have hq3 := fun b hb => qualityV3_gain hn sel (hc b hb)
  obtain ⟨L, hL⟩ := tradeoff_large (gain (fun n => n) sel) (fun b => distTo b sel) cands
  obtain ⟨L3, hL3⟩ := tradeoff_large (gain (fun n => Real.sqrt n) sel) (fun b => distTo b sel) cands
  refine ⟨fun b h => tradeoff_zero (best_tradeoff hq hs' hc' h), fun b h => tradeoff_zero (best_tradeoff hq3 hs' hc' h),
    max L L3, fun l hl b => ⟨fun h => ?_, fun h => ?_⟩⟩
  · exact hL l (lt_of_le_of_lt (le_max_left _ _) hl) b (best_tradeoff hq hs' hc' h)
  · exact hL3 l (lt_of_le_of_lt (le_max_right _ _) hl) b (best_tradeoff hq3 hs' hc' h)

omit hs in
/-- `GreedySubmod`, where `lambd` weighs the newly covered occurrences against the divergence of a rule that covers
any: the greater weight never makes it choose a rule that covers fewer of them, nor, the weights being at least 0, one
with a greater divergence. -/
theorem C154_choice_submod (l1 l2 : ℝ) (hlt : l1 < l2) (b1 b2 : BRule)
    (h1 : selectBest S (objectiveSubmod l1 sel) cands = .ok b1)
    (h2 : selectBest S' (objectiveSubmod l2 sel) cands = .ok b2) :
    newCells sel b1 ≤ newCells sel b2 ∧ (0 ≤ l1 → 0 < newCells sel b1 → klValue b2 ≤ klValue b1) := by
  have h := tradeoff_mono hlt (best_submod hn hc h1) (best_submod hn hc h2)
  have hle : newCells sel b1 ≤ newCells sel b2 := by exact_mod_cast h.1
  refine ⟨hle, fun h0 hp => ?_⟩
  have := h.2 h0
  rw [gain, gain, if_neg (by omega), if_neg (by omega)] at this
  simpa using this

end choice

/-! ### A budget of one rule -/

theorem objective_error {q : List BRule → BRule → Py ℝ} (l l' : ℝ) (sel : List BRule) (b : BRule) :
    RelPy (fun _ _ => True) (objectiveOfRule q l sel b) (objectiveOfRule q l' sel b) := by
  unfold objectiveOfRule
  cases q sel b with
  | error e => exact .error e
  | ok v =>
    cases h : diversityOfRule sel b with
    | error e => simp only [bind, Except.bind]; exact .error e
    | ok d => exact .ok trivial

theorem objective_nil {q : List BRule → BRule → Py ℝ} (l l' : ℝ) :
    objectiveOfRule q l [] = objectiveOfRule q l' [] := by
  funext b
  unfold objectiveOfRule diversityOfRule pySum
  simp [bind, Except.bind, pure, Except.pure]

theorem pyMaxLoop_alike {α κ : Type} [LinearOrder κ] {f g : α → Py κ}
    (h : ∀ a, RelPy (fun _ _ => True) (f a) (g a)) :
    ∀ (l : List α) (a a' : α) (k k' : κ), RelPy (fun _ _ => True) (pyMaxLoop f l a k) (pyMaxLoop g l a' k')
  | [], _, _, _, _ => .ok trivial
  | x :: xs, a, a', k, k' => by
    unfold pyMaxLoop
    refine RelPy.bind (h x) fun u u' _ => ?_
    split <;> split <;> exact pyMaxLoop_alike h xs _ _ _ _

theorem pyMax_alike {α κ : Type} [LinearOrder κ] {f g : α → Py κ}
    (h : ∀ a, RelPy (fun _ _ => True) (f a) (g a)) : ∀ l : List α, RelPy (fun _ _ => True) (pyMax f l) (pyMax g l)
  | [] => .error _
  | x :: xs => by
    unfold pyMax
    exact RelPy.bind (h x) fun u u' _ => pyMaxLoop_alike h xs _ _ _ _

/-- The learners differ in their weight only, and allow at most one rule. -/
structure OneRule (lr lr' : Learner) : Prop where
  first : lr.objective [] = lr'.objective []
  error : ∀ sel b, RelPy (fun _ _ => True) (lr.objective sel b) (lr'.objective sel b)
  stop : lr.stop = lr'.stop
  full : ∀ sel b, sel ≠ [] → lr.stop sel b = .ok true

theorem learnChoose_one {lr lr' : Learner} (h : OneRule lr lr') (env : LearnEnv) (st : LearnState) (hs : HeadSampler)
    (cands : List BRule) : learnChoose env lr st hs cands = learnChoose env lr' st hs cands ∧
      ∀ st', learnChoose env lr st hs cands = .ok (.next st') → st.selected = [] ∧ ∃ b, st'.selected = [b] := by
  by_cases he : st.selected = []
  · constructor
    · unfold learnChoose
      rw [he, h.first, h.stop]
    · intro st' hst
      refine ⟨he, ?_⟩
      unfold learnChoose at hst
      simp only [bind, Except.bind, pure, Except.pure] at hst
      split at hst
      · cases hst
      split at hst
      · cases hst
      split at hst
      · cases hst
      split at hst
      · cases hst
      cases hst
      rw [he]
      exact ⟨_, rfl⟩
  · have hm := pyMax_alike (h.error st.selected) (env.setOrder cands)
    unfold learnChoose
    rw [← h.stop]
    generalize pyMax (lr.objective st.selected) (env.setOrder cands) = m at hm ⊢
    generalize pyMax (lr'.objective st.selected) (env.setOrder cands) = m' at hm ⊢
    rcases hm with _ | e
    · rename_i a a' _
      simp only [bind, Except.bind, pure, Except.pure, h.full _ a he, h.full _ a' he]
      simp
    · exact ⟨rfl, fun st' hst => by cases hst⟩

theorem learnLoop_one {lr lr' : Learner} (h : OneRule lr lr') (env : LearnEnv) (p p' : Params) (hH : p.nHeads = p'.nHeads)
    (hT : p.nTails = p'.nTails) (X Xc Yc : Cmp) : ∀ (fuel : ℕ) (st : LearnState),
    learnLoop env p lr X Xc Yc fuel st = learnLoop env p' lr' X Xc Yc fuel st
  | 0, _ => rfl
  | fuel + 1, st => by
    unfold learnLoop learnIter
    rw [hH, hT]
    have hc : ∀ (hs : HeadSampler) (cands : List BRule), learnChoose env lr st hs cands = learnChoose env lr' st hs cands :=
      fun hs cands => (learnChoose_one h env st hs cands).1
    simp only [hc, learnLoop_one h env p p' hH hT X Xc Yc fuel]

/-- The weight does not enter the objective of at most one rule. -/
theorem objectiveOf_one {q : List BRule → BRule → Py ℝ} (l l' : ℝ) (sel rules : List BRule) (h : rules.length ≤ 1) :
    objectiveOf q l sel rules = objectiveOf q l' sel rules := by
  have hp : pairs rules = [] := by
    match rules, h with
    | [], _ => rfl
    | [a], _ => rfl
  unfold objectiveOf
  rw [hp]
  simp [pySum, bind, Except.bind, pure, Except.pure]

/-- Every result of the program has the property. -/
def RandR.AllResults {α : Type} (P : Py α → Prop) : RandR α → Prop
  | .done r => P r
  | .choice _ k => ∀ i, (k i).AllResults P
  | .unif k => ∀ u, (k u).AllResults P

theorem RandR.allResults_true {α : Type} (m : RandR α) : m.AllResults fun _ => True := by
  induction m with
  | done r => trivial
  | choice p k ih => exact ih
  | unif k ih => exact ih

theorem RandR.allResults_bind {α β : Type} {P : Py α → Prop} {Q : Py β → Prop} {m : RandR α} {f : α → RandR β}
    (h : m.AllResults P) (hok : ∀ a, P (.ok a) → (f a).AllResults Q) (herr : ∀ e, Q (.error e)) :
    (m.bind f).AllResults Q := by
  induction m with
  | done r => rcases r with e | a; exacts [herr e, hok a h]
  | choice p k ih => exact fun i => ih i (h i)
  | unif k ih => exact fun u => ih u (h u)

theorem RandR.bind_congr_all {α β : Type} {P : Py α → Prop} {m : RandR α} {f g : α → RandR β}
    (h : m.AllResults P) (hfg : ∀ a, P (.ok a) → f a = g a) : m.bind f = m.bind g := by
  induction m with
  | done r => rcases r with e | a; exacts [rfl, hfg a h]
  | choice p k ih => simp only [RandR.bind]; congr 1; funext i; exact ih i (h i)
  | unif k ih => simp only [RandR.bind]; congr 1; funext u; exact ih u (h u)

/-- What the loop leaves: at most one rule. -/
def AtMostOne : Py (Option LearnState) → Prop
  | .ok (some st) => st.selected.length ≤ 1
  | _ => True

theorem learnLoop_atMostOne {lr lr' : Learner} (h : OneRule lr lr') (env : LearnEnv) (p : Params) (X Xc Yc : Cmp) :
    ∀ (fuel : ℕ) (st : LearnState), st.selected.length ≤ 1 →
      (learnLoop env p lr X Xc Yc fuel st).AllResults AtMostOne
  | 0, _, _ => trivial
  | fuel + 1, st, hst => by
    unfold learnLoop
    rw [RandR.bind_eq]
    refine RandR.allResults_bind (P := fun x => ∀ r, x = .ok r →
      match r with | .done st' => st'.selected.length ≤ 1 | .next st' => st'.selected.length ≤ 1) ?_ ?_ (fun _ => trivial)
    · unfold learnIter
      rw [RandR.bind_eq]
      refine RandR.allResults_bind (RandR.allResults_true _) ?_ (fun e r hr => by cases hr)
      rintro ⟨g1, g2⟩ -
      rcases g1 with e | cands
      · cases e
        case noMoreSamples => intro r hr; cases hr; exact hst
        all_goals (intro r hr; cases hr)
      · intro r hr
        have h1 := (learnChoose_one h env st g2 cands).2
        rcases r with st' | st'
        · have hr' : learnChoose env lr st g2 cands = .ok (.done st') := hr
          unfold learnChoose at hr'
          simp only [bind, Except.bind, pure, Except.pure] at hr'
          split at hr'
          · cases hr'
          split at hr'
          · cases hr'
          split at hr'
          · cases hr'
            exact hst
          split at hr' <;> cases hr'
        · obtain ⟨-, b, hb⟩ := h1 st' hr
          simp [hb]
    · intro r hr
      have := hr r rfl
      rcases r with st' | st'
      · exact this
      · exact learnLoop_atMostOne h env p X Xc Yc fuel st' this

theorem learnRun_one {lr lr' : Learner} (h : OneRule lr lr') (env : LearnEnv) (p p' : Params) (hH : p.nHeads = p'.nHeads)
    (hT : p.nTails = p'.nTails) (o : LearnObj) (ho : o.selected.length ≤ 1) (X Y : Cmp) (fuel : ℕ) :
    learnRun env p lr o X Y fuel = learnRun env p' lr' o X Y fuel ∧
      (learnRun env p lr o X Y fuel).AllResults AtMostOne := by
  unfold learnRun
  constructor
  · simp only [learnLoop_one h env p p' hH hT]
  · rw [RandR.bind_eq]
    exact RandR.allResults_bind (RandR.allResults_true _)
      (fun s _ => learnLoop_atMostOne h env p X X.flip Y.flip fuel _ ho) (fun _ => trivial)

theorem oneRule_V2 (p : Params) (k : ℕ) (hk : p.nMaxRules = some k) (h1 : k ≤ 1) (l : ℝ) :
    OneRule (learnerV2 p) (learnerV2 { p with lambd := l }) ∧ OneRule (learnerV3 p) (learnerV3 { p with lambd := l }) := by
  have hf : ∀ (sel : List BRule) (b : BRule), sel ≠ [] → shouldStopV2 p sel b = .ok true := by
    intro sel b hne
    have := List.length_pos_iff.mpr hne
    simp only [shouldStopV2, hk]
    rw [decide_eq_true (by omega)]
  exact ⟨⟨objective_nil _ _, objective_error _ _, rfl, hf⟩, ⟨objective_nil _ _, objective_error _ _, rfl, hf⟩⟩

theorem oneRule_DivMax (p : Params) (k : ℕ) (hk : p.nMaxRules = some k) (h1 : k ≤ 1) (l : ℝ) (Y : Cmp) :
    OneRule (learnerDivMax p Y) (learnerDivMax { p with lambd := l } Y) := by
  refine ⟨objective_nil _ _, objective_error _ _, rfl, ?_⟩
  intro sel b hne
  have := List.length_pos_iff.mpr hne
  simp only [learnerDivMax, shouldStopDivMax, hk]
  rw [decide_eq_true (by omega)]

theorem fitV2_one {lr lr' : Learner} (h : OneRule lr lr') (env : LearnEnv) (p : Params) (l : ℝ)
    (q : List BRule → BRule → Py ℝ) (o : LearnObj) (ho : o.selected.length ≤ 1) (X Y : Cmp) (fuel : ℕ) :
    learnFitV2 env p lr q o X Y fuel = learnFitV2 env { p with lambd := l } lr' q o X Y fuel := by
  obtain ⟨e, hall⟩ := learnRun_one h env p { p with lambd := l } rfl rfl o ho X Y fuel
  unfold learnFitV2
  rw [← e, RandR.bind_eq, RandR.bind_eq]
  refine RandR.bind_congr_all hall ?_
  rintro (_ | st) hst
  · rfl
  · have hst' : st.selected.length ≤ 1 := hst
    simp only [objectiveOf_one p.lambd l _ _ hst']

theorem pickLoop_length {σ ω : Type} {S : Samplers σ ω} {obj : List BRule → BRule → Py ℝ} {pool : List BRule} :
    ∀ (n : ℕ) (sel out : List BRule), pickLoop S obj pool n sel = .ok out → out.length = sel.length + n
  | 0, sel, out, h => by cases h; rfl
  | n + 1, sel, out, h => by
    unfold pickLoop at h
    simp only [bind, Except.bind] at h
    split at h
    · cases h
    have := pickLoop_length n _ _ h
    simp at this
    omega

theorem fitTail_one {σ ω : Type} (S : Samplers σ ω) (p : Params) (l : ℝ) (st : LoopState σ) (h : st.selected.length ≤ 1) :
    fitTail S p st = fitTail S { p with lambd := l } st := by
  have hpick : pickLoop S (objectiveOfRule qualityOfRule p.lambd) st.pool st.selected.length [] =
      pickLoop S (objectiveOfRule qualityOfRule l) st.pool st.selected.length [] := by
    rcases Nat.le_one_iff_eq_zero_or_eq_one.mp h with h0 | h0 <;> rw [h0]
    · rfl
    · simp only [pickLoop, objective_nil p.lambd l]
  unfold fitTail fit2ndRound
  simp only
  rw [objectiveOf_one p.lambd l _ _ h, hpick]
  generalize hp : pickLoop S (objectiveOfRule qualityOfRule l) st.pool st.selected.length [] = r
  rcases r with e | sel2
  · rfl
  · have hl := pickLoop_length _ _ _ hp
    simp only [List.length_nil, zero_add] at hl
    simp only [bind, Except.bind, objectiveOf_one p.lambd l sel2 sel2 (by omega)]

/-- **C154** With a budget of one rule, `lambd` does not matter: for the same random draws `fit` of a new classifier
does the same whatever the value of `lambd`, as there is nothing the first rule could be far from. `GreedyCFTPDivMaxV2`,
`GreedyCFTPDivMaxV3` and `GreedyCFTPDivMax`, for all data, with or without the assumptions under which `fit` succeeds. -/
theorem C154_budget_one (env : LearnEnv) (p : Params) (k : ℕ) (hk : p.nMaxRules = some k) (h1 : k ≤ 1) (l : ℝ) (pf pl : ℚ)
    (X Y : Cmp) (fuel : ℕ) :
    learnFitV2 env p (learnerV2 p) qualityOfRule (LearnObj.new pf pl) X Y fuel =
      learnFitV2 env { p with lambd := l } (learnerV2 { p with lambd := l }) qualityOfRule (LearnObj.new pf pl) X Y fuel ∧
    learnFitV2 env p (learnerV3 p) qualityOfRuleV3 (LearnObj.new pf pl) X Y fuel =
      learnFitV2 env { p with lambd := l } (learnerV3 { p with lambd := l }) qualityOfRuleV3 (LearnObj.new pf pl) X Y fuel ∧
    learnFitDivMax env p (LearnObj.new pf pl) X Y fuel =
      learnFitDivMax env { p with lambd := l } (LearnObj.new pf pl) X Y fuel := by
  refine ⟨fitV2_one (oneRule_V2 p k hk h1 l).1 env p l _ _ (Nat.zero_le _) X Y fuel,
    fitV2_one (oneRule_V2 p k hk h1 l).2 env p l _ _ (Nat.zero_le _) X Y fuel, ?_⟩
  obtain ⟨e, hall⟩ := learnRun_one (oneRule_DivMax p k hk h1 l Y) env p { p with lambd := l } rfl rfl
    (LearnObj.new pf pl) (Nat.zero_le _) X Y fuel
  unfold learnFitDivMax
  rw [← e, RandR.bind_eq, RandR.bind_eq]
  refine RandR.bind_congr_all hall ?_
  rintro (_ | st) hst
  · rfl
  · have hst' : st.selected.length ≤ 1 := hst
    simp only [fitTail_one env.secondRound p l st hst']

/-! ### The two rounds -/

/-- **C154** Which of its two rounds `GreedyCFTPDivMax.fit` keeps depends on `lambd` only through its sign: for positive
`lambd` the first round if it is strictly more diverse, for `lambd = 0` always the second, for negative `lambd` the first
if it is strictly less diverse. The divergence of the rules never matters here. -/
theorem C154_rounds (env : LearnEnv) (he : env.Good) (X Y : Cmp) (hD : LearnData env X Y) (pf pl : ℚ) (p : Params)
    (ht : 0 < p.nTails) (hh : 0 < p.nHeads) (fuel : ℕ) (o : LearnObj) (res : FitResult)
    (hx : (learnFitDivMax env p (LearnObj.new pf pl) X Y fuel).Outcome (.ok (some (o, res)))) :
    (0 < p.lambd → o.selected = if diversity res.round2 < diversity res.round1 then res.round1 else res.round2) ∧
    (p.lambd = 0 → o.selected = res.round2) ∧
    (p.lambd < 0 → o.selected = if diversity res.round1 < diversity res.round2 then res.round1 else res.round2) := by
  rcases C70_divmax_outcomes env he X Y hD pf pl p ht hh fuel _ hx with h | ⟨o', res', e, hsel, hsup, -⟩ | h | ⟨h, -⟩ | ⟨h, -⟩
  · cases h
  · cases e
    have hX := hD.rows
    have hfit : ∃ st : LearnState, fitTail env.secondRound p st = .ok res := by
      unfold learnFitDivMax at hx
      rw [RandR.bind_eq, RandR.outcome_bind] at hx
      rcases hx with ⟨a, -, ha⟩ | ⟨e, -, ha⟩
      · rcases a with _ | st
        · cases ha
        · refine ⟨st, ?_⟩
          have ha' : (RandR.lift (fitTail env.secondRound p st) >>= fun r =>
            (pure (some ({ (LearnObj.new pf pl).after st with selected := r.selected }, r)) :
              RandR (Option (LearnObj × FitResult)))).Outcome (.ok (some (o, res))) := ha
          rcases hf : fitTail env.secondRound p st with e | r
          · rw [hf] at ha'; cases ha'
          · rw [hf] at ha'; cases ha'; rfl
      · cases ha
    obtain ⟨st, hst⟩ := hfit
    unfold fitTail at hst
    simp only [bind, Except.bind] at hst
    split at hst
    · cases hst
    rename_i o1 h1
    split at hst
    · cases hst
    rename_i r2 h2
    cases hst
    unfold fit2ndRound at h2
    simp only [bind, Except.bind] at h2
    split at h2
    · cases h2
    split at h2
    · cases h2
    rename_i sel2 h3
    split at h2
    · cases h2
    rename_i o2 h4
    cases h2
    have hb1 : ∀ b ∈ st.selected, BoundTo X Y b := fun b hb => (hsup b (by simp [hb])).1
    have hb2 : ∀ b ∈ sel2, BoundTo X Y b := fun b hb => (hsup b (by simp [hb])).1
    have e1 := (C26_objective_only_diversity X Y hX p.lambd st.selected hb1 o1).1 h1
    have e2 := (C26_objective_only_diversity X Y hX p.lambd sel2 hb2 o2).1 h4
    simp only at hsel
    rw [hsel, e1, e2]
    refine ⟨fun h => ?_, fun h => ?_, fun h => ?_⟩
    · simp only [gt_iff_lt, mul_lt_mul_iff_right₀ h]
    · simp [h]
    · simp only [gt_iff_lt, mul_lt_mul_left_of_neg h]
  · cases h
  · cases h
  · cases h

/-! ### The hypotheses can be met -/

theorem trainRules_supported : ∀ b ∈ trainRules, Supported trainX trainY b := by
  intro b hb
  refine ⟨trainRules_bound b hb, ?_⟩
  simp only [trainRules, List.mem_cons, List.not_mem_nil, or_false] at hb
  rcases hb with rfl | rfl <;> refine ⟨3, Finset.mem_filter.mpr ⟨by decide, fun c hc => ?_, fun c hc => ?_⟩⟩ <;>
    simp only [Rule.mem_new_head, Rule.mem_new_tail, List.mem_cons, List.not_mem_nil, or_false] at hc
  · subst hc; decide
  · subst hc; decide
  · rcases hc with rfl | rfl <;> decide
  · rcases hc with rfl | rfl <;> decide

/-- With the first of the two example rules selected, both weights choose from the two rules. -/
example (l1 l2 : ℝ) (hlt : l1 < l2) : ∃ b1 b2,
    selectBest demoSamplers (objectiveOfRule qualityOfRule l1 (trainRules.take 1)) trainRules = .ok b1 ∧
    selectBest demoSamplers (objectiveOfRule qualityOfRule l2 (trainRules.take 1)) trainRules = .ok b2 ∧
    distTo b1 (trainRules.take 1) ≤ distTo b2 (trainRules.take 1) := by
  have hn : trainX.nMajor = trainY.nMajor := rfl
  have hs : ∀ b ∈ trainRules.take 1, Supported trainX trainY b :=
    fun b hb => trainRules_supported b (List.mem_of_mem_take hb)
  have hex : ∀ l : ℝ, ∃ b,
      selectBest demoSamplers (objectiveOfRule qualityOfRule l (trainRules.take 1)) trainRules = .ok b := fun l =>
    (C21_select_best demoSamplers _ trainRules).2.1 (by simp [trainRules]) fun c hc =>
      objective_total train_data.features.toWF train_data.labels.toWF hn (fun sel b hb => (quality_total hn sel b hb).1)
        l _ c hs (trainRules_supported c hc)
  obtain ⟨b1, h1⟩ := hex l1
  obtain ⟨b2, h2⟩ := hex l2
  exact ⟨b1, b2, h1, h2, ((C154_choice trainX trainY hn _ trainRules (fun b hb => (hs b hb).1) trainRules_bound
    demoSamplers demoSamplers l1 l2 hlt b1 b2).1 h1 h2).1⟩

/-- The identity data: `GreedyCFTPDivMax.fit` with tolerance 0 returns, so the claim on its rounds says something. -/
theorem eye_divmax_returns (pf pl : ℚ) (l : ℝ) : ∃ o res,
    (learnFitDivMax (someLearnEnv 10) { lambd := l, nTails := 2, nHeads := 2, nMaxRules := none, tolerance := 0 }
      (LearnObj.new pf pl) eyeData eyeData ((labelCells eyeData).card + 1)).Outcome (.ok (some (o, res))) ∧
    (l = 0 → o.selected = res.round2) := by
  have he := someLearnEnv_good 10
  obtain ⟨h1, h2, h3⟩ := eye_clean pl
  obtain ⟨x, hx⟩ := (learnFitDivMax_proper (someLearnEnv 10)
    { lambd := l, nTails := 2, nHeads := 2, nMaxRules := none, tolerance := 0 } (LearnObj.new pf pl) eyeData eyeData
    ((labelCells eyeData).card + 1)).exists_outcome
  rcases C70_divmax_outcomes (someLearnEnv 10) he eyeData eyeData eye_data pf pl _ two_pos two_pos _ _ hx with
    e | ⟨o, res, e, -⟩ | e | ⟨-, e⟩ | ⟨-, e⟩
  · exfalso
    rw [e] at hx
    unfold learnFitDivMax at hx
    rw [RandR.bind_eq, RandR.outcome_bind] at hx
    rcases hx with ⟨a, ha, hx⟩ | ⟨e, -, hx⟩
    · rcases a with _ | st
      · exact (C22_end_to_end (someLearnEnv 10) he eyeData eyeData eye_data pf pl _ rfl le_rfl _ le_rfl _ ha).1 rfl
      · have hx' : (RandR.lift (fitTail (someLearnEnv 10).secondRound
            { lambd := l, nTails := 2, nHeads := 2, nMaxRules := none, tolerance := 0 } st) >>= fun r =>
            (pure (some ({ (LearnObj.new pf pl).after st with selected := r.selected }, r)) :
              RandR (Option (LearnObj × FitResult)))).Outcome (.ok none) := hx
        rcases hf : fitTail (someLearnEnv 10).secondRound
            { lambd := l, nTails := 2, nHeads := 2, nMaxRules := none, tolerance := 0 } st with e | r
        · rw [hf] at hx'; cases hx'
        · rw [hf] at hx'; cases hx'
    · cases hx
  · rw [e] at hx
    exact ⟨o, res, hx, (C154_rounds (someLearnEnv 10) he eyeData eyeData eye_data pf pl _ two_pos two_pos _ o res
      hx).2.1⟩
  · rw [e] at hx
    exact absurd ((C83_divmax_type_error_iff (someLearnEnv 10) he eyeData eyeData eye_data pf pl _ two_pos two_pos _
      (by omega)).mp hx) (by tauto)
  · exact absurd e h3
  · have : ((0 : ℕ), (0 : ℤ)) ∈ labelCells eyeData := (mem_labelCells eye_data.labels.toWF _).mpr ⟨le_rfl, eye_stored.mpr ⟨by omega, rfl⟩⟩
    rw [e] at this
    simp at this

end Verif
