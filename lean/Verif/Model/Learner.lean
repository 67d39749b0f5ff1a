/-
The learners with their real samplers: `GreedyCFTPDivMax`, `GreedyCFTPDivMaxV2`, `GreedyCFTPDivMaxV3`
(`corset/greedy/diversity_maximization.py:209-234`, `divmax_v2.py:92-116`, `divmax_v3.py:16-40`), that is
the loops of `Verif.Model.Greedy` with `UncoveredAreaSampler` for tails and `CFTPDiscriminativitySampler`
for heads, as random programs.
-/
import Verif.Model.Head
import Verif.Model.Uncovered
import Verif.Model.Greedy

namespace Verif

/-- A program with finite draws seen as a program that may also draw real numbers. -/
noncomputable def Rand.toReal {α : Type} : Rand α → RandR α
  | .done r => .done r
  | .choice p k => .choice (p.map fun q : ℚ => (q : ℝ)) fun i => (k i).toReal

/-- `try`: the result or the exception as a value. -/
def RandR.attempt {α : Type} : RandR α → RandR (Py α)
  | .done r => .done (.ok r)
  | .choice p k => .choice p fun i => (k i).attempt
  | .unif k => .unif fun u => (k u).attempt

/-- What the learner's iteration orders and library calls depend on: as for the head sampler, and the
orders in which sets of integers and sets of rules are traversed. -/
structure LearnEnv extends HeadEnv where
  orderZ : Finset ℤ → List ℤ
  setOrder : List BRule → List BRule
  setOrder_perm : ∀ l, (setOrder l).Perm l

/-- `UncoveredAreaSampler.fit(Y)` (`corset/samplers/uncovered_area.py:146-152`) on an object whose
`update_history` is `history` (`[]` for a new one). The sample space and the assignment are built by the
same mixins as in the head sampler; only `min_proba` and `do_prune_edges` of the record are used. -/
def tailFit (env : HeadEnv) (minProba : ℚ) (doPrune : Bool) (history : List (List ℕ × List ℤ)) (Y : Cmp) :
    Py UState := do
  let sr ← buildSpaceAndRows env (HeadSampler.init doPrune minProba true) Y
  return assignRowWeights sr.1 sr.2 history

/-- A Boolean vector as the 0/1 labels that `numpy.unique`, `> 0` and `== 0` see. -/
def labels01 (y : List Bool) : List ℤ := y.map fun b => if b then 1 else 0

/-- One step of `generate_candidate_rules` that may raise: on an exception the call ends with it, and the
head sampler is as it was before the step. -/
def orRaise {α β : Type} (r : Py α) (h : HeadSampler) (k : α → RandR (Py β × HeadSampler)) :
    RandR (Py β × HeadSampler) :=
  match r with
  | .ok a => k a
  | .error e => pure (.error e, h)

/-- The loop of `generate_candidate_rules` (`corset/greedy/base.py:23-37`), `todo` tails left: the
candidates, or the exception that ended the call, and the head sampler afterwards. -/
noncomputable def learnGen (env : LearnEnv) (X Xc Yc : Cmp) (nHeads : ℕ) (s : UState) :
    ℕ → HeadSampler → List BRule → RandR (Py (List BRule) × HeadSampler)
  | 0, h, rules => pure (.ok rules, h)
  | todo + 1, h, rules => do
    let t ← (sampleOnce s).toReal.attempt
    orRaise t h fun T =>
      orRaise (conjunctiveCollapseV2 Yc (env.orderZ T)) h fun y =>
        orRaise (headFit env.toHeadEnv h X (labels01 y)) h fun h1 => do
          let hs ← (headSample env.toHeadEnv nHeads h1).attempt
          orRaise hs h1 fun r =>
            orRaise (addHeads Xc Yc (env.orderZ T) (r.1.map (Option.map env.orderZ)) rules) r.2
              fun rules' => learnGen env X Xc Yc nHeads s todo r.2 rules'

/-- The state of a learner in its loop: tail sampler and head sampler, selected rules, candidate pool. -/
abbrev LearnState := LoopState (UState × HeadSampler)

/-- The part of an iteration after the candidates were generated (`diversity_maximization.py:122-137`,
`divmax_v2.py:68-82`): choose, test, add (`add_rule`, `corset/greedy/diversity_maximization.py:89-94`,
`corset/greedy/submod.py:53-58`). -/
noncomputable def learnChoose (env : LearnEnv) (lr : Learner) (st : LearnState) (h : HeadSampler)
    (cands : List BRule) : Py (IterResult (UState × HeadSampler)) := do
  let best ← pyMax (lr.objective st.selected) (env.setOrder cands)
  let stop ← lr.stop st.selected best
  if stop then
    return .done { sampler := (st.sampler.1, h), selected := st.selected, pool := poolUnion st.pool cands }
  else do
    let s' ← updateRowWeights st.sampler.1 (env.order best.support) (env.orderZ best.tail.toFinset)
    return .next { sampler := (s', h), selected := st.selected ++ [best],
                   pool := poolUnion st.pool cands }

/-- One iteration of the `while True` loop (`diversity_maximization.py:111-137`, `divmax_v2.py:58-82`). -/
noncomputable def learnIter (env : LearnEnv) (p : Params) (lr : Learner) (X Xc Yc : Cmp)
    (st : LearnState) : RandR (IterResult (UState × HeadSampler)) := do
  let g ← learnGen env X Xc Yc p.nHeads st.sampler.1 p.nTails st.sampler.2 []
  match g.1 with
  | .error .noMoreSamples => pure (.done { st with sampler := (st.sampler.1, g.2) })
  | .error e => .raise e
  | .ok cands => .lift (learnChoose env lr st g.2 cands)

/-- The `while True` loop with fuel; `none` means that the fuel ran out before the loop was left. -/
noncomputable def learnLoop (env : LearnEnv) (p : Params) (lr : Learner) (X Xc Yc : Cmp) :
    ℕ → LearnState → RandR (Option LearnState)
  | 0, _ => pure none
  | fuel + 1, st => do
    let r ← learnIter env p lr X Xc Yc st
    match r with
    | .done st' => pure (some st')
    | .next st' => learnLoop env p lr X Xc Yc fuel st'

/-- A classifier object with real samplers, as far as fitting is concerned: the thresholds, the update
history of the tail sampler, the head sampler, the rules held. -/
structure LearnObj where
  minLabelProba : ℚ
  history : List (List ℕ × List ℤ)
  heads : HeadSampler
  selected : List BRule

/-- `GreedyCFTPDivMaxV2(min_feature_proba, min_label_proba, ...)` (`divmax_v2.py:92-116`), and the other
two wrapper classes. -/
def LearnObj.new (minFeatureProba minLabelProba : ℚ) : LearnObj :=
  { minLabelProba := minLabelProba, history := [], heads := HeadSampler.init true minFeatureProba true,
    selected := [] }

/-- `set_X_Y` (`corset/greedy/base.py:103-113`), `tail_sampler.fit(Y)` and the loop (`diversity_maximization.py:97-145`,
`divmax_v2.py:51-86`). -/
noncomputable def learnRun (env : LearnEnv) (p : Params) (lr : Learner) (o : LearnObj) (X Y : Cmp)
    (fuel : ℕ) : RandR (Option LearnState) := do
  let s ← .lift (tailFit env.toHeadEnv o.minLabelProba true o.history Y)
  learnLoop env p lr X X.flip Y.flip fuel { sampler := (s, o.heads), selected := o.selected, pool := [] }

/-- The object after the loop. -/
def LearnObj.after (o : LearnObj) (st : LearnState) : LearnObj :=
  { o with history := st.sampler.1.history, heads := st.sampler.2, selected := st.selected }

/-- `GreedyDivMaxV2.fit` and `GreedyDivMaxV3.fit` (`divmax_v2.py:51-89`): the object afterwards and
`self.obj`. -/
noncomputable def learnFitV2 (env : LearnEnv) (p : Params) (lr : Learner)
    (quality : List BRule → BRule → Py ℝ) (o : LearnObj) (X Y : Cmp) (fuel : ℕ) :
    RandR (Option (LearnObj × ℝ)) := do
  let r ← learnRun env p lr o X Y fuel
  match r with
  | none => pure none
  | some st => do
    let obj ← .lift (objectiveOf quality p.lambd st.selected st.selected)
    return some (o.after st, obj)

/-- The set order of the environment in the form the second round of fitting takes it; that round draws
nothing and updates nothing. -/
def LearnEnv.secondRound (env : LearnEnv) : Samplers (UState × HeadSampler) Unit :=
  { tailFit := fun _ => .error .exception, tailSample := fun _ _ => .error .exception,
    tailUpdate := fun s _ _ => .ok s, headSample := fun _ _ _ _ => .error .exception,
    setOrder := env.setOrder, setOrder_perm := env.setOrder_perm }

/-- `GreedyDivMax.fit` (`corset/greedy/diversity_maximization.py:187-207`) of a `GreedyCFTPDivMax` object:
the object afterwards and what `fit` leaves on it. -/
noncomputable def learnFitDivMax (env : LearnEnv) (p : Params) (o : LearnObj) (X Y : Cmp) (fuel : ℕ) :
    RandR (Option (LearnObj × FitResult)) := do
  let r ← learnRun env p (learnerDivMax p Y) o X Y fuel
  match r with
  | none => pure none
  | some st => do
    let res ← .lift (fitTail env.secondRound p st)
    return some ({ o.after st with selected := res.selected }, res)

end Verif
