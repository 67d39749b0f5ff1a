/-
The learners with both samplers in double precision.

`Model/Learner.lean` runs the loops of the learners with exact samplers. Here the tail sampler is the one of
`Model/Float.lean` and the head sampler the one of `Model/FloatCftp.lean`, fed with independent numbers of 53 bits.
The rules are chosen by any learner; `Model/FloatObjective.lean` has the learners whose objective is computed in
doubles. The sample spaces are those of exact arithmetic; theorem C130 says when doubles give the same ones.
-/
import Verif.Model.FloatCftp
import Verif.Model.FloatObjective
import Verif.Model.Learner

namespace Verif

/-- The next 53 bits of numpy's generator. -/
noncomputable def nextBits : RandR ℕ := pyChoiceIdx (2 ^ 53)

/-- `n` independent numbers below `M`. -/
noncomputable def drawNumbers (M : ℕ) : ℕ → RandR (List ℕ)
  | 0 => pure []
  | n + 1 => do
    let k ← pyChoiceIdx M
    let ks ← drawNumbers M n
    return k :: ks

/-- `ReducedSpaceSampler.sample_once`, `corset/samplers/surs.py:36-42`, in doubles, as a random program. Simplification:
the second number is drawn also when the call then raises without using it. -/
noncomputable def tailOnceF (S : Summation) (st : UState) : RandR (Finset ℤ) := do
  let k₁ ← nextBits
  let row ← .lift (choiceF (rowProbasF S st.weights) k₁)
  let k₂ ← nextBits
  .lift (sampleItemsetF S st row k₂)

/-- `sample_once()`, `corset/samplers/discrim.py:136-163`, in doubles, as a random program. Simplification: all 3072
numbers that the call may need are drawn at once; those it leaves over are independent of everything else, so that
later draws have the same law as if they used them. -/
noncomputable def headOnceF (env : HeadEnv) (s : HeadSampler) : RandR (Option (Finset ℤ) × HeadSampler) := do
  let ω ← drawNumbers (2 ^ 53) 3072
  headSampleOnceF env s ω

/-- `sample(k)`, `corset/samplers/discrim.py:165-169`, in doubles. -/
noncomputable def headSampleF (env : HeadEnv) : ℕ → HeadSampler → RandR (List (Option (Finset ℤ)) × HeadSampler)
  | 0, s => pure ([], s)
  | k + 1, s => do
    let r ← headOnceF env s
    let rest ← headSampleF env k r.2
    return (r.1 :: rest.1, rest.2)

/-- The loop of `generate_candidate_rules`, `corset/greedy/base.py:23-37`, with samplers in doubles. -/
noncomputable def learnGenF (S : Summation) (env : LearnEnv) (X Xc Yc : Cmp) (nHeads : ℕ) (s : UState) :
    ℕ → HeadSampler → List BRule → RandR (Py (List BRule) × HeadSampler)
  | 0, h, rules => pure (.ok rules, h)
  | todo + 1, h, rules => do
    let t ← (tailOnceF S s).attempt
    orRaise t h fun T =>
      orRaise (conjunctiveCollapseV2 Yc (env.orderZ T)) h fun y =>
        orRaise (headFit env.toHeadEnv h X (labels01 y)) h fun h1 => do
          let hs ← (headSampleF env.toHeadEnv nHeads h1).attempt
          orRaise hs h1 fun r =>
            orRaise (addHeads Xc Yc (env.orderZ T) (r.1.map (Option.map env.orderZ)) rules) r.2
              fun rules' => learnGenF S env X Xc Yc nHeads s todo r.2 rules'

/-- One iteration of the `while True` loop (`diversity_maximization.py:111-137`, `divmax_v2.py:58-82`), with samplers
in doubles. -/
noncomputable def learnIterF (S : Summation) (env : LearnEnv) (p : Params) (lr : Learner) (X Xc Yc : Cmp)
    (st : LearnState) : RandR (IterResult (UState × HeadSampler)) := do
  let g ← learnGenF S env X Xc Yc p.nHeads st.sampler.1 p.nTails st.sampler.2 []
  match g.1 with
  | .error .noMoreSamples => pure (.done { st with sampler := (st.sampler.1, g.2) })
  | .error e => .raise e
  | .ok cands => .lift (learnChoose env lr st g.2 cands)

/-- The `while True` loop with fuel, with samplers in doubles. -/
noncomputable def learnLoopF (S : Summation) (env : LearnEnv) (p : Params) (lr : Learner) (X Xc Yc : Cmp) :
    ℕ → LearnState → RandR (Option LearnState)
  | 0, _ => pure none
  | fuel + 1, st => do
    let r ← learnIterF S env p lr X Xc Yc st
    match r with
    | .done st' => pure (some st')
    | .next st' => learnLoopF S env p lr X Xc Yc fuel st'

/-- `set_X_Y`, `tail_sampler.fit(Y)` and the loop (`diversity_maximization.py:97-145`, `divmax_v2.py:51-86`), with samplers
in doubles. -/
noncomputable def learnRunF (S : Summation) (env : LearnEnv) (p : Params) (lr : Learner) (o : LearnObj) (X Y : Cmp)
    (fuel : ℕ) : RandR (Option LearnState) := do
  let s ← .lift (tailFit env.toHeadEnv o.minLabelProba true o.history Y)
  learnLoopF S env p lr X X.flip Y.flip fuel { sampler := (s, o.heads), selected := o.selected, pool := [] }

/-- `GreedyDivMaxV2.fit` and `GreedyDivMaxV3.fit` (`divmax_v2.py:51-89`) with samplers in doubles. Simplification: the
objective that `fit` reports for the rules found is computed exactly. -/
noncomputable def learnFitV2F (S : Summation) (env : LearnEnv) (p : Params) (lr : Learner)
    (quality : List BRule → BRule → Py ℝ) (o : LearnObj) (X Y : Cmp) (fuel : ℕ) :
    RandR (Option (LearnObj × ℝ)) := do
  let r ← learnRunF S env p lr o X Y fuel
  match r with
  | none => pure none
  | some st => do
    let obj ← .lift (objectiveOf quality p.lambd st.selected st.selected)
    return some (o.after st, obj)

/-- `GreedyDivMax.fit` (`corset/greedy/diversity_maximization.py:187-207`) with samplers in doubles. Simplification: the
second round, which draws nothing, is the exact one. -/
noncomputable def learnFitDivMaxF (S : Summation) (env : LearnEnv) (p : Params) (lr : Learner) (o : LearnObj)
    (X Y : Cmp) (fuel : ℕ) : RandR (Option (LearnObj × FitResult)) := do
  let r ← learnRunF S env p lr o X Y fuel
  match r with
  | none => pure none
  | some st => do
    let res ← .lift (fitTail env.secondRound p st)
    return some ({ o.after st with selected := res.selected }, res)

end Verif
