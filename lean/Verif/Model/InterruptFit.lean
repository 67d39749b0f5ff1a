/-
Model of the fitting loop (`corset/greedy/diversity_maximization.py:106-145`, `corset/greedy/divmax_v2.py:54-83`)
and of the second round (`diversity_maximization.py:148-207`) statement by statement, for fits that are interrupted
or raise: the object then keeps what the statements executed so far assigned.

Simplifications: what an interrupted `generate_candidate_rules` leaves of the head sampler is not described (any
state of it is allowed), nor is an interruption inside `tail_sampler.fit`.
-/
import Verif.Model.Interrupt
import Verif.Model.Learner

namespace Verif

/-- Where a running fitting loop is. -/
inductive LoopPc
  /-- at `while True`, `diversity_maximization.py:111`, `divmax_v2.py:58` -/
  | head
  /-- inside `generate_candidate_rules`, `diversity_maximization.py:113`, `divmax_v2.py:60` -/
  | generating
  /-- the candidates were returned, `diversity_maximization.py:115` -/
  | generated (cands : List BRule)
  /-- the candidates were added to the pool; choosing and the stopping test, `diversity_maximization.py:123-135`,
  `divmax_v2.py:68-80` -/
  | pooled (cands : List BRule)
  /-- inside `update_row_weights` in `add_rule(best)`, `diversity_maximization.py:91` -/
  | adding (best : BRule) (pc : UpdPc)
  /-- after the loop -/
  | left

/-- The points the loop passes through when it is entered with `st0`, with the object as it is then. -/
inductive LoopPoint (env : LearnEnv) (p : Params) (lr : Learner) (X Xc Yc : Cmp) (st0 : LearnState) :
    LoopPc → LearnState → Prop
  | start : LoopPoint env p lr X Xc Yc st0 .head st0
  /-- while candidates are generated only the head sampler changes -/
  | generating {st : LearnState} (h : LoopPoint env p lr X Xc Yc st0 .head st) (heads : HeadSampler) :
      LoopPoint env p lr X Xc Yc st0 .generating { st with sampler := (st.sampler.1, heads) }
  | exhausted {st : LearnState} {heads : HeadSampler} (h : LoopPoint env p lr X Xc Yc st0 .head st)
      (hg : (learnGen env X Xc Yc p.nHeads st.sampler.1 p.nTails st.sampler.2 []).Outcome
        (.ok (.error .noMoreSamples, heads))) :
      LoopPoint env p lr X Xc Yc st0 .left { st with sampler := (st.sampler.1, heads) }
  | generated {st : LearnState} {heads : HeadSampler} {cands : List BRule}
      (h : LoopPoint env p lr X Xc Yc st0 .head st)
      (hg : (learnGen env X Xc Yc p.nHeads st.sampler.1 p.nTails st.sampler.2 []).Outcome
        (.ok (.ok cands, heads))) :
      LoopPoint env p lr X Xc Yc st0 (.generated cands) { st with sampler := (st.sampler.1, heads) }
  | pooled {st : LearnState} {cands : List BRule} (h : LoopPoint env p lr X Xc Yc st0 (.generated cands) st) :
      LoopPoint env p lr X Xc Yc st0 (.pooled cands) { st with pool := poolUnion st.pool cands }
  | stopped {st : LearnState} {cands : List BRule} {best : BRule}
      (h : LoopPoint env p lr X Xc Yc st0 (.pooled cands) st)
      (hb : pyMax (lr.objective st.selected) (env.setOrder cands) = .ok best)
      (hs : lr.stop st.selected best = .ok true) : LoopPoint env p lr X Xc Yc st0 .left st
  | chosen {st : LearnState} {cands : List BRule} {best : BRule}
      (h : LoopPoint env p lr X Xc Yc st0 (.pooled cands) st)
      (hb : pyMax (lr.objective st.selected) (env.setOrder cands) = .ok best)
      (hs : lr.stop st.selected best = .ok false) :
      LoopPoint env p lr X Xc Yc st0 (.adding best (.rows (env.order best.support))) st
  | updating {st : LearnState} {best : BRule} {pc pc' : UpdPc} {s' : UState}
      (h : LoopPoint env p lr X Xc Yc st0 (.adding best pc) st)
      (hu : updStep (env.order best.support) (env.orderZ best.tail.toFinset) pc st.sampler.1 = .ok (pc', s')) :
      LoopPoint env p lr X Xc Yc st0 (.adding best pc') { st with sampler := (s', st.sampler.2) }
  | added {st : LearnState} {best : BRule} (h : LoopPoint env p lr X Xc Yc st0 (.adding best .returned) st) :
      LoopPoint env p lr X Xc Yc st0 .head { st with selected := st.selected ++ [best] }

/-- The statement at that point may raise `e`. -/
inductive LoopRaises (env : LearnEnv) (p : Params) (lr : Learner) (X Xc Yc : Cmp) :
    LoopPc → LearnState → PyErr → Prop
  | generation {st : LearnState} {e : PyErr} {heads : HeadSampler} (he : e ≠ .noMoreSamples)
      (hg : (learnGen env X Xc Yc p.nHeads st.sampler.1 p.nTails st.sampler.2 []).Outcome
        (.ok (.error e, heads))) : LoopRaises env p lr X Xc Yc .head st e
  | choosing {st : LearnState} {cands : List BRule} {e : PyErr}
      (hb : pyMax (lr.objective st.selected) (env.setOrder cands) = .error e) :
      LoopRaises env p lr X Xc Yc (.pooled cands) st e
  | stopping {st : LearnState} {cands : List BRule} {best : BRule} {e : PyErr}
      (hb : pyMax (lr.objective st.selected) (env.setOrder cands) = .ok best)
      (hs : lr.stop st.selected best = .error e) : LoopRaises env p lr X Xc Yc (.pooled cands) st e
  | updating {st : LearnState} {best : BRule} {pc : UpdPc} {e : PyErr}
      (hu : updStep (env.order best.support) (env.orderZ best.tail.toFinset) pc st.sampler.1 = .error e) :
      LoopRaises env p lr X Xc Yc (.adding best pc) st e

/-- The attributes of a `GreedyDivMax` object during the second round. -/
structure SecondObj where
  /-- `selected_rules` -/
  selected : List BRule
  /-- `selected_rules_round_1`, once assigned -/
  kept : Option (List BRule)
  /-- `obj`, once assigned -/
  obj : Option ℝ

/-- The points of `GreedyDivMax.fit` after the loop of the first round, with the first round's rules `sel1` and the
pool `pool`: `corset/greedy/diversity_maximization.py:144-184, 187-207`. The number is that of the assignment to
`selected_rules` executed last. -/
inductive SecondPoint (env : LearnEnv) (p : Params) (sel1 pool : List BRule) : ℕ → SecondObj → Prop
  | start : SecondPoint env p sel1 pool 0 { selected := sel1, kept := none, obj := none }
  | copied {o : SecondObj} (h : SecondPoint env p sel1 pool 0 o) {v : ℝ}
      (hv : objectiveOf qualityOfRule p.lambd sel1 sel1 = .ok v) :
      SecondPoint env p sel1 pool 0 { o with kept := some sel1 }
  | cleared {o : SecondObj} (h : SecondPoint env p sel1 pool 0 o) (hk : o.kept = some sel1) :
      SecondPoint env p sel1 pool 1 { o with selected := [] }
  | picked {i : ℕ} {o : SecondObj} {best : BRule} (h : SecondPoint env p sel1 pool (i + 1) o)
      (hp : pool ≠ []) (hi : i < sel1.length)
      (hb : pyMax (objectiveOfRule qualityOfRule p.lambd o.selected) (env.setOrder pool) = .ok best) :
      SecondPoint env p sel1 pool (i + 2) { o with selected := o.selected ++ [best] }
  | finished {o : SecondObj} {v1 v2 : ℝ} (h : SecondPoint env p sel1 pool (sel1.length + 1) o) (hp : pool ≠ [])
      (h1 : objectiveOf qualityOfRule p.lambd sel1 sel1 = .ok v1)
      (h2 : objectiveOf qualityOfRule p.lambd o.selected o.selected = .ok v2) :
      SecondPoint env p sel1 pool (sel1.length + 2)
        { selected := if v1 > v2 then sel1 else o.selected, kept := some sel1, obj := some (min v1 v2) }

end Verif
