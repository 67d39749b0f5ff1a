/-
Coupling from the past in double precision.

`Model/Cftp.lean` and `Model/Head.lean` compute the coupling of the head sampler with exact numbers and exact
uniform variates. This file models the same methods in IEEE 754 binary64 arithmetic (`Model/Float.lean`), for the
proposal distribution `'tight'`, whose weights are Python integers. The generator's outputs are a list of 53-bit
numbers that the methods consume from the front.
-/
import Verif.Model.Float
import Verif.Model.Head

namespace Verif

/-- `numpy.random.choice(items, size=len(ks), p=p)` when the generator's next variates are `k / 2⁵³` for `k` in
`ks`. numpy checks the probabilities once and narrows each binary search by the one before; the indices are the
same. -/
noncomputable def choicesF (items : List ℕ) (p : List ℝ) (ks : List ℕ) : Py (List ℕ) :=
  ks.mapM fun k => do
    let i ← choiceF p k
    pyGet items i

namespace Cftp

/-- `self.pos_proba`, `corset/samplers/cftp.py:31`: a quotient of two integer arrays, converted to doubles. The
integer sum is exact. -/
noncomputable def posProbaF (c : Cftp) : List ℝ := c.posWeights.map fun w => fl (fl w / fl c.posWeights.sum)

/-- `self.neg_proba`, `corset/samplers/cftp.py:32`. -/
noncomputable def negProbaF (c : Cftp) : List ℝ := c.negWeights.map fun w => fl (fl w / fl c.negWeights.sum)

/-- `add_data`, `corset/samplers/cftp.py:36-77`, in doubles. The result is the new lists and what is left of the
generator's outputs. `numpy.random.uniform(0, 1, n)` is `0.0 + 1.0 * u` for the variates `u`, without rounding. -/
noncomputable def addDataF (c : Cftp) (nIters : ℕ) (s : CftpState) (ω : List ℕ) : Py (CftpState × List ℕ) :=
  if nIters = 0 then .error .valueError
  else if nIters < s.us.length then .error .valueError
  else do
    let us := (ω.take (nIters - s.us.length)).map fun k : ℕ => (k : ℝ) / 2 ^ 53
    let ω₁ := ω.drop (nIters - s.us.length)
    let ps ← choicesF c.posList c.posProbaF (ω₁.take (nIters - s.us.length))
    let ω₂ := ω₁.drop (nIters - s.us.length)
    let ns ← choicesF c.negList c.negProbaF (ω₂.take (nIters - s.us.length))
    let s' ← checkLengths nIters { us := us ++ s.us, ps := ps ++ s.ps, ns := ns ++ s.ns }
    return (s', ω₂.drop (nIters - s.us.length))

/-- The ratio `(W_C * W_D_bar) / (W_C_bar * W_D)`, `corset/samplers/cftp.py:106`, in doubles. While `D` is `None`,
`W_D_bar` and `W_D` are floats, so the two integers are converted and every operation rounds. Afterwards all four
are integers: the products are exact and the quotient is the double nearest to the exact one. -/
noncomputable def ratioF (s : Chain) (wC wCBar : ℝ) : ℝ :=
  match s.D with
  | none => fl (fl (fl wC * s.wDBar) / fl (fl wCBar * s.wD))
  | some _ => fl ((wC * s.wDBar) / (wCBar * s.wD))

open Classical in
/-- One iteration of the loop `corset/samplers/cftp.py:96-127` in doubles. -/
noncomputable def stepF (c : Cftp) (s : Chain) (d : ℕ × ℕ × ℝ) : Py Chain :=
  let wCBar := c.wPos d.1 * c.wNeg d.2.1
  let wC := c.W d.1 d.2.1
  if wCBar * s.wD = 0 then .error .zeroDivisionError
  else if d.2.2 < ratioF s wC wCBar then
    .ok { D := some (d.1, d.2.1), wD := wC, wDBar := wCBar }
  else .ok s

/-- `simulate_backwards(return_history=False)`, `corset/samplers/cftp.py:84-132`, in doubles. -/
noncomputable def simulateF (c : Cftp) (s : CftpState) : Py (Option (ℕ × ℕ)) := do
  let r ← (CftpState.draws s).foldlM c.stepF start
  return r.D

open Classical in
/-- The loop of `sample`, `corset/samplers/cftp.py:141-160`, in doubles. -/
noncomputable def sampleLoopF (c : Cftp) (i : ℕ) (s : CftpState) (ω : List ℕ) :
    Py (Option (ℕ × ℕ) × CftpState) :=
  if 2 ^ i > c.maxIters then .ok (none, reset)
  else if c.posWeights.sum = 0 ∨ c.negWeights.sum = 0 then .ok (none, s)
  else do
    let r ← c.addDataF (2 ^ i) s ω
    let D ← c.simulateF r.1
    match D with
    | some pr => .ok (some pr, reset)
    | none => c.sampleLoopF (i + 1) r.1 r.2
termination_by c.maxIters - i
decreasing_by
  have : i < 2 ^ i := Nat.lt_two_pow_self
  omega

/-- `sample`, `corset/samplers/cftp.py:134-171` (without details), in doubles. -/
noncomputable def sampleF (c : Cftp) (s : CftpState) (ω : List ℕ) : Py (Option (ℕ × ℕ) × CftpState) :=
  c.sampleLoopF 0 s ω

end Cftp

/-- `sample_once(return_sample_index=True)`, `corset/samplers/discrim.py:136-163`, in doubles: numpy's generator
gives the numbers `ω`. The final `random.choice` uses Python's generator, which draws an index without
arithmetic on doubles, so it stays a draw with equal probabilities. -/
noncomputable def headSampleIdxF (order : Finset ℕ → List ℕ) (c : Cftp) (rows : List (List ℕ))
    (st : CftpState) (ω : List ℕ) : RandR (Option ℕ × CftpState) := do
  let r ← .lift (c.sampleF st ω)
  match r.1 with
  | none => pure (none, r.2)
  | some pr => do
    let id ← choosePattern order rows pr
    return (some id, r.2)

/-- `sample_once()`, `corset/samplers/discrim.py:136-163`, on a fitted sampler, in doubles. -/
noncomputable def headSampleOnceF (env : HeadEnv) (s : HeadSampler) (ω : List ℕ) :
    RandR (Option (Finset ℤ) × HeadSampler) :=
  match s.cftp, s.newRows, s.space with
  | some c, some rows, some space => do
    let r ← headSampleIdxF env.order c rows s.lists ω
    match r.1 with
    | none => pure (none, { s with lists := r.2 })
    | some id => do
      let T ← .lift (pyGet space id)
      return (some T, { s with lists := r.2 })
  | _, _, _ => .raise .attributeError

end Verif
