/-
`corset/greedy/*.py`: candidate generation, greedy selection loops, prediction, pickling.
-/
import Verif.Model.Rule
import Mathlib.Analysis.Real.Sqrt

namespace Verif

/-! ### Shared base class -/

/-- Writing 0 at one cell of the copied label matrix (`corset/greedy/base.py:81`): Python index
normalisation on both axes, `IndexError` outside. The copy is a dense function. -/
def zeroCell (n L : ℕ) (Y : ℕ → ℕ → ℤ) (c : ℕ × ℤ) : Py (ℕ → ℕ → ℤ) :=
  match pyIndex n c.1, pyIndex L c.2 with
  | some i, some j => .ok (fun a b => if a = i ∧ b = j then 0 else Y a b)
  | _, _ => .error .indexError

/-- `product(row_ids, col_ids)` (`corset/greedy/base.py:78-80`), rows in increasing order. -/
def cellsOf (r : BRule) : List (ℕ × ℤ) := (r.support.sort (· ≤ ·)).product r.tail

/-- The value stored at a cell of a CSR matrix. -/
def csrCell (Y : Cmp) (i j : ℕ) : ℤ := (((Y.entries i).filter (fun e => e.1 = j)).map Prod.snd).sum

/-- `GreedyBase.coverage_ratio` (`corset/greedy/base.py:71-84`) on the CSR label matrix. For a label
matrix without any entry numpy would return `nan`; the model reports `ZeroDivisionError`. -/
def coverageRatio (Y : Cmp) (selected : List BRule) : Py ℚ := do
  let Z ← (selected.flatMap cellsOf).foldlM (zeroCell Y.nMajor Y.nMinor) (csrCell Y)
  let total := ((List.range Y.nMajor).map fun i => ((List.range Y.nMinor).map fun j => Z i j).sum).sum
  let q ← pyDiv total Y.nnz
  return 1 - q

/-- `GreedyBase.marginal_coverage_ratio` (`corset/greedy/base.py:86-95`). The check for a negative
count is unreachable. -/
def marginalCoverageRatio (Y : Cmp) (selected : List BRule) (r : BRule) : Py ℚ :=
  pyDiv (r.marginalCoverage selected) Y.nnz

/-- `set(rule.head).issubset(features)` (`corset/greedy/base.py:128`). -/
def headFires (head : List ℤ) (features : Finset ℕ) : Bool :=
  head.all fun h => decide (0 ≤ h) && decide (h.toNat ∈ features)

/-- `for pred_label in rule.tail: ret[i, pred_label] = 1` on a `lil_matrix` row
(`corset/greedy/base.py:129-130`). -/
def writeTail (L : ℕ) (row : Finset ℕ) : List ℤ → Py (Finset ℕ)
  | [] => .ok row
  | l :: rest =>
    match pyIndex L l with
    | some j => writeTail L (insert j row) rest
    | none => .error .indexError

/-- The rule loop of `predict` for one row (`corset/greedy/base.py:127-130`). -/
def predictRow (L : ℕ) (rules : List Rule) (features : Finset ℕ) : Py (Finset ℕ) :=
  rules.foldlM (fun row r => if headFires r.head features then writeTail L row r.tail else .ok row) ∅

/-- `GreedyBase.predict` (`corset/greedy/base.py:115-131`) on a CSR matrix. Before `fit`,
`num_labels` is `None` and building the result matrix raises `TypeError`. -/
def predict (rules : List Rule) (numLabels : Option ℕ) (X : Cmp) : Py Cmp := do
  match numLabels with
  | none => .error .typeError
  | some L =>
    let rows ← (convertMatrixToSetsV2 X).mapM (predictRow L rules)
    return Cmp.ofLines L (rows.map fun s => (s.sort (· ≤ ·)).map fun j => (j, 1))

/-- The attributes of a fitted classifier that survive pickling: constructor parameters (by name, in
the instance dictionary), rules and sizes (`corset/greedy/base.py:40-69`). -/
structure Clf (V : Type) where
  attrs : String → Option V
  selected : List Rule
  numLabels : Option ℕ
  numFeatures : Option ℕ

/-- The dictionary built by `__getstate__` (`corset/greedy/base.py:151-157`); rules are pickled by
`Rule.__getstate__`. -/
structure ClfPickle (V : Type) where
  params : List (String × V)
  rules : List (List ℤ × List ℤ)
  numLabels : Option ℕ
  numFeatures : Option ℕ

/-- sklearn `get_params`: `getattr` for every constructor parameter name. -/
def getParams {V : Type} (names : List String) (attrs : String → Option V) : Py (List (String × V)) :=
  names.mapM fun n => match attrs n with
    | some v => .ok (n, v)
    | none => .error .attributeError

/-- `GreedyBase.__getstate__` (`corset/greedy/base.py:151-157`). -/
def Clf.getState {V : Type} (names : List String) (c : Clf V) : Py (ClfPickle V) := do
  let params ← getParams names c.attrs
  return { params := params, rules := c.selected.map fun r => (r.head, r.tail),
           numLabels := c.numLabels, numFeatures := c.numFeatures }

/-- `self.__dict__.update(params)`. -/
def updateDict {V : Type} (params : List (String × V)) (attrs : String → Option V) :
    String → Option V :=
  params.foldl (fun d kv => fun k => if k = kv.1 then some kv.2 else d k) attrs

/-- `GreedyBase.__setstate__` (`corset/greedy/base.py:139-149`), applied to a new object with an
empty instance dictionary. -/
def Clf.setState {V : Type} (d : ClfPickle V) : Clf V :=
  { attrs := updateDict d.params (fun _ => none),
    selected := d.rules.map Rule.setState,
    numLabels := d.numLabels, numFeatures := d.numFeatures }

/-! ### Candidate generation -/

/-- The constructor parameters that influence fitting
(`corset/greedy/diversity_maximization.py:14-42`, `divmax_v2.py:12-33`, `submod.py:12-37`). -/
structure Params where
  lambd : ℝ
  nTails : ℕ
  nHeads : ℕ
  nMaxRules : Option ℕ
  tolerance : ℚ

/-- The head and tail samplers seen by the learner, for arbitrary implementations. `σ` is the state of
the tail sampler, `ω` whatever randomness one sampling call consumes. `headSample` stands for
`head_sampler.fit(X, y); head_sampler.sample(n)`; a `none` in its result is the `None` that
`CFTPDiscriminativitySampler.sample_once` returns when it gives up. `setOrder` is the unspecified
iteration order of a Python set of rules. -/
structure Samplers (σ ω : Type) where
  tailFit : Cmp → Py σ
  tailSample : σ → ω → Py (List ℤ)
  tailUpdate : σ → Finset ℕ → Finset ℤ → Py σ
  headSample : Cmp → List Bool → ω → ℕ → Py (List (Option (List ℤ)))
  setOrder : List BRule → List BRule
  setOrder_perm : ∀ l, (setOrder l).Perm l

/-- The inner loop over sampled heads (`corset/greedy/base.py:31-36`). `Rule(None, tail)` raises
`TypeError`. A set of rules is a list without two equal rules. -/
def addHeads (Xc Yc : Cmp) (tail : List ℤ) : List (Option (List ℤ)) → List BRule → Py (List BRule)
  | [], rules => .ok rules
  | none :: _, _ => .error .typeError
  | some h :: rest, rules =>
    let rule := Rule.new h tail
    if rules.any (fun b => b.toRule.eq rule) then addHeads Xc Yc tail rest rules
    else do
      let b ← bindDataset rule Xc Yc
      addHeads Xc Yc tail rest (rules ++ [b])

/-- The outer loop over tails (`corset/greedy/base.py:23-36`), `todo` iterations left. -/
def genLoop {σ ω : Type} (S : Samplers σ ω) (X Xc Yc : Cmp) (nHeads : ℕ) (s : σ) (ws : ℕ → ω) :
    (todo t : ℕ) → List BRule → Py (List BRule)
  | 0, _, rules => .ok rules
  | todo + 1, t, rules => do
    let tail ← S.tailSample s (ws t)
    let y ← conjunctiveCollapseV2 Yc tail
    let heads ← S.headSample X y (ws t) nHeads
    let rules ← addHeads Xc Yc tail heads rules
    genLoop S X Xc Yc nHeads s ws todo (t + 1) rules

/-- `RuleSampler.generate_candidate_rules` (`corset/greedy/base.py:20-37`). Sampling a tail does not
change the tail sampler's state. -/
def generateCandidates {σ ω : Type} (S : Samplers σ ω) (p : Params) (X Xc Yc : Cmp) (s : σ)
    (ws : ℕ → ω) : Py (List BRule) :=
  genLoop S X Xc Yc p.nHeads s ws p.nTails 0 []

/-! ### Objectives and stopping tests -/

/-- Python's `sum` of a generator whose terms may raise. -/
noncomputable def pySum {α : Type} (f : α → Py ℝ) (l : List α) : Py ℝ :=
  l.foldlM (fun acc x => do let y ← f x; return acc + y) 0

/-- `rule.KL()` as a real number. (Property C12 shows that the value is finite.) -/
noncomputable def BRule.klReal (r : BRule) : Py ℝ := do
  let k ← r.KL
  return k.toReal

/-- `GreedyDivMax.quality_of_rule` (`corset/greedy/diversity_maximization.py:73-78`). -/
noncomputable def qualityOfRule (selected : List BRule) (r : BRule) : Py ℝ := do
  let kl ← r.klReal
  return (r.marginalCoverage selected : ℝ) * kl

/-- `GreedyDivMaxV3.quality_of_rule` (`corset/greedy/divmax_v3.py:10-13`). -/
noncomputable def qualityOfRuleV3 (selected : List BRule) (r : BRule) : Py ℝ := do
  let kl ← r.klReal
  return Real.sqrt (r.marginalCoverage selected : ℝ) * kl

/-- `jaccard_distance` as a real number. -/
noncomputable def distReal (r1 r2 : BRule) : Py ℝ := do
  let d ← jaccardDistance r1 r2
  return (d : ℝ)

/-- `GreedyDivMax.diversity_of_rule` (`corset/greedy/diversity_maximization.py:80-81`). -/
noncomputable def diversityOfRule (selected : List BRule) (r : BRule) : Py ℝ :=
  pySum (fun other => distReal r other) selected

/-- `GreedyDivMax.objective_of_rule` (`corset/greedy/diversity_maximization.py:84-87`), generic in the
quality function so that it also covers `GreedyDivMaxV3`. -/
noncomputable def objectiveOfRule (quality : List BRule → BRule → Py ℝ) (lambd : ℝ)
    (selected : List BRule) (r : BRule) : Py ℝ := do
  let q ← quality selected r
  let d ← diversityOfRule selected r
  return q + lambd * d

/-- `GreedySubmod.objective_of_rule` (`corset/greedy/submod.py:48-51`). -/
noncomputable def objectiveSubmod (lambd : ℝ) (selected : List BRule) (r : BRule) : Py ℝ := do
  let mc := r.marginalCoverage selected
  let mul : ℝ := if mc > 0 then 1 else 0
  let kl ← r.klReal
  return mul * kl + lambd * mc

/-- `itertools.combinations(rules, 2)`. -/
def pairs {α : Type} : List α → List (α × α)
  | [] => []
  | a :: l => l.map (fun b => (a, b)) ++ pairs l

/-- `GreedyDivMax.objective` (`corset/greedy/diversity_maximization.py:96-100`): the quality of each
rule is computed with respect to `self.selected_rules`. -/
noncomputable def objectiveOf (quality : List BRule → BRule → Py ℝ) (lambd : ℝ)
    (selected rules : List BRule) : Py ℝ := do
  let q ← pySum (quality selected) rules
  let d ← pySum (fun pr : BRule × BRule => distReal pr.1 pr.2) (pairs rules)
  return q + lambd * d

/-- `GreedyDivMax.should_stop` (`corset/greedy/diversity_maximization.py:44-70`), always called with
the best candidate. -/
def shouldStopDivMax (p : Params) (Y : Cmp) (selected : List BRule) (best : BRule) : Py Bool :=
  match p.nMaxRules with
  | some k => .ok (decide (selected.length ≥ k))
  | none => do
    let mc ← marginalCoverageRatio Y selected best
    return decide (mc ≤ p.tolerance)

/-- `GreedyDivMaxV2.should_stop` (`corset/greedy/divmax_v2.py:35-42`) and `GreedySubmod.should_stop`
(`corset/greedy/submod.py:39-46`). Comparing with `None` raises `TypeError`. -/
def shouldStopV2 (p : Params) (selected : List BRule) (_best : BRule) : Py Bool :=
  match p.nMaxRules with
  | some k => .ok (decide (selected.length ≥ k))
  | none => .error .typeError

/-- `GreedyBase.select_best_candidate` (`corset/greedy/base.py:100-101`) on a set of candidates. -/
noncomputable def selectBest {σ ω : Type} (S : Samplers σ ω) (obj : BRule → Py ℝ)
    (cands : List BRule) : Py BRule :=
  pyMax obj (S.setOrder cands)

/-! ### Fitting loops -/

/-- What varies between the learners: the objective of a candidate and the stopping test. -/
structure Learner where
  objective : List BRule → BRule → Py ℝ
  stop : List BRule → BRule → Py Bool

/-- `GreedyDivMax` (`corset/greedy/diversity_maximization.py`). -/
noncomputable def learnerDivMax (p : Params) (Y : Cmp) : Learner where
  objective := objectiveOfRule qualityOfRule p.lambd
  stop := shouldStopDivMax p Y

/-- `GreedyDivMaxV2` (`corset/greedy/divmax_v2.py`). -/
noncomputable def learnerV2 (p : Params) : Learner where
  objective := objectiveOfRule qualityOfRule p.lambd
  stop := shouldStopV2 p

/-- `GreedyDivMaxV3` (`corset/greedy/divmax_v3.py`). -/
noncomputable def learnerV3 (p : Params) : Learner where
  objective := objectiveOfRule qualityOfRuleV3 p.lambd
  stop := shouldStopV2 p

/-- `GreedySubmod` (`corset/greedy/submod.py`). -/
noncomputable def learnerSubmod (p : Params) : Learner where
  objective := objectiveSubmod p.lambd
  stop := shouldStopV2 p

/-- The mutable state of the fitting loop: tail sampler, `self.selected_rules`, and
`self.candidate_rules` (the union of all batches; `GreedyDivMaxV2` does not keep it). -/
structure LoopState (σ : Type) where
  sampler : σ
  selected : List BRule
  pool : List BRule

/-- `self.candidate_rules |= candidate_rules`: equal rules are kept once. -/
def poolUnion (pool cands : List BRule) : List BRule :=
  pool ++ cands.filter (fun c => !(pool.any (fun b => b.toRule.eq c.toRule)))

/-- Result of one iteration of the `while True` loop: leave the loop, or go on. -/
inductive IterResult (σ : Type)
  | done (st : LoopState σ)
  | next (st : LoopState σ)

/-- One iteration of the fitting loop (`diversity_maximization.py:111-137`, `divmax_v2.py:58-82`,
`submod.py:74-100`); the log messages are not modelled (they only re-evaluate `KL`, precision and
base rate, which the objective has just computed). -/
noncomputable def fitIter {σ ω : Type} (S : Samplers σ ω) (p : Params) (lr : Learner)
    (X Xc Yc : Cmp) (ws : ℕ → ω) (st : LoopState σ) : Py (IterResult σ) :=
  match generateCandidates S p X Xc Yc st.sampler ws with
  | .error .noMoreSamples => .ok (.done st)
  | .error e => .error e
  | .ok cands => do
    let pool := poolUnion st.pool cands
    let best ← selectBest S (lr.objective st.selected) cands
    let stop ← lr.stop st.selected best
    if stop then return .done { st with pool := pool }
    else
      let s' ← S.tailUpdate st.sampler best.support best.tail.toFinset
      return .next { sampler := s', selected := st.selected ++ [best], pool := pool }

/-- The `while True` loop with fuel; `none` means that the fuel ran out before the loop was left. -/
noncomputable def fitLoop {σ ω : Type} (S : Samplers σ ω) (p : Params) (lr : Learner)
    (X Xc Yc : Cmp) (ws : ℕ → ℕ → ω) : (fuel k : ℕ) → LoopState σ → Option (Py (LoopState σ))
  | 0, _, _ => none
  | fuel + 1, k, st =>
    match fitIter S p lr X Xc Yc (ws k) st with
    | .error e => some (.error e)
    | .ok (.done st') => some (.ok st')
    | .ok (.next st') => fitLoop S p lr X Xc Yc ws fuel (k + 1) st'

/-- `fit` up to the end of the loop, shared by all learners: `set_X_Y` (CSR to CSC,
`corset/greedy/base.py:103-113`), fit the tail sampler, run the loop from the rules already held by the object
(`diversity_maximization.py:106-137`, `divmax_v2.py:54-82`, `submod.py:69-100`). -/
noncomputable def runFit {σ ω : Type} (S : Samplers σ ω) (p : Params) (lr : Learner)
    (X Y : Cmp) (held : List BRule) (ws : ℕ → ℕ → ω) (fuel : ℕ) : Option (Py (LoopState σ)) :=
  match S.tailFit Y with
  | .error e => some (.error e)
  | .ok s => fitLoop S p lr X X.flip Y.flip ws fuel 0 { sampler := s, selected := held, pool := [] }

/-- The selection loop of `fit_2nd_round` (`corset/greedy/diversity_maximization.py:165-176`), `n`
picks left. -/
noncomputable def pickLoop {σ ω : Type} (S : Samplers σ ω) (obj : List BRule → BRule → Py ℝ)
    (pool : List BRule) : ℕ → List BRule → Py (List BRule)
  | 0, sel => .ok sel
  | n + 1, sel => do
    let best ← selectBest S (obj sel) pool
    pickLoop S obj pool n (sel ++ [best])

/-- `GreedyDivMax.fit_2nd_round` (`corset/greedy/diversity_maximization.py:148-184`). -/
noncomputable def fit2ndRound {σ ω : Type} (S : Samplers σ ω) (p : Params) (pool : List BRule)
    (budget : ℕ) : Py (List BRule × ℝ) := do
  if pool.length = 0 then .error .insufficientCandidates
  else
    let sel ← pickLoop S (objectiveOfRule qualityOfRule p.lambd) pool budget []
    let obj ← objectiveOf qualityOfRule p.lambd sel sel
    return (sel, obj)

/-- What `GreedyDivMax.fit` leaves on the object. -/
structure FitResult where
  selected : List BRule
  obj : ℝ
  objRound1 : ℝ
  objRound2 : ℝ
  round1 : List BRule
  round2 : List BRule

/-- `GreedyDivMax.fit` after the loop of the first round has been left
(`corset/greedy/diversity_maximization.py:144-145, 189-202`). -/
noncomputable def fitTail {σ ω : Type} (S : Samplers σ ω) (p : Params) (st : LoopState σ) :
    Py FitResult := do
  let obj1 ← objectiveOf qualityOfRule p.lambd st.selected st.selected
  let (sel2, obj2) ← fit2ndRound S p st.pool st.selected.length
  return { selected := if obj1 > obj2 then st.selected else sel2,
           obj := min obj1 obj2, objRound1 := obj1, objRound2 := obj2,
           round1 := st.selected, round2 := sel2 }

/-- `GreedyDivMax.fit` (`corset/greedy/diversity_maximization.py:187-207`) on an object already
holding the rules `held` (`[]` for a new one). -/
noncomputable def fitDivMax {σ ω : Type} (S : Samplers σ ω) (p : Params) (X Y : Cmp)
    (held : List BRule) (ws : ℕ → ℕ → ω) (fuel : ℕ) : Option (Py FitResult) :=
  match runFit S p (learnerDivMax p Y) X Y held ws fuel with
  | none => none
  | some (.error e) => some (.error e)
  | some (.ok st) => some (fitTail S p st)

/-- `GreedyDivMaxV2.fit` / `GreedyDivMaxV3.fit` (`corset/greedy/divmax_v2.py:51-89`): selected rules
and `self.obj`. -/
noncomputable def fitV2 {σ ω : Type} (S : Samplers σ ω) (p : Params) (lr : Learner)
    (quality : List BRule → BRule → Py ℝ) (X Y : Cmp) (held : List BRule) (ws : ℕ → ℕ → ω)
    (fuel : ℕ) : Option (Py (List BRule × ℝ)) :=
  match runFit S p lr X Y held ws fuel with
  | none => none
  | some (.error e) => some (.error e)
  | some (.ok st) => some (do
      let obj ← objectiveOf quality p.lambd st.selected st.selected
      return (st.selected, obj))

/-- `GreedySubmod.fit` (`corset/greedy/submod.py:66-106`): the selected rules. -/
noncomputable def fitSubmod {σ ω : Type} (S : Samplers σ ω) (p : Params) (X Y : Cmp)
    (held : List BRule) (ws : ℕ → ℕ → ω) (fuel : ℕ) : Option (Py (List BRule)) :=
  match runFit S p (learnerSubmod p) X Y held ws fuel with
  | none => none
  | some (.error e) => some (.error e)
  | some (.ok st) => some (.ok st.selected)

end Verif
