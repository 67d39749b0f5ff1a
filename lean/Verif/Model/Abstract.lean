/-
The base classes: `GreedyBase` (`corset/greedy/base.py`), `Sampler` (`corset/samplers/base.py`) and
`ReducedSpaceSampler` (`corset/samplers/surs.py`) used as they are, and the operations that a variant of the learner
disables (`corset/greedy/divmax_v2.py`).
-/
import Verif.Model.Greedy

namespace Verif

/-- A `GreedyBase` object, `corset/greedy/base.py:40-53`: the training data (once stored), the rules and the sizes. -/
structure BaseClf where
  data : Option (Cmp × Cmp)
  selected : List BRule
  numLabels : Option ℕ
  numFeatures : Option ℕ

/-- `GreedyBase.__init__`, `corset/greedy/base.py:41-53`. -/
def BaseClf.new : BaseClf := { data := none, selected := [], numLabels := none, numFeatures := none }

/-- `GreedyBase.fit`, `corset/greedy/base.py:133-134`, which is `set_X_Y`, `corset/greedy/base.py:103-113`, on CSR
matrices. -/
def BaseClf.fit (c : BaseClf) (X Y : Cmp) : BaseClf :=
  { c with data := some (X, Y), numLabels := some Y.nMinor, numFeatures := some X.nMinor }

/-- `GreedyBase.objective_of_rule`, `corset/greedy/base.py:97-98`. -/
def baseObjective (_r : BRule) : Py ℚ := .error .notImplementedError

/-- `GreedyBase.select_best_candidate`, `corset/greedy/base.py:100-101`, with the objective above: `max` of nothing
raises `ValueError`, otherwise the key of the first candidate is computed first. -/
def baseSelect : List BRule → Py BRule
  | [] => .error .valueError
  | r :: rest => do
    let v ← baseObjective r
    let best ← rest.foldlM (fun (best : BRule × ℚ) x => do
      let w ← baseObjective x
      return if best.2 < w then (x, w) else best) (r, v)
    return best.1

/-- A call of a method of the base classifier. -/
inductive BaseCall where
  | fit (X Y : Cmp)
  | predict (X : Cmp)
  | coverage
  | select (candidates : List BRule)

/-- What a call returns. -/
inductive BaseAnswer where
  | done
  | labels (P : Cmp)
  | ratio (q : ℚ)
  | rule (r : BRule)

/-- One call of `fit`, `predict` (`corset/greedy/base.py:115-131`), `coverage_ratio` (`corset/greedy/base.py:71-84`) or
`select_best_candidate`. `coverage_ratio` reads `self.Y`, which does not exist before `fit`. -/
def BaseClf.call (c : BaseClf) : BaseCall → Py BaseAnswer × BaseClf
  | .fit X Y => (.ok .done, c.fit X Y)
  | .predict X => ((predict (c.selected.map BRule.toRule) c.numLabels X).map .labels, c)
  | .coverage =>
    (match c.data with
      | none => .error .attributeError
      | some (_, Y) => (coverageRatio Y c.selected).map .ratio, c)
  | .select cs => ((baseSelect cs).map .rule, c)

/-- Several calls, one after the other; an exception does not end the program. -/
def BaseClf.calls (c : BaseClf) (l : List BaseCall) : BaseClf := l.foldl (fun c k => (c.call k).2) c

/-! ### Samplers -/

/-- `Sampler.sample_once`, `corset/samplers/base.py:12-13`. -/
def abstractSampleOnce (_seed : ℕ) : Py (Finset ℕ) := .error .notImplementedError

/-- `Sampler.fit`, `corset/samplers/base.py:9-10`. -/
def abstractFit : Py Unit := .error .notImplementedError

/-- `Sampler.sample`, `corset/samplers/base.py:15-17`: the attribute `random_state` is read first (`none`: it does not
exist); `draws` are the seeds that `np.random.randint` returns. -/
def abstractSample (randomState : Option (Option ℕ)) (draws : ℕ → ℕ) (size : ℕ) : Py (List (Finset ℕ)) :=
  match randomState with
  | none => .error .attributeError
  | some _ => (List.range size).mapM fun i => abstractSampleOnce (draws i)

/-- The steps that a subclass of `ReducedSpaceSampler` supplies, `corset/samplers/surs.py:11-24`. Each changes the
object of type `σ` or raises, keeping what it did. -/
structure ReducedSteps (σ : Type) where
  buildSampleSpace : σ → Py Unit × σ
  generateNewRows : Cmp → σ → Py Unit × σ
  assignRowWeights : σ → Py Unit × σ
  normalise : σ → Py Unit × σ

/-- `ReducedSpaceSampler.fit`, `corset/samplers/surs.py:26-34`: the first step that raises ends the call. -/
def ReducedSteps.fit {σ : Type} (S : ReducedSteps σ) (Y : Cmp) (s : σ) : Py Unit × σ :=
  match S.buildSampleSpace s with
  | (.error e, s) => (.error e, s)
  | (.ok _, s) =>
    match S.generateNewRows Y s with
    | (.error e, s) => (.error e, s)
    | (.ok _, s) =>
      match S.assignRowWeights s with
      | (.error e, s) => (.error e, s)
      | (.ok _, s) => S.normalise s

/-- The steps as `ReducedSpaceSampler` itself defines them, `corset/samplers/surs.py:11-24`. -/
def abstractSteps (σ : Type) (normalise : σ → Py Unit × σ) : ReducedSteps σ where
  buildSampleSpace := fun s => (.error .notImplementedError, s)
  generateNewRows := fun _ s => (.error .notImplementedError, s)
  assignRowWeights := fun s => (.error .notImplementedError, s)
  normalise := normalise

/-! ### Disabled operations -/

/-- `GreedyDivMaxV2.fit_1st_round`, `corset/greedy/divmax_v2.py:44-45`. -/
def v2FirstRound {σ : Type} (c : σ) : Py Unit × σ := (.error .runtimeError, c)

/-- `GreedyDivMaxV2.fit_2nd_round`, `corset/greedy/divmax_v2.py:47-48`. -/
def v2SecondRound {σ : Type} (c : σ) : Py Unit × σ := (.error .runtimeError, c)

end Verif
