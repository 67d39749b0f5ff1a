/-
The global numpy generator and its seeding. Elsewhere in the model a sampler is a random program; here
the same program is run deterministically against a generator with a state, so that seeds matter.
-/
import Verif.Model.Rand
import Verif.Model.RandR

namespace Verif

/-- The global numpy generator: an arbitrary deterministic state machine. `seed` is
`numpy.random.seed(s)` for an integer, `fresh` is `numpy.random.seed(None)`, which overwrites the state
from the operating system's entropy; `randint n` returns a number below `n`; `pick` and `unif` answer the
draws of a random program. -/
structure Rng (G E : Type) where
  seed : ℕ → G
  fresh : E → G
  randint : ℕ → G → ℕ × G
  randint_lt : ∀ n g, 0 < n → (randint n g).1 < n
  pick : List ℝ → G → ℕ × G
  unif : G → ℝ × G

/-- The state a Python process sees: the global generator, and the entropy the operating system will hand
out, one item per request. -/
structure World (G E : Type) where
  gen : G
  entropy : ℕ → E

/-- `numpy.random.seed(seed)`. (An integer seed outside `[0, 2^32)` is a `ValueError` of numpy and not
modelled.) -/
def Rng.reseed {G E : Type} (R : Rng G E) (seed : Option ℕ) (w : World G E) : World G E :=
  match seed with
  | some s => { w with gen := R.seed s }
  | none => { gen := R.fresh (w.entropy 0), entropy := fun i => w.entropy (i + 1) }

/-- A random program run against the generator. -/
def RandR.run {G E α : Type} (R : Rng G E) : RandR α → G → Py α × G
  | .done r, g => (r, g)
  | .choice p k, g => (k (R.pick p g).1).run R (R.pick p g).2
  | .unif k, g => (k (R.unif g).1).run R (R.unif g).2

/-- As `RandR.run`, for programs with rational probabilities. -/
def Rand.run {G E α : Type} (R : Rng G E) : Rand α → G → Py α × G
  | .done r, g => (r, g)
  | .choice p k, g =>
    (k (R.pick (p.map fun q : ℚ => (q : ℝ)) g).1).run R (R.pick (p.map fun q : ℚ => (q : ℝ)) g).2

/-- `sample_once(seed)` of the samplers that start with `numpy.random.seed(seed)`
(`corset/samplers/area.py:28-29`, `freq.py:19-20`, `surs.py:36-38`); `body` is the rest of the method, run
against the generator. -/
def sampleOnceSeeded {G E α : Type} (R : Rng G E) (body : G → Py α × G) (seed : Option ℕ)
    (w : World G E) : Py α × World G E :=
  ((body (R.reseed seed w).gen).1, { R.reseed seed w with gen := (body (R.reseed seed w).gen).2 })

/-- The list comprehension of `Sampler.sample` (`corset/samplers/base.py:17`); an exception ends it. -/
def sampleComprehension {G E α : Type} (R : Rng G E) (body : G → Py α × G) :
    ℕ → World G E → Py (List α) × World G E
  | 0, w => (.ok [], w)
  | k + 1, w =>
    match sampleOnceSeeded R body (some (R.randint 100000 w.gen).1)
        { w with gen := (R.randint 100000 w.gen).2 } with
    | (.error e, w') => (.error e, w')
    | (.ok a, w') =>
      match sampleComprehension R body k w' with
      | (.error e, w'') => (.error e, w'')
      | (.ok l, w'') => (.ok (a :: l), w'')

/-- `Sampler.sample(size)` (`corset/samplers/base.py:15-17`) of a sampler with the given
`random_state`. -/
def samplerSample {G E α : Type} (R : Rng G E) (body : G → Py α × G) (randomState : Option ℕ)
    (size : ℕ) (w : World G E) : Py (List α) × World G E :=
  sampleComprehension R body size (R.reseed randomState w)

/-- The tail sampling calls of `generate_candidate_rules` (`corset/greedy/base.py:23-24`):
`sample_once()` is called `n` times without a seed, whatever the sampler's `random_state`. Between the
calls other code (`between`, the head sampler) may change the generator in any way and take entropy; the
number of items it takes after the `i`-th call is `used i`. The results, in order. -/
def unseededCalls {G E α : Type} (R : Rng G E) (body : G → Py α × G)
    (between : ℕ → World G E → G) (used : ℕ → ℕ) : (n i : ℕ) → World G E → List (Py α)
  | 0, _, _ => []
  | n + 1, i, w =>
    (sampleOnceSeeded R body none w).1 ::
      unseededCalls R body between used n (i + 1)
        { gen := between i (sampleOnceSeeded R body none w).2,
          entropy := fun j => (sampleOnceSeeded R body none w).2.entropy (j + used i) }

end Verif
