/-
The dummy samplers (`corset/samplers/dummy.py`) and the base class they inherit `sample` from
(`corset/samplers/base.py`).
-/
import Verif.Model.Seeds
import Verif.Model.Greedy

namespace Verif

namespace Dummy

/-- A `DummyHeadSampler` or `DummyTailSampler`: the number of columns (`self.D`, `self.L`), no attribute before `fit`.
`random_state` is an attribute exactly when the number of columns is one, and then is `None`. -/
structure Obj where
  columns : Option ℕ

/-- The object after `DummyHeadSampler()` or `DummyTailSampler()`; neither class nor `Sampler` has an `__init__`. -/
def Obj.new : Obj := { columns := none }

/-- `fit` (`corset/samplers/dummy.py:7-9, 18-20`): the labels are not looked at. -/
def Obj.fit (_ : Obj) (M : Cmp) : Obj := { columns := some M.nMinor }

/-- `sample_once(*args)` (`dummy.py:11-12, 22-23`): `randint(0, n)` raises `ValueError` for `n = 0`. The arguments, in
particular a seed, are ignored. -/
def Obj.sampleOnce {G E : Type} (R : Rng G E) (o : Obj) (_seed : Option ℕ) (g : G) : Py (Finset ℕ) × G :=
  match o.columns with
  | none => (.error .attributeError, g)
  | some n => if n = 0 then (.error .valueError, g) else (.ok {(R.randint n g).1}, (R.randint n g).2)

/-- `update_row_weights` (`dummy.py:25-26`). -/
def Obj.updateRowWeights (o : Obj) (_rows : Finset ℕ) (_labels : Finset ℤ) : Obj := o

/-- The comprehension of `Sampler.sample` (`corset/samplers/base.py:17`) with this `sample_once`. -/
def Obj.comprehension {G E : Type} (R : Rng G E) (o : Obj) : ℕ → G → Py (List (Finset ℕ)) × G
  | 0, g => (.ok [], g)
  | k + 1, g =>
    match o.sampleOnce R (some (R.randint 100000 g).1) (R.randint 100000 g).2 with
    | (.error e, g') => (.error e, g')
    | (.ok a, g') =>
      match o.comprehension R k g' with
      | (.error e, g'') => (.error e, g'')
      | (.ok l, g'') => (.ok (a :: l), g'')

/-- `Sampler.sample(size)` (`corset/samplers/base.py:15-17`) of a dummy sampler. -/
def Obj.sample {G E : Type} (R : Rng G E) (o : Obj) (size : ℕ) (w : World G E) :
    Py (List (Finset ℕ)) × World G E :=
  match o.columns with
  | none => (.error .attributeError, w)
  | some _ =>
    ((o.comprehension R size (R.reseed none w).gen).1,
      { R.reseed none w with gen := (o.comprehension R size (R.reseed none w).gen).2 })

/-- `k` successive calls of `sample_once()`. -/
def Obj.calls {G E : Type} (R : Rng G E) (o : Obj) : ℕ → G → List (Py (Finset ℕ))
  | 0, _ => []
  | k + 1, g => (o.sampleOnce R none g).1 :: o.calls R k (o.sampleOnce R none g).2

/-- The two dummy samplers in a learner, as the tests use them. One element of `ℕ × (ℕ → ℕ)` stands for the generator's
answers in one round: the first for the label, the others for the features; an answer is taken modulo the bound. -/
def samplers (setOrder : List BRule → List BRule) (h : ∀ l, (setOrder l).Perm l) : Samplers Obj (ℕ × (ℕ → ℕ)) where
  tailFit := fun Y => .ok (Obj.new.fit Y)
  tailSample := fun o w =>
    match o.columns with
    | none => .error .attributeError
    | some n => if n = 0 then .error .valueError else .ok [((w.1 % n : ℕ) : ℤ)]
  tailUpdate := fun o rows labels => .ok (o.updateRowWeights rows labels)
  headSample := fun X _ w k =>
    (List.range k).mapM fun i =>
      if X.nMinor = 0 then .error .valueError else .ok (some [((w.2 i % X.nMinor : ℕ) : ℤ)])
  setOrder := setOrder
  setOrder_perm := h

end Dummy

end Verif
