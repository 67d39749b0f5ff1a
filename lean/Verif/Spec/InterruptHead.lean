/-
Specification for interrupted and failed calls of `fit` on a head sampler.
-/
import Verif.Model.InterruptHead

namespace Verif

/-- What any number of further calls of `fit`, each with its own data and labels, can make of an object. Each call
may return, raise or be interrupted: the object is left as it is at some point of the call. -/
inductive HeadCalls (env : HeadEnv) (o : HeadObj) : HeadObj → Prop
  | none : HeadCalls env o o
  | call {o1 o2 : HeadObj} {X : Cmp} {y : List ℤ} {pc : HeadFitPc} (h : HeadCalls env o o1)
      (hp : HeadFitPoint env X y o1 pc o2) : HeadCalls env o o2

end Verif
