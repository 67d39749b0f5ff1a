/-
Specification vocabulary: random programs whose law is a finite probability distribution.
-/
import Verif.Model.RandR

namespace Verif

/-- The law of the program is the finite distribution `L`: its weights are positive and add up to one, its points
are results the program can have, and every expectation is the weighted mean. -/
def RandR.FiniteLaw {α : Type} (m : RandR α) (L : List (ℝ × Py α)) : Prop :=
  (∀ q ∈ L, 0 < q.1 ∧ m.Outcome q.2) ∧ (L.map Prod.fst).sum = 1 ∧
    ∀ F : Py α → ℝ, m.expect F = (L.map fun q => q.1 * F q.2).sum

/-- The law of the program is a finite probability distribution. -/
def RandR.Discrete {α : Type} (m : RandR α) : Prop := ∃ L, m.FiniteLaw L

end Verif
