/-
Specification vocabulary for interrupted calls.
-/
import Verif.Model.Interrupt
import Verif.Spec.Uncovered

namespace Verif

/-- The history in which single labels were covered for single rows, one after the other. -/
def onePairEach (pairs : List (ℕ × ℤ)) : List (List ℕ × List ℤ) := pairs.map fun pr => ([pr.1], [pr.2])

/-- The number of samples listed for row `i` that contain the label. -/
def holders (space : List (Finset ℤ)) (newRows : List (List ℕ)) (i : ℕ) (el : ℤ) : ℕ :=
  ((newRows.getD i []).filter fun id => decide (el ∈ space.getD id ∅)).length

end Verif
