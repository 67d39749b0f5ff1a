/-
Specification vocabulary for the uncovered-area sampler.
-/
import Verif.Model.Uncovered

namespace Verif

/-- Label `el` has been covered for row `i` by one of the updates. -/
def CoveredBy (us : List (List ℕ × List ℤ)) (i : ℕ) (el : ℤ) : Prop :=
  ∃ u ∈ us, i ∈ u.1 ∧ el ∈ u.2

instance (us : List (List ℕ × List ℤ)) (i : ℕ) (el : ℤ) : Decidable (CoveredBy us i el) := by
  unfold CoveredBy; infer_instance

/-- Labels of a sample not yet covered for row `i`. -/
def uncoveredPart (us : List (List ℕ × List ℤ)) (i : ℕ) (s : Finset ℤ) : Finset ℤ :=
  s.filter fun el => ¬ CoveredBy us i el

/-- Uncovered area of a row: number of (sample, label) incidences of its samples whose label is not
yet covered for the row. -/
def rowArea (space : List (Finset ℤ)) (newRows : List (List ℕ)) (us : List (List ℕ × List ℤ))
    (i : ℕ) : ℕ :=
  ((newRows.getD i []).map fun id => (uncoveredPart us i (space.getD id ∅)).card).sum

/-- Total uncovered area. -/
def totalArea (space : List (Finset ℤ)) (newRows : List (List ℕ)) (us : List (List ℕ × List ℤ)) : ℕ :=
  ∑ i ∈ Finset.range newRows.length, rowArea space newRows us i

/-- Uncovered area of one sample: over the rows it was assigned to (with multiplicity if it was listed
several times), the number of its labels uncovered for the row. -/
def sampleArea (space : List (Finset ℤ)) (newRows : List (List ℕ)) (us : List (List ℕ × List ℤ))
    (s : Finset ℤ) : ℕ :=
  ∑ i ∈ Finset.range newRows.length,
    ((newRows.getD i []).filter fun id => decide (space.getD id ∅ = s)).length *
      (uncoveredPart us i s).card

end Verif
