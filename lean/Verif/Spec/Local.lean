/-
Specification vocabulary for the local samplers.
-/
import Verif.Spec.Sparse

namespace Verif

open Classical in
/-- The number of rows that have all the items of `F`. -/
noncomputable def supportCount (Y : Cmp) (F : Finset ℕ) : ℕ :=
  ((Finset.range Y.nMajor).filter fun i => ∀ j ∈ F, Y.Stored i j).card

/-- All itemsets over the columns of a matrix. -/
def itemsets (Y : Cmp) : Finset (Finset ℕ) := (Finset.range Y.nMinor).powerset

end Verif
