/-
Specification vocabulary for sampling in a reduced sample space.
-/
import Verif.Spec.Trie

namespace Verif

open Classical in
/-- The number of rows that contain the sample. -/
noncomputable def rowsContaining (Y : Cmp) (s : Finset ℤ) : ℕ :=
  ((Finset.range Y.nMajor).filter fun i => RowContains Y i s).card

end Verif
