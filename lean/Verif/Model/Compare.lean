/-
Comparing sparse matrices (`corset/utils.py:162-166`).
-/
import Verif.Model.Sparse

namespace Verif

/-- scipy's `m1 != m2` for two CSR matrices of the same shape: a CSR matrix that stores a true entry
exactly where the two (summed) values differ; results that are false are not stored. -/
def csrNe (A B : Cmp) : Cmp :=
  Cmp.ofLines A.nMinor <| (List.range A.nMajor).map fun i =>
    ((List.range A.nMinor).filter fun j => decide (cellSum A i j ≠ cellSum B i j)).map fun j => (j, 1)

/-- `csr_matrix_equal` (`corset/utils.py:162-166`): `(m1 != m2).nnz == 0`. For matrices of different shapes
scipy answers `m1 != m2` with the Python value `True`, which has no attribute `nnz`. -/
def csrMatrixEqual (A B : Cmp) : Py Bool :=
  if A.nMajor = B.nMajor ∧ A.nMinor = B.nMinor then .ok (decide ((csrNe A B).nnz = 0))
  else .error .attributeError

end Verif
