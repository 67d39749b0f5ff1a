/-
`read_data` of `corset/utils_data.py`: the two forms in which it hands over the coded table.
-/
import Verif.Model.Preprocess
import Verif.Model.Pipeline

namespace Verif

namespace Preprocess

variable {V : Type} [LinearOrder V]

/-- What `read_data` returns: two arrays, or two CSR matrices. -/
inductive ReadResult where
  | dense (D labels : List (List ℕ))
  | sparse (D labels : Cmp)
  deriving DecidableEq

/-- `sparse.csr_matrix(M)` (`corset/utils_data.py:33`) of an array with at least one row (the number of columns is read
off the first row; `preprocessing` fails on tables without rows). -/
def csrOf (M : List (List ℕ)) : Cmp := Pipeline.toCsr (Load.ofRows (M.map fun r => r.map fun v : ℕ => (v : ℤ)))

/-- `read_data` (`corset/utils_data.py:13-35`) after `pandas.read_csv`, which is not modelled. -/
def readData (df : Frame V) (sparsify : Bool) : Py ReadResult := do
  let (D, labels) ← preprocessing df
  if sparsify then return .sparse (csrOf D) (csrOf labels)
  else return .dense D labels

end Preprocess

end Verif
