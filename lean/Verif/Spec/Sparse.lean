/-
Specification vocabulary for sparse matrices: what a compressed matrix denotes,
read directly off its arrays.
-/
import Verif.Model.Sparse
import Mathlib.Algebra.BigOperators.Group.Finset.Basic
import Mathlib.Order.Interval.Finset.Nat

namespace Verif
namespace Cmp

/-- An entry is stored at major index `i`, minor index `j`. -/
def Stored (m : Cmp) (i j : ℕ) : Prop :=
  ∃ k, m.ptr i ≤ k ∧ k < m.ptr (i + 1) ∧ m.indices[k]? = some j

/-- The value of the matrix at major index `i`, minor index `j` (repeated entries add up). -/
def val (m : Cmp) (i j : ℕ) : ℤ :=
  ∑ k ∈ Finset.Ico (m.ptr i) (m.ptr (i + 1)), if m.indices[k]? = some j then m.data.getD k 0 else 0

/-- A canonical 0/1 matrix: well formed, every stored value is 1, no position stored twice. -/
structure Binary (m : Cmp) : Prop extends WF m where
  data_one : ∀ d ∈ m.data, d = 1
  nodup : ∀ i < m.nMajor, (m.segIdx i).Nodup

/-- No explicitly stored zero. -/
def NoStoredZero (m : Cmp) : Prop := ∀ d ∈ m.data, d ≠ 0

end Cmp
end Verif
