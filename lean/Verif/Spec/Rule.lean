/-
Specification vocabulary for rules.
-/
import Verif.Spec.Sparse
import Verif.Model.Rule

namespace Verif

/-- Row `i` of the CSC matrix `m` carries every one of the listed columns. -/
def RowHas (m : Cmp) (items : List ℤ) (i : ℕ) : Prop :=
  ∀ c ∈ items, 0 ≤ c ∧ m.Stored c.toNat i

/-- The label area of a rule: the (row, label) cells it covers. -/
def area (r : BRule) : Finset (ℕ × ℤ) := r.support ×ˢ r.tail.toFinset

/-- The cells covered by some rule of a list. -/
def covered (rs : List BRule) : Finset (ℕ × ℤ) := (rs.map area).foldr (· ∪ ·) ∅

theorem mem_covered (rs : List BRule) (c : ℕ × ℤ) : c ∈ covered rs ↔ ∃ r ∈ rs, c ∈ area r := by
  induction rs with
  | nil => simp [covered]
  | cons r rs ih =>
    have : covered (r :: rs) = area r ∪ covered rs := rfl
    rw [this, Finset.mem_union, ih]
    simp

end Verif
