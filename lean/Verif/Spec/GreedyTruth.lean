/-
Specification vocabulary for the ground truth functions of the greedy head samplers.
-/
import Verif.Spec.GreedyHead

namespace Verif

namespace GreedyHead

/-- A positive and a negative record. -/
def Opposite (y : List ℤ) (pr : ℕ × ℕ) : Prop := y[pr.1]? = some 1 ∧ y[pr.2]? = some 0

/-- The number of attributes that the first record has and the second does not have. -/
noncomputable def separatingCount (X : Cmp) (pr : ℕ × ℕ) : ℕ := (attrs X pr.1 \ attrs X pr.2).card

open Classical in
/-- The number of pairs of a positive record that has the attribute and a negative record that does not have it. -/
noncomputable def pairsSeparatedBy (X : Cmp) (y : List ℤ) (a : ℕ) : ℕ :=
  ((labelled y 1 ×ˢ labelled y 0).filter fun pr => X.Stored pr.1 a ∧ ¬ X.Stored pr.2 a).card

/-- The sum of `separatingCount` over the pairs. -/
noncomputable def separations (X : Cmp) (y : List ℤ) : ℕ :=
  ∑ pr ∈ labelled y 1 ×ˢ labelled y 0, separatingCount X pr

/-- A dictionary with exactly the given keys and values; no key twice. -/
def IsDict {α : Type} (d : List (α × ℚ)) (Key : α → Prop) (value : α → ℚ) : Prop :=
  (d.map Prod.fst).Nodup ∧ ∀ k q, (k, q) ∈ d ↔ Key k ∧ q = value k

end GreedyHead

end Verif
