/-
What `lambd` weighs in the choice of a rule: how much a candidate tells about label occurrences that no selected rule
covers, and how far it is from the selected rules.
-/
import Verif.Spec.Greedy

namespace Verif

/-- The divergence of a rule (`rule.KL()`), 0 if it cannot be computed. -/
noncomputable def klValue (b : BRule) : ℝ :=
  match b.KL with
  | .ok k => k.toReal
  | .error _ => 0

/-- The number of label occurrences that the rule covers and none of the selected rules does. -/
def newCells (sel : List BRule) (b : BRule) : ℕ := (area b \ covered sel).card

/-- The quality of a candidate: its divergence, weighted by the newly covered occurrences through `w`. -/
noncomputable def gain (w : ℕ → ℝ) (sel : List BRule) (b : BRule) : ℝ := w (newCells sel b) * klValue b

/-- What the choice for the weight `l` of diversity maximises, and that the best value is attained by `b`. -/
def BestTradeoff (g d : BRule → ℝ) (l : ℝ) (cands : List BRule) (b : BRule) : Prop :=
  b ∈ cands ∧ ∀ c ∈ cands, g c + l * d c ≤ g b + l * d b

end Verif
