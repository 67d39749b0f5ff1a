/-
Specification vocabulary for the difference between coverage and recall.
-/
import Verif.Spec.Greedy

namespace Verif

/-- On record `i` the rule applies, and the record carries every label that the rule concludes. -/
def WhollyRight (X Y : Cmp) (r : BRule) (i : ℕ) : Prop :=
  Fires X r.toRule i ∧ ∀ l ∈ r.tail, Y.Stored i l.toNat

/-- The rule concludes label `l` on record `i`, and some label that it concludes is wrong there. -/
def PartlyWrong (X Y : Cmp) (r : BRule) (i : ℕ) (l : ℤ) : Prop :=
  Fires X r.toRule i ∧ l ∈ r.tail ∧ ∃ l' ∈ r.tail, ¬ Y.Stored i l'.toNat

/-- Every record to which the rule applies carries all of its labels. -/
def NeverWrong (X Y : Cmp) (r : BRule) : Prop := ∀ i, Fires X r.toRule i → ∀ l ∈ r.tail, Y.Stored i l.toNat

end Verif
