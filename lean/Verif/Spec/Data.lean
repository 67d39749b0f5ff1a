/-
Specification for the data handling properties: what the four parts of a split made from a list of
drawn row numbers are.
-/
import Verif.Model.Data

namespace Verif

/-- The split that belongs to the drawn rows `idx`: the training part consists of the drawn rows, the
test part of their mirror images (row `n - 1 - i` for row `i`), features and labels of the same rows. -/
def mirrorSplit {α β : Type} (X : List α) (y : List β) (h : y.length = X.length)
    (idx : List (Fin X.length)) : Split α β :=
  { trainX := idx.map X.get, trainY := idx.map fun i => y.get (i.cast h.symm),
    testX := idx.map fun i => X.get i.rev, testY := idx.map fun i => y.get (i.rev.cast h.symm) }

/-- 1 if the row `r` is used by the result in the way `P` says, else 0 (an exception counts as 0). -/
def Split.indicator {α β : Type} (P : Split α β → Prop) [DecidablePred P] : Py (Split α β) → ℚ
  | .ok s => if P s then 1 else 0
  | .error _ => 0

end Verif
