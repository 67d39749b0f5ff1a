/-
Specification vocabulary for the evaluation metrics.
-/
import Verif.Model.Evaluation
import Verif.Spec.Sparse

namespace Verif

open Classical in
/-- The positions that hold a one. -/
noncomputable def ones (m : Cmp) : Finset (ℕ × ℕ) :=
  (Finset.range m.nMajor ×ˢ Finset.range m.nMinor).filter fun e => m.Stored e.1 e.2

/-- The positions of one column that hold a one. -/
noncomputable def onesIn (m : Cmp) (j : ℕ) : Finset (ℕ × ℕ) := (ones m).filter fun e => e.2 = j

/-- `a` out of `b`, and 1 if there is nothing to count. -/
def share (a b : ℕ) : ℚ := if b = 0 then 1 else (a : ℚ) / b

/-- Overlap of two sets of sizes `p` and `t` with `a` common elements: twice the common elements over the
sum of the sizes, and 1 if both are empty. -/
def dice (a p t : ℕ) : ℚ := if p + t = 0 then 1 else 2 * (a : ℚ) / (p + t)

/-- The two matrices have the same shape, with at least one row and one column. -/
def SameShape (P T : Cmp) : Prop := P.nMajor = T.nMajor ∧ P.nMinor = T.nMinor ∧ 0 < T.nMajor ∧ 0 < T.nMinor

/-- The two matrices agree on the row. -/
def SameRow (P T : Cmp) (i : ℕ) : Prop := ∀ j, P.Stored i j ↔ T.Stored i j

open Classical in
/-- The rows of the CSC label matrix that carry every label of `S`. -/
noncomputable def rowsWithAll (Yc : Cmp) (S : Finset ℕ) : Finset ℕ :=
  (Finset.range Yc.nMinor).filter fun i => ∀ c ∈ S, Yc.Stored c i

/-- Every two different labels of `S` are joined in both directions. -/
def AllJoined (g : DiG) (S : Finset ℕ) : Prop := ∀ u ∈ S, ∀ v ∈ S, u ≠ v → ∃ p, g.weight u v = some p

/-- Sum of the weights of all ordered pairs of different labels of `S`. -/
def pairWeight (g : DiG) (S : Finset ℕ) : ℚ := ∑ e ∈ S.offDiag, (g.weight e.1 e.2).getD 0

end Verif
