/-
Specification vocabulary for the local samplers in doubles.
-/
import Verif.Spec.Local
import Verif.Spec.Surs
import Verif.Spec.Candidate

namespace Verif

/-- A binomial coefficient computed with relative error at most `ε`, on the arguments for which the weights of the rows
fit in 64 bits. -/
def BinomWithin (ε : ℝ) (binom : ℕ → ℕ → ℝ) : Prop :=
  ∀ n k, 1 ≤ k → k ≤ n → n ≤ 58 → |binom n k - n.choose k| ≤ ε * n.choose k

open Classical in
/-- The share of the total area of all itemsets that the itemsets in `A` have. -/
noncomputable def areaShare (Y : Cmp) (A : Set (Finset ℕ)) : ℝ :=
  (∑ F ∈ (itemsets Y).filter (· ∈ A), (F.card * supportCount Y F : ℝ)) /
    ∑ F ∈ itemsets Y, (F.card * supportCount Y F : ℝ)

open Classical in
/-- The share of the total support of the non-empty itemsets that those in `A` have. -/
noncomputable def supportShare (Y : Cmp) (A : Set (Finset ℕ)) : ℝ :=
  (∑ F ∈ ((itemsets Y).erase ∅).filter (· ∈ A), (supportCount Y F : ℝ)) /
    ∑ F ∈ (itemsets Y).erase ∅, (supportCount Y F : ℝ)

open Classical in
/-- The share that the samples in `A` have of all pairs of a row and a sample it contains. -/
noncomputable def containedShare (Y : Cmp) (space : List (Finset ℤ)) (A : Set (Finset ℤ)) : ℝ :=
  (∑ s ∈ space.toFinset.filter (· ∈ A), (rowsContaining Y s : ℝ)) / ∑ s ∈ space.toFinset, (rowsContaining Y s : ℝ)

end Verif
