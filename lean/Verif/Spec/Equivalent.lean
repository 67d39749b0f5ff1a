/-
Specification vocabulary for models that predict alike.
-/
import Verif.Spec.Greedy

namespace Verif

/-- Features and labels of the rules exist: `n` features, `L` labels. -/
def ItemsExist (n L : ℕ) (rules : List Rule) : Prop :=
  ∀ r ∈ rules, (∀ f ∈ r.head, 0 ≤ f ∧ f < n) ∧ ∀ l ∈ r.tail, 0 ≤ l ∧ l < L

/-- Some rule in `rules` concludes the label `l` from features that are all in the head of `r`. -/
def Derives (rules : List Rule) (r : Rule) (l : ℤ) : Prop := ∃ r' ∈ rules, l ∈ r'.tail ∧ ∀ f ∈ r'.head, f ∈ r.head

/-- Whatever `rules` predicts for any binary matrix with `n` features, `rules'` predicts too. -/
def PredictsLess (n L : ℕ) (rules rules' : List Rule) : Prop :=
  ∀ X : Cmp, X.Binary → X.nMinor = n → ∀ P P', predict rules (some L) X = .ok P → predict rules' (some L) X = .ok P' →
    ∀ i < X.nMajor, ∀ l < L, P.val i l = 1 → P'.val i l = 1

/-- The matrix of `n` columns whose only row has exactly the features of the head of `r`. -/
def headRecord (n : ℕ) (r : Rule) : Cmp :=
  Cmp.ofLines n [(((r.head.map Int.toNat).toFinset).sort (· ≤ ·)).map fun j => (j, 1)]

end Verif
