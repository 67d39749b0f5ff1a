/-
Specification vocabulary for the discriminative pattern sampler of Boley et al.
-/
import Verif.Model.Local
import Verif.Spec.Sparse

namespace Verif

/-- The states of a Boley sampler that is used with one feature matrix: created, then fitted with labels
and sampled from in any order and number. -/
inductive BoleyReach (order : Finset ℕ → List ℕ) (X : Cmp) : BoleySampler → Prop
  | init : BoleyReach order X BoleySampler.init
  | fit (s s' : BoleySampler) (y : List ℤ) :
      BoleyReach order X s → boleyFit s X y = .ok s' → BoleyReach order X s'
  | sample (s s' : BoleySampler) (rounds : ℕ) (r : BoleyResult) :
      BoleyReach order X s → (boleySampleOnce order rounds s).Outcome (.ok (r, s')) → BoleyReach order X s'

open Classical in
/-- The pairs of a row with label 1 that has all the features of `F` and a row with label 0 that lacks
some of them. -/
noncomputable def separatedPairs (X : Cmp) (y : List ℤ) (F : Finset ℕ) : Finset (ℕ × ℕ) :=
  (Finset.range y.length ×ˢ Finset.range y.length).filter fun ij =>
    y[ij.1]? = some 1 ∧ y[ij.2]? = some 0 ∧ (∀ f ∈ F, X.Stored ij.1 f) ∧ ¬ ∀ f ∈ F, X.Stored ij.2 f

/-- Discriminativity of a pattern. -/
noncomputable def patternSeparations (X : Cmp) (y : List ℤ) (F : Finset ℕ) : ℕ := (separatedPairs X y F).card

open Classical in
/-- The number of features of row `i`. -/
noncomputable def rowSize (X : Cmp) (i : ℕ) : ℕ := ((Finset.range X.nMinor).filter fun f => X.Stored i f).card

open Classical in
/-- The number of features of row `i` that row `j` lacks. -/
noncomputable def rowDiff (X : Cmp) (i j : ℕ) : ℕ :=
  ((Finset.range X.nMinor).filter fun f => X.Stored i f ∧ ¬ X.Stored j f).card

/-- The rows with a given label. -/
def labelled (y : List ℤ) (v : ℤ) : Finset ℕ := (Finset.range y.length).filter fun i => y[i]? = some v

end Verif
