/-
Specification vocabulary for the head sampler.
-/
import Verif.Model.Head
import Verif.Spec.Cftp
import Verif.Spec.Trie

namespace Verif

/-- The traversals do what the language promises: a set is traversed without repetition, and
`find_ordering` lists the items by decreasing count. -/
def HeadEnv.Good (env : HeadEnv) : Prop :=
  Traverses env.order ∧ ∀ space, IsOrdering space (env.ordering space)

/-- The states of a head sampler that is used with one feature matrix: created, then fitted with labels
and sampled from in any order and number. -/
inductive HeadReach (env : HeadEnv) (X : Cmp) : HeadSampler → Prop
  | init (doPrune : Bool) (minProba : ℚ) (tight : Bool) :
      HeadReach env X (HeadSampler.init doPrune minProba tight)
  | fit (s s' : HeadSampler) (y : List ℤ) :
      HeadReach env X s → headFit env s X y = .ok s' → HeadReach env X s'
  | sample (s s' : HeadSampler) (r : Option (Finset ℤ)) :
      HeadReach env X s → (headSampleOnce env s).Outcome (.ok (r, s')) → HeadReach env X s'

open Classical in
/-- Discriminativity of a feature set: the number of pairs of a row with label 1 that contains it and a
row with label 0 that does not. -/
noncomputable def separations (X : Cmp) (y : List ℤ) (T : Finset ℤ) : ℕ :=
  ((Finset.range y.length ×ˢ Finset.range y.length).filter fun ij =>
    y[ij.1]? = some 1 ∧ y[ij.2]? = some 0 ∧ RowContains X ij.1 T ∧ ¬ RowContains X ij.2 T).card

end Verif
