/-
Specification vocabulary for the head sampler with the original proposal in double precision.
-/
import Verif.Model.FloatOriginal
import Verif.Spec.FloatCftp
import Verif.Spec.Head

namespace Verif

/-- The states of a head sampler with the original proposal, in doubles, that is used with one feature matrix: created,
then fitted with labels and sampled from in any order and number, whatever the generator gives. -/
inductive HeadReachD (S : Dbl.Order) (env : HeadEnv) (X : Cmp) : HeadSamplerD → Prop
  | init (doPrune : Bool) (minProba : ℚ) : HeadReachD S env X (HeadSamplerD.init doPrune minProba)
  | fit (s s' : HeadSamplerD) (y : List ℤ) :
      HeadReachD S env X s → headFitD env s X y = .ok s' → HeadReachD S env X s'
  | sample (s s' : HeadSamplerD) (ω : List ℕ) (r : Option (Finset ℤ)) :
      HeadReachD S env X s → (headSampleOnceD S env s ω).Outcome (.ok (r, s')) → HeadReachD S env X s'

/-- The probability that `sample_once`, in doubles, ends with a given result: the average over all sequences of
3072 numbers of 53 bits, the most that drawing a pair can consume. -/
noncomputable def headProbD (S : Dbl.Order) (env : HeadEnv) (s : HeadSamplerD)
    (r : Py (Option (Finset ℤ) × HeadSamplerD)) : ℝ :=
  averageOver (2 ^ 53) 3072 fun ω => (headSampleOnceD S env s ω).prob r

open Classical in
/-- How many of the feature sets in the sample space row `i` contains. -/
noncomputable def headsIn (X : Cmp) (space : List (Finset ℤ)) (i : ℕ) : ℕ :=
  (space.toFinset.filter fun T => RowContains X i T).card

end Verif
