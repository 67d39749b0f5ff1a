/-
Specification vocabulary for the discriminative pattern sampler of Boley et al. in double precision.
-/
import Verif.Model.FloatBoley
import Verif.Spec.FloatCftp
import Verif.Spec.Boley

namespace Verif

/-- The states of a Boley sampler, in doubles, that is used with one feature matrix: created, then fitted with labels and
sampled from in any order and number, whatever the generator gives. -/
inductive BoleyReachD (S : Dbl.Order) (order : Finset ℕ → List ℕ) (X : Cmp) : BoleySamplerD → Prop
  | init : BoleyReachD S order X BoleySamplerD.init
  | fit (s s' : BoleySamplerD) (y : List ℤ) :
      BoleyReachD S order X s → boleyFitD s X y = .ok s' → BoleyReachD S order X s'
  | sample (s s' : BoleySamplerD) (rounds : ℕ) (ω : List ℕ) (r : BoleyResult) :
      BoleyReachD S order X s → (boleySampleOnceD S order rounds s ω).Outcome (.ok (r, s')) → BoleyReachD S order X s'

/-- The probability that `sample_once`, in doubles, ends with a given result: the average over all sequences of
3072 numbers of 53 bits, the most that drawing a pair can consume. -/
noncomputable def boleyProbD (S : Dbl.Order) (order : Finset ℕ → List ℕ) (rounds : ℕ) (s : BoleySamplerD)
    (r : Py (BoleyResult × BoleySamplerD)) : ℝ :=
  averageOver (2 ^ 53) 3072 fun ω => (boleySampleOnceD S order rounds s ω).prob r

end Verif
