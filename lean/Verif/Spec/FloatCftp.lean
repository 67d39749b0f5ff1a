/-
Specification vocabulary for coupling from the past in double precision.
-/
import Verif.Model.FloatCftp
import Mathlib.Data.Fintype.BigOperators

namespace Verif

/-- The average of a quantity over all sequences of `n` outputs of the generator, each one of `M` equally likely
numbers. -/
noncomputable def averageOver (M n : ℕ) (f : List ℕ → ℝ) : ℝ :=
  (∑ ω : Fin n → Fin M, f (List.ofFn fun i => (ω i : ℕ))) / (M : ℝ) ^ n

/-- The probability that `sample_once`, in doubles, ends with a given result: the average over all sequences of
3072 numbers of 53 bits, the most it can consume. -/
noncomputable def headProbF (env : HeadEnv) (s : HeadSampler) (r : Py (Option (Finset ℤ) × HeadSampler)) : ℝ :=
  averageOver (2 ^ 53) 3072 fun ω => (headSampleOnceF env s ω).prob r

end Verif
