/-
The samplers of `Model/Local.lean` in double precision: `BoleyAreaSampler` (`corset/samplers/area.py`),
`BoleyFrequencySampler` and `SURSFrequencySamplerMixin` (`corset/samplers/freq.py`).

The weights of the rows are 64-bit integers, as there. The quotients, the weights of the sizes and the draws from them
are doubles (`Model/Float.lean`).

Simplifications: the generator's outputs are independent and uniform. What is drawn without weights is exact:
`numpy.random.permutation` and `numpy.random.choice` without `p` draw integers by rejection, and `rand() < 0.5` holds for
exactly half of the generator's outputs. There is no underflow and no overflow to infinity: all numbers are zero or lie
between `2⁻⁶⁴` and `2¹²⁸` for rows of fewer than 64 items.
-/
import Verif.Model.Float
import Verif.Model.Local

namespace Verif

/-- `numpy.random.choice(numpy.arange(len(p)), p=p)` in doubles: the generator gives 53 bits, which select the index. -/
noncomputable def npChoiceF (p : List ℝ) : RandR ℕ := do
  let k ← pyChoiceIdx (2 ^ 53)
  .lift (choiceF p k)

/-- `weights / weights.sum()` on an `int64` array: the integers are converted to doubles, which rounds, then divided.
A zero sum gives NaN or infinity in numpy; here it gives zeros. Both are rejected by `numpy.random.choice`. -/
noncomputable def normaliseF (w : List ℤ) : List ℝ := w.map fun x : ℤ => fl (fl (x : ℝ) / fl ((i64 w.sum : ℤ) : ℝ))

/-! ### `BoleyAreaSampler` -/

/-- `fit`, `corset/samplers/area.py:13-27`, as `areaFit`. -/
noncomputable def areaFitF (Y : Cmp) : Py (List (Finset ℕ) × List ℝ) :=
  let rows := convertMatrixToSets (selectLines Y fun i => decide (0 < ((Y.entries i).map Prod.snd).sum))
  if ∀ r ∈ rows, 0 < r.card then
    .ok (rows, normaliseF (rows.map fun r => i64 (i64 (2 ^ (r.card - 1)) * r.card)))
  else .error .assertionError

/-- `k_weights`, `corset/samplers/area.py:35`; `binom` is `scipy.special.binom`. Entry `i` belongs to `k = i + 1`. -/
noncomputable def sizeWeightsF (binom : ℕ → ℕ → ℝ) (size : ℕ) : List ℝ :=
  (List.range size).map fun i => fl (binom size (i + 1) * (i + 1 : ℕ))

/-- `k_weights / k_weights.sum()`, `corset/samplers/area.py:36`. -/
noncomputable def sizeProbasF (S : Summation) (binom : ℕ → ℕ → ℝ) (size : ℕ) : List ℝ :=
  (sizeWeightsF binom size).map fun x => fl (x / S.sum (sizeWeightsF binom size))

/-- `sample_once`, `corset/samplers/area.py:29-39`. -/
noncomputable def areaSampleOnceF (S : Summation) (binom : ℕ → ℕ → ℝ) (order : Finset ℕ → List ℕ)
    (rows : List (Finset ℕ)) (probas : List ℝ) : RandR (Finset ℕ) := do
  let i ← npChoiceF probas
  let j ← npChoiceF (sizeProbasF S binom (order (rows.getD i ∅)).length)
  let perm ← npPermutation (order (rows.getD i ∅)).length (order (rows.getD i ∅))
  .lift (areaItemset (j + 1) perm)

/-! ### `BoleyFrequencySampler` -/

/-- `fit`, `corset/samplers/freq.py:12-17`. -/
noncomputable def freqFitF (Y : Cmp) : List (Finset ℕ) × List ℝ :=
  (convertMatrixToSets Y, normaliseF ((convertMatrixToSets Y).map fun r => i64 (2 ^ r.card)))

/-- One round of the loop of `sample_once`, `corset/samplers/freq.py:25-27`. -/
noncomputable def freqRoundF (order : Finset ℕ → List ℕ) (rows : List (Finset ℕ)) (probas : List ℝ) :
    RandR (Finset ℕ) := do
  let i ← npChoiceF probas
  coinSubset (order (rows.getD i ∅))

/-- `sample_once`, `corset/samplers/freq.py:19-29`, run for a number of rounds. -/
noncomputable def freqSampleOnceF (order : Finset ℕ → List ℕ) (rows : List (Finset ℕ)) (probas : List ℝ)
    (rounds : ℕ) : RandR (Option (Finset ℕ)) :=
  retry (freqRoundF order rows probas) (fun res => decide (0 < res.card)) rounds

/-! ### Sampling by frequency in a reduced sample space -/

/-- The row probabilities, `corset/samplers/surs.py:26-34` and `corset/samplers/freq.py:40-41`. -/
noncomputable def sursProbasF (newRows : List (List ℕ)) : List ℝ :=
  normaliseF (newRows.map fun r => (r.length : ℤ))

/-- `sample_once`, `corset/samplers/surs.py:36-42` and `corset/samplers/freq.py:43-52`, as `sursSampleOnce`. -/
noncomputable def sursSampleOnceF (space : List (Finset ℤ)) (newRows : List (List ℕ)) (probas : List ℝ) :
    RandR (Finset ℤ) := do
  let i ← npChoiceF probas
  let j ← (if (newRows.getD i []).length = 0 then RandR.raise .valueError
    else pyChoiceIdx (newRows.getD i []).length)
  .lift (pyGet space ((newRows.getD i []).getD j 0))

end Verif
