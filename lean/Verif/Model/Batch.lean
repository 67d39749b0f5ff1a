/-
Batches: `sample_k_times` of the two coupling classes (`corset/samplers/cftp.py`,
`corset/samplers/boley_cftp.py`) and `sample` of `BoleyCFTPDiscriminativitySampler`
(`corset/samplers/boley_discrim.py`).
-/
import Verif.Model.Head
import Verif.Model.Local

namespace Verif

namespace Cftp

/-- `n` calls of `sample()` in a list comprehension. -/
noncomputable def pairCalls (c : Cftp) : ℕ → CftpState → RandR (List (Option (ℕ × ℕ)) × CftpState)
  | 0, s => pure ([], s)
  | n + 1, s => do
    let r ← c.sample s
    let rs ← c.pairCalls n r.2
    return (r.1 :: rs.1, rs.2)

/-- `sample_k_times(n_samples)`, `corset/samplers/cftp.py:173-174` and
`corset/samplers/boley_cftp.py:179-183`: `range` of a negative number is empty. The progress bar of the
latter does not change what is drawn and is not modelled. -/
noncomputable def sampleKTimes (c : Cftp) (n : ℤ) (s : CftpState) : RandR (List (Option (ℕ × ℕ)) × CftpState) :=
  c.pairCalls n.toNat s

/-- `n` calls of `sample(return_details=True)` in a list comprehension. -/
noncomputable def pairCallsDetailed (c : Cftp) : ℕ → CftpState → RandR (List Detailed × CftpState)
  | 0, s => pure ([], s)
  | n + 1, s => do
    let r ← c.sampleDetailed s
    let rs ← c.pairCallsDetailed n r.2
    return (r.1 :: rs.1, rs.2)

/-- `sample_k_times(n_samples, return_details=True)`, `corset/samplers/cftp.py:173-174`. -/
noncomputable def sampleKTimesDetailed (c : Cftp) (n : ℤ) (s : CftpState) : RandR (List Detailed × CftpState) :=
  c.pairCallsDetailed n.toNat s

end Cftp

/-- `sample_a_pair`, `corset/samplers/boley_discrim.py:119-126`; before `fit` the attribute `cftp` is
`None`. -/
noncomputable def boleySamplePair (s : BoleySampler) : RandR (Option (ℕ × ℕ) × BoleySampler) :=
  match s.cftp with
  | some c => do
    let r ← c.sample s.lists
    return (r.1, { s with lists := r.2 })
  | none => .raise .attributeError

/-- `n` calls of `sample_once` in a list comprehension, each with the given number of rounds of its retry
loop. The result is `none` if one of them is still drawing. -/
noncomputable def boleyPatterns (order : Finset ℕ → List ℕ) (rounds : ℕ) :
    ℕ → BoleySampler → RandR (Option (List (Option (Finset ℕ))) × BoleySampler)
  | 0, s => pure (some [], s)
  | n + 1, s => do
    let r ← boleySampleOnce order rounds s
    match r.1 with
    | .running => pure (none, r.2)
    | .gaveUp => do
      let rs ← boleyPatterns order rounds n r.2
      return (rs.1.map (none :: ·), rs.2)
    | .pattern F => do
      let rs ← boleyPatterns order rounds n r.2
      return (rs.1.map (some F :: ·), rs.2)

/-- `sample(k)`, `corset/samplers/boley_discrim.py:144-148`. -/
noncomputable def boleySample (order : Finset ℕ → List ℕ) (rounds : ℕ) (k : ℤ) (s : BoleySampler) :
    RandR (Option (List (Option (Finset ℕ))) × BoleySampler) :=
  boleyPatterns order rounds k.toNat s

end Verif
