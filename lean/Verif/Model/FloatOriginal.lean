/-
The head sampler with the proposal distribution `'original'` in double precision.

`Model/FloatCftp.lean` is about the proposal `'tight'`, whose weights are integers. With `'original'` the weights are
square roots, which are rounded, and so are their products and sums. The `CFTP` object is the `CftpD` of
`Model/FloatBoley.lean`: with weights that are doubles, the methods of `CFTP` and `BoleyCFTP` differ in the weight of a
pair only.
-/
import Verif.Model.FloatBoley

namespace Verif

/-- `numpy.sqrt` of a Python integer, which is converted to a double first: the double nearest to the root; NaN, without
an exception, for a negative number. -/
noncomputable def Dbl.sqrt (z : ℤ) : Dbl := if z < 0 then .nan else .round (Real.sqrt (fl z))

/-- The true weight of a pair, `corset/samplers/cftp.py:100-104`: a Python integer, which is converted to a double when
it is multiplied by one. -/
noncomputable def discrimWeightD (rows : List (List ℕ)) (p n : ℕ) : Dbl :=
  .round ((recordAt rows p \ recordAt rows n).card : ℝ)

/-- The attributes of a `CFTPDiscriminativitySampler` with `proposal_distribution='original'` that matter. -/
structure HeadSamplerD where
  minProba : ℚ
  doPrune : Bool
  space : Option (List (Finset ℤ))
  newRows : Option (List (List ℕ))
  cftp : Option CftpD
  lists : CftpState

/-- `__init__`, `corset/samplers/discrim.py:30-42`. -/
def HeadSamplerD.init (doPrune : Bool) (minProba : ℚ) : HeadSamplerD :=
  { minProba := minProba, doPrune := doPrune, space := none, newRows := none, cftp := none, lists := Cftp.reset }

/-- The attributes that the construction of the sample space uses. -/
def HeadSamplerD.parts (s : HeadSamplerD) : HeadSampler :=
  { minProba := s.minProba, doPrune := s.doPrune, tight := false, space := s.space, newRows := s.newRows,
    cftp := none, lists := s.lists }

/-- One entry of `_weight_dict`, `corset/samplers/discrim.py:63-70`. -/
noncomputable def headWeightD (spaceSize : ℕ) (rows : List (List ℕ)) (pos : List ℕ) (i : ℕ) : Py Dbl :=
  if i ∈ pos then do
    let row ← pyGet rows i
    return Dbl.sqrt row.length
  else do
    let row ← pyGet rows i
    return Dbl.sqrt ((spaceSize : ℤ) - row.length)

/-- `fit`, `corset/samplers/discrim.py:110-125`. -/
noncomputable def headFitD (env : HeadEnv) (s : HeadSamplerD) (X : Cmp) (y : List ℤ) : Py HeadSamplerD := do
  checkLabels y
  let sr ← spaceAndRows env s.parts X
  let w ← (List.range X.nMajor).mapM (headWeightD sr.1.length sr.2 (posIndices y))
  checkKeys X.nMajor (posIndices y ++ negIndices y)
  return { s with
    space := some sr.1
    newRows := some sr.2
    cftp := some { posList := posIndices y, negList := negIndices y, wPos := fun i => w.getD i .nan,
                   wNeg := fun i => w.getD i .nan, weight := discrimWeightD sr.2, maxIters := 1024 }
    lists := Cftp.reset }

/-- `sample_once()`, `corset/samplers/discrim.py:136-163`, when numpy's generator gives the numbers `ω`. The final
`random.choice` uses Python's generator, which draws an index without arithmetic on doubles. -/
noncomputable def headSampleOnceD (S : Dbl.Order) (env : HeadEnv) (s : HeadSamplerD) (ω : List ℕ) :
    RandR (Option (Finset ℤ) × HeadSamplerD) :=
  match s.cftp, s.newRows, s.space with
  | some c, some rows, some space => do
    let r ← .lift (c.sample S s.lists ω)
    match r.1 with
    | none => pure (none, { s with lists := r.2 })
    | some pr => do
      let id ← choosePattern env.order rows pr
      let T ← .lift (pyGet space id)
      return (some T, { s with lists := r.2 })
  | _, _, _ => .raise .attributeError

end Verif
