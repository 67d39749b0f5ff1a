/-
Model of the samplers that draw a row and then an itemset inside the row: `BoleyAreaSampler`
(`corset/samplers/area.py`), `BoleyFrequencySampler` and `SURSFrequencySamplerMixin`
(`corset/samplers/freq.py`), the random subset and powerset helpers of `corset/utils.py`, and the
pattern step of `BoleyCFTPDiscriminativitySampler` (`corset/samplers/boley_discrim.py`).

Simplifications: draws are exact (see `Verif.Model.RandR`); quotients are real numbers; integer arrays
of numpy are 64-bit and wrap around; a `while True` loop is run for a given number of rounds, and the
result says whether it was left. The sets have natural numbers as elements.
-/
import Verif.Model.Head

namespace Verif

/-! ### Random subsets -/

/-- `for el in S: if np.random.rand() < 0.5: res.add(el)`, `corset/utils.py:186-191`, for the elements in
the order of the traversal. -/
noncomputable def coinSubset : List ℕ → RandR (Finset ℕ)
  | [] => pure ∅
  | el :: S => do
    let u ← RandR.unif fun u => pure u
    let res ← coinSubset S
    return (open Classical in if u < 1 / 2 then insert el res else res)

/-- `while True: res = m(); if ok(res): break`, run for a number of rounds; `none` when all of them were
used up. -/
def retry {α : Type} (m : RandR α) (ok : α → Bool) : ℕ → RandR (Option α)
  | 0 => pure none
  | k + 1 => do
    let a ← m
    if ok a then return some a else retry m ok k

/-- `draw_bernoulli_elementwise`, `corset/utils.py:182-200`. -/
noncomputable def drawBernoulli (order : Finset ℕ → List ℕ) (S : Finset ℕ) (excludeEmpty : Bool) (rounds : ℕ) :
    RandR (Option (Finset ℕ)) :=
  if excludeEmpty then retry (coinSubset (order S)) (fun res => decide (0 < res.card)) rounds
  else do
    let res ← coinSubset (order S)
    return some res

/-- `itertools.combinations(S, r)`, in its order. -/
def combinations : List ℕ → ℕ → List (List ℕ)
  | _, 0 => [[]]
  | [], _ + 1 => []
  | a :: S, r + 1 => (combinations S r).map (fun t => a :: t) ++ combinations S (r + 1)

/-- `powerset`, `corset/utils.py:202-210`. -/
def powersetTuples (S : List ℕ) (excludeEmpty : Bool) : List (List ℕ) :=
  (List.range' (if excludeEmpty then 1 else 0) (S.length + 1 - (if excludeEmpty then 1 else 0))).flatMap
    fun r => combinations S r

/-! ### Integer arrays -/

/-- The value a numpy `int64` holds after an operation with exact result `z`. -/
def i64 (z : ℤ) : ℤ := Int.bmod z (2 ^ 64)

/-- `weights / weights.sum()` on an `int64` array. A zero sum gives NaN or infinity in numpy; here it
gives zeros. Both are rejected by `numpy.random.choice`. -/
noncomputable def normaliseI64 (w : List ℤ) : List ℝ := w.map fun x : ℤ => (x : ℝ) / ((i64 w.sum : ℤ) : ℝ)

/-! ### `BoleyAreaSampler` -/

/-- `fit`, `corset/samplers/area.py:13-27`: the rows that have a label, as sets, and the probabilities.
The assertion that no row is empty is the `assertionError`. -/
noncomputable def areaFit (Y : Cmp) : Py (List (Finset ℕ) × List ℝ) :=
  let rows := convertMatrixToSets (selectLines Y fun i => decide (0 < ((Y.entries i).map Prod.snd).sum))
  if ∀ r ∈ rows, 0 < r.card then
    .ok (rows, normaliseI64 (rows.map fun r => i64 (i64 (2 ^ (r.card - 1)) * r.card)))
  else .error .assertionError

/-- `k_weights / k_weights.sum()`, `corset/samplers/area.py:35-36`: entry `i` belongs to `k = i + 1`. -/
noncomputable def sizeProbas (size : ℕ) : List ℝ :=
  let w := (List.range size).map fun i => ((size.choose (i + 1) : ℝ) * (i + 1 : ℝ))
  w.map fun x => x / w.sum

/-- `np.random.permutation(t)`: the entries are drawn one after the other without replacement. -/
noncomputable def npPermutation : (n : ℕ) → List ℕ → RandR (List ℕ)
  | 0, _ => pure []
  | n + 1, t => do
    let i ← pyChoiceIdx t.length
    let rest ← npPermutation n (t.eraseIdx i)
    return t.getD i 0 :: rest

/-- The end of `sample_once`, `corset/samplers/area.py:37-39`. -/
def areaItemset (k : ℕ) (perm : List ℕ) : Py (Finset ℕ) :=
  if (perm.take k).toFinset.card = k then .ok (perm.take k).toFinset else .error .assertionError

/-- `sample_once`, `corset/samplers/area.py:29-39`; `tuple(row)` lists the set in some order. -/
noncomputable def areaSampleOnce (order : Finset ℕ → List ℕ) (rows : List (Finset ℕ)) (probas : List ℝ) :
    RandR (Finset ℕ) := do
  let i ← npChoiceR probas
  let j ← npChoiceR (sizeProbas (order (rows.getD i ∅)).length)
  let perm ← npPermutation (order (rows.getD i ∅)).length (order (rows.getD i ∅))
  .lift (areaItemset (j + 1) perm)

/-! ### `BoleyFrequencySampler` -/

/-- `fit`, `corset/samplers/freq.py:12-17`. -/
noncomputable def freqFit (Y : Cmp) : List (Finset ℕ) × List ℝ :=
  (convertMatrixToSets Y, normaliseI64 ((convertMatrixToSets Y).map fun r => i64 (2 ^ r.card)))

/-- One round of the loop of `sample_once`, `corset/samplers/freq.py:25-27`. -/
noncomputable def freqRound (order : Finset ℕ → List ℕ) (rows : List (Finset ℕ)) (probas : List ℝ) :
    RandR (Finset ℕ) := do
  let i ← npChoiceR probas
  coinSubset (order (rows.getD i ∅))

/-- `sample_once`, `corset/samplers/freq.py:19-29`. -/
noncomputable def freqSampleOnce (order : Finset ℕ → List ℕ) (rows : List (Finset ℕ)) (probas : List ℝ)
    (rounds : ℕ) : RandR (Option (Finset ℕ)) :=
  retry (freqRound order rows probas) (fun res => decide (0 < res.card)) rounds

/-! ### Sampling by frequency in a reduced sample space -/

/-- `ReducedSpaceSampler.fit` with `SURSFrequencySamplerMixin._assign_row_weights`,
`corset/samplers/surs.py:26-34` and `corset/samplers/freq.py:40-41`: the row probabilities. -/
noncomputable def sursProbas (newRows : List (List ℕ)) : List ℝ :=
  normaliseI64 (newRows.map fun r => (r.length : ℤ))

/-- `ReducedSpaceSampler.sample_once` with `SURSFrequencySamplerMixin._sample_itemset_from_row`,
`corset/samplers/surs.py:36-42` and `corset/samplers/freq.py:43-52`. Drawing from an empty row raises
`ValueError`. -/
noncomputable def sursSampleOnce (space : List (Finset ℤ)) (newRows : List (List ℕ)) (probas : List ℝ) :
    RandR (Finset ℤ) := do
  let i ← npChoiceR probas
  let j ← (if (newRows.getD i []).length = 0 then RandR.raise .valueError
    else pyChoiceIdx (newRows.getD i []).length)
  .lift (pyGet space ((newRows.getD i []).getD j 0))

/-! ### `BoleyCFTPDiscriminativitySampler` -/

/-- The attributes of a `BoleyCFTPDiscriminativitySampler` that matter. -/
structure BoleySampler where
  rows : Option (List (Finset ℕ))
  cftp : Option Cftp
  lists : CftpState

/-- `__init__`, `corset/samplers/boley_discrim.py:25-30`. -/
def BoleySampler.init : BoleySampler := { rows := none, cftp := none, lists := Cftp.reset }

/-- `if self._rows is None: self._populate_rows(X)`, `corset/samplers/boley_discrim.py:106-107`. -/
def boleyRows (s : BoleySampler) (X : Cmp) : List (Finset ℕ) :=
  match s.rows with
  | none => convertMatrixToSetsV2 X
  | some rows => rows

/-- One entry of `_weight_dict`, `corset/samplers/boley_discrim.py:49-63`. -/
noncomputable def boleyRowWeight (rows : List (Finset ℕ)) (pos : List ℕ) (i : ℕ) : Py ℝ :=
  if i ∈ pos then do
    let row ← pyGet rows i
    return 2 ^ row.card - 1
  else .ok 1

open Classical in
/-- `_check_overflow`, `corset/samplers/boley_discrim.py:65-70`. -/
noncomputable def boleyCheckOverflow (w : List ℝ) : Py Unit :=
  if ∃ x ∈ w, x < 0 then .error .valueError else .ok ()

open Classical in
/-- The assertions in the constructor of `BoleyCFTP`, `corset/samplers/boley_cftp.py:33-37`. -/
noncomputable def boleyCheckWeights (w : List ℝ) (idx : List ℕ) : Py Unit :=
  if ∀ i ∈ idx, 0 ≤ w.getD i 0 then .ok () else .error .assertionError

/-- `fit`, `corset/samplers/boley_discrim.py:99-116`. -/
noncomputable def boleyFit (s : BoleySampler) (X : Cmp) (y : List ℤ) : Py BoleySampler := do
  checkLabels y
  let w ← (List.range X.nMajor).mapM (boleyRowWeight (boleyRows s X) (posIndices y))
  checkKeys X.nMajor (posIndices y)
  boleyCheckOverflow w
  checkKeys X.nMajor (negIndices y)
  boleyCheckWeights w (posIndices y ++ negIndices y)
  return { rows := some (boleyRows s X)
           cftp := some { posList := posIndices y, negList := negIndices y, wPos := fun i => w.getD i 0,
                          wNeg := fun i => w.getD i 0, W := boleyWeight (boleyRows s X), maxIters := 1024 }
           lists := Cftp.reset }

/-- The pattern drawn for a pair, `corset/samplers/boley_discrim.py:133-141`; `none` when the retry loop
has not ended. -/
noncomputable def boleyPattern (order : Finset ℕ → List ℕ) (rows : List (Finset ℕ)) (rounds : ℕ) (pr : ℕ × ℕ) :
    RandR (Option (Finset ℕ)) := do
  let p1 ← drawBernoulli order (rows.getD pr.1 ∅ \ rows.getD pr.2 ∅) true rounds
  match p1 with
  | none => pure none
  | some p1 => do
    let p2 ← drawBernoulli order (rows.getD pr.1 ∅ ∩ rows.getD pr.2 ∅) false rounds
    match p2 with
    | none => pure none
    | some p2 => pure (some (p1 ∪ p2))

/-- What `sample_once` of the Boley sampler does within a number of rounds of its retry loop. -/
inductive BoleyResult
  /-- it returns `None` -/
  | gaveUp
  /-- it returns the pattern -/
  | pattern (F : Finset ℕ)
  /-- it is still drawing -/
  | running
  deriving DecidableEq

/-- `BoleyResult` of the pattern step. -/
def BoleyResult.ofPattern : Option (Finset ℕ) → BoleyResult
  | none => .running
  | some F => .pattern F

/-- `sample_once`, `corset/samplers/boley_discrim.py:127-142`. -/
noncomputable def boleySampleOnce (order : Finset ℕ → List ℕ) (rounds : ℕ) (s : BoleySampler) :
    RandR (BoleyResult × BoleySampler) :=
  match s.cftp, s.rows with
  | some c, some rows => do
    let r ← c.sample s.lists
    match r.1 with
    | none => pure (.gaveUp, { s with lists := r.2 })
    | some pr => do
      let F ← boleyPattern order rows rounds pr
      return (.ofPattern F, { s with lists := r.2 })
  | _, _ => .raise .attributeError

/-- The weight of a pair of rows, `corset/samplers/boley_discrim.py:158-160`: `numpy.power` of two Python integers and
all that is computed from it are `int64`. -/
def boleyPairWeight (P N : Finset ℕ) : ℤ :=
  i64 (i64 (i64 (2 ^ (P \ N).card) - 1) * i64 (2 ^ (P ∩ N).card))

/-- `counter2proba`, `corset/utils.py:93-98`, on a dictionary with values of type `int64`: the sum wraps around. A zero
sum gives infinity in numpy; here it gives zeros. -/
def counter2probaI64 {α : Type} (counter : List (α × ℤ)) : List (α × ℚ) :=
  counter.map fun e => (e.1, (e.2 : ℚ) / (i64 (counter.map Prod.snd).sum : ℤ))

/-- `get_ground_truth_proba_for_pairs`, `corset/samplers/boley_discrim.py:150-165`. -/
def boleyTruthPairs (rows : List (Finset ℕ)) (pos neg : List ℕ) : List ((ℕ × ℕ) × ℚ) :=
  counter2probaI64 (((pos ×ˢ neg).map fun pr =>
    (pr, boleyPairWeight (rows.getD pr.1 ∅) (rows.getD pr.2 ∅))).filter fun e => 0 < e.2)

/-- `get_ground_truth_proba_for_samples`, `corset/samplers/boley_discrim.py:167-183`. A pattern is the
sorted tuple of its features; it is represented by the set. -/
def boleyTruthSamples (order : Finset ℕ → List ℕ) (rows : List (Finset ℕ)) (pos neg : List ℕ) :
    Py (List (Finset ℕ × ℚ)) :=
  counter2proba ((tallyOf ((pos ×ˢ neg).flatMap fun pr =>
    ((powersetTuples (order (rows.getD pr.1 ∅ \ rows.getD pr.2 ∅)) true) ×ˢ
      (powersetTuples (order (rows.getD pr.1 ∅ ∩ rows.getD pr.2 ∅)) false)).map fun p =>
        (p.1 ++ p.2).toFinset)).map fun e => (e.1, (e.2 : ℚ)))

end Verif
