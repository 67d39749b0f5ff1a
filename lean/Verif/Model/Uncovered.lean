/-
Model of `corset/samplers/uncovered_area.py` and of `ReducedSpaceSampler.sample_once`
(`corset/samplers/surs.py`).

Simplifications common to this file: row weights are floats holding integers and are modelled as
integers; probabilities are rationals; a row id is a natural number (the code never passes a negative
one); printing and logging are omitted. A sample id stored in `new_rows` is looked up with a default
because every assignment procedure produces ids of existing samples (`C40`, `C41`).
-/
import Verif.Model.Rand

namespace Verif

/-- A `collections.Counter` seen as a partial map: `none` means the key is absent. -/
abbrev Counter := ℤ → Option ℕ

/-- `Counter(bag)`. -/
def counterOf (bag : List ℤ) : Counter := fun el => if el ∈ bag then some (bag.count el) else none

/-- `del c[el]`. -/
def Counter.del (c : Counter) (el : ℤ) : Counter := fun x => if x = el then none else c x

/-- The attributes of an `UncoveredAreaMixin` object (`corset/samplers/uncovered_area.py:11-15`). -/
structure UState where
  /-- `_sample_space`, a list of frozensets -/
  space : List (Finset ℤ)
  /-- `new_rows`: for each data record the ids of the samples it contains -/
  newRows : List (List ℕ)
  /-- `row_weights` -/
  weights : List ℤ
  /-- `row_probas` -/
  probas : List ℚ
  /-- `element_counter_per_row` -/
  counters : List Counter
  /-- `update_history`: affected rows and newly added elements, oldest first -/
  history : List (List ℕ × List ℤ)

/-- `self._sample_space[sample_id]`. -/
def sampleAt (space : List (Finset ℤ)) (id : ℕ) : Finset ℤ := space.getD id ∅

/-- `_update_row_probas`, `corset/samplers/uncovered_area.py:69-76`. -/
def rowProbas (weights : List ℤ) : List ℚ :=
  if weights.sum = 0 then List.replicate weights.length (1 / (weights.length : ℚ))
  else weights.map fun w : ℤ => (w : ℚ) / ((weights.sum : ℤ) : ℚ)

/-- Initial weight of a row, `corset/samplers/uncovered_area.py:20-23`. -/
def initWeight (space : List (Finset ℤ)) (row : List ℕ) : ℤ :=
  (row.map fun id => ((sampleAt space id).card : ℤ)).sum

/-- `bag_of_elems`, `corset/samplers/uncovered_area.py:35-37`. The elements of a set are listed in
increasing order; the counter does not depend on the order. -/
def bagOfElems (space : List (Finset ℤ)) (row : List ℕ) : List ℤ :=
  row.flatMap fun id => (sampleAt space id).sort (· ≤ ·)

/-- `_assign_row_weights` with `_build_element_counter`, `corset/samplers/uncovered_area.py:17-39`.
The update history is not touched. -/
def assignRowWeights (space : List (Finset ℤ)) (newRows : List (List ℕ))
    (history : List (List ℕ × List ℤ)) : UState :=
  { space := space
    newRows := newRows
    weights := newRows.map (initWeight space)
    probas := rowProbas (newRows.map (initWeight space))
    counters := newRows.map fun row => counterOf (bagOfElems space row)
    history := history }

/-- The inner loop of `update_row_weights` for one row, `corset/samplers/uncovered_area.py:62-65`. -/
def coverRow : ℤ → Counter → List ℤ → ℤ × Counter
  | w, c, [] => (w, c)
  | w, c, el :: els =>
    match c el with
    | some n => coverRow (w - n) (c.del el) els
    | none => coverRow w c els

/-- The outer loop of `update_row_weights`, `corset/samplers/uncovered_area.py:61-65`. Indexing with a
row id out of range raises `IndexError`; with an empty `new_set` nothing is indexed. -/
def coverRows (newSet : List ℤ) : List ℕ → List ℤ → List Counter → Py (List ℤ × List Counter)
  | [], ws, cs => .ok (ws, cs)
  | r :: rs, ws, cs =>
    if newSet = [] then coverRows newSet rs ws cs
    else
      match ws[r]?, cs[r]? with
      | some w, some c =>
        coverRows newSet rs (ws.set r (coverRow w c newSet).1) (cs.set r (coverRow w c newSet).2)
      | _, _ => .error .indexError

/-- `update_row_weights`, `corset/samplers/uncovered_area.py:55-67`, on an object whose counters have
been built (they are by `fit`). -/
def updateRowWeights (st : UState) (affected : List ℕ) (newSet : List ℤ) : Py UState := do
  let (ws, cs) ← coverRows newSet affected st.weights st.counters
  return { st with
    weights := ws, counters := cs, probas := rowProbas ws
    history := st.history ++ [(affected, newSet)] }

/-- Number of elements of `newSet` that occur in a sample: the innermost loops of
`update_row_weights_naive`, `corset/samplers/uncovered_area.py:49-52`. -/
def naiveDecrease (space : List (Finset ℤ)) (row : List ℕ) (newSet : List ℤ) : ℤ :=
  (row.map fun id => ((newSet.filter fun el => decide (el ∈ sampleAt space id)).length : ℤ)).sum

/-- `update_row_weights_naive`, `corset/samplers/uncovered_area.py:41-53`: one pass over the rows. -/
def naiveRows (space : List (Finset ℤ)) (newRows : List (List ℕ)) (newSet : List ℤ) :
    List ℕ → List ℤ → Py (List ℤ)
  | [], ws => .ok ws
  | r :: rs, ws =>
    match newRows[r]?, ws[r]? with
    | some row, some w => naiveRows space newRows newSet rs (ws.set r (w - naiveDecrease space row newSet))
    | _, _ => .error .indexError

/-- `update_row_weights_naive`, `corset/samplers/uncovered_area.py:41-53`. It does not touch the
counters or the history. -/
def updateRowWeightsNaive (st : UState) (affected : List ℕ) (newSet : List ℤ) : Py UState := do
  let ws ← naiveRows st.space st.newRows newSet affected st.weights
  return { st with weights := ws, probas := rowProbas ws }

/-- `covered_elems`, `corset/samplers/uncovered_area.py:88-91`. -/
def coveredElems (history : List (List ℕ × List ℤ)) (row : ℕ) : Finset ℤ :=
  history.foldl (fun acc u => if row ∈ u.1 then acc ∪ u.2.toFinset else acc) ∅

/-- `sample_weights` after subtraction, `corset/samplers/uncovered_area.py:82-97`. -/
def sampleWeights (st : UState) (row : ℕ) : List ℤ :=
  (st.newRows.getD row []).map fun id =>
    ((sampleAt st.space id).card : ℤ) - ((sampleAt st.space id ∩ coveredElems st.history row).card : ℤ)

/-- `numpy.allclose(a, b)` on two scalars with the default tolerances. -/
def allclose (a b : ℚ) : Bool := decide (|a - b| ≤ 1 / 100000000 + 1 / 100000 * |b|)

/-- `_sample_itemset_from_row`, `corset/samplers/uncovered_area.py:78-117`, for a row id in range. -/
def sampleItemsetFromRow (st : UState) (row : ℕ) : Rand (Finset ℤ) :=
  let sw := sampleWeights st row
  if allclose (sw.sum : ℤ) (st.weights.getD row 0 : ℤ) = false then .raise .exception
  else if sw.sum = 0 then .raise .noMoreSamples
  else do
    let idx ← npChoice (sw.map fun w : ℤ => (w : ℚ) / ((sw.sum : ℤ) : ℚ))
    return sampleAt st.space ((st.newRows.getD row []).getD idx 0)

/-- `ReducedSpaceSampler.sample_once`, `corset/samplers/surs.py:36-42`. -/
def sampleOnce (st : UState) : Rand (Finset ℤ) := do
  let row ← npChoice st.probas
  sampleItemsetFromRow st row

/-- A sequence of `update_row_weights` calls. -/
def applyUpdates (st : UState) : List (List ℕ × List ℤ) → Py UState
  | [] => .ok st
  | u :: us => do
    let st' ← updateRowWeights st u.1 u.2
    applyUpdates st' us

/-- A sequence of `update_row_weights_naive` calls. -/
def applyUpdatesNaive (st : UState) : List (List ℕ × List ℤ) → Py UState
  | [] => .ok st
  | u :: us => do
    let st' ← updateRowWeightsNaive st u.1 u.2
    applyUpdatesNaive st' us

/-- The object `UncoveredAreaSampler` right after `fit` when it had never been used before
(`corset/samplers/uncovered_area.py:141-152`), given the sample space and the assignment. -/
def freshSampler (space : List (Finset ℤ)) (newRows : List (List ℕ)) : UState :=
  assignRowWeights space newRows []

/-- Fitting again an object that has already been used: `corset/samplers/uncovered_area.py:146-152`
keeps `update_history`. -/
def refit (st : UState) (space : List (Finset ℤ)) (newRows : List (List ℕ)) : UState :=
  assignRowWeights space newRows st.history

end Verif
