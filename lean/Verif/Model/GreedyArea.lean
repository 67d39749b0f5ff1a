/-
Model of `corset/samplers/greedy_area.py`: co-occurrence counts and the greedy tail sampler.

A numpy matrix is the list of its rows. Simplifications: the iteration order of a Python set is a function
of its content (any traversal, given as a parameter); row weights are exact rationals instead of doubles
(`Model/FloatGreedyArea.lean` repeats the sampler in doubles, with `OverflowError` and infinite weights).
-/
import Verif.Model.Rand

namespace Verif

namespace GreedyArea

/-- `[j for j in range(len(row)) if row[j] == 1]` (`corset/samplers/greedy_area.py:16-18, 112`). -/
def ones (row : List ℤ) : List ℕ := (List.range row.length).filter fun j => row.getD j 0 = 1

/-- `d[k] += 1` on a `defaultdict(int)`, in insertion order. -/
def bump : List (ℕ × ℕ) → ℕ → List (ℕ × ℕ)
  | [], k => [(k, 1)]
  | (k', n) :: d, k => if k' = k then (k', n + 1) :: d else (k', n) :: bump d k

/-- A `defaultdict(lambda: defaultdict(int))`, in insertion order. -/
abbrev Table := List (ℕ × List (ℕ × ℕ))

/-- `d[a][b] += 1`. -/
def Table.bump : Table → ℕ → ℕ → Table
  | [], a, b => [(a, [(b, 1)])]
  | (a', d) :: t, a, b => if a' = a then (a', GreedyArea.bump d b) :: t else (a', d) :: Table.bump t a b

/-- Reading `d[k]` of a `defaultdict(int)`. The entry that the read creates is not modelled: it holds 0. -/
def read : List (ℕ × ℕ) → ℕ → ℕ
  | [], _ => 0
  | (k', n) :: d, k => if k' = k then n else read d k

/-- Reading `d[a][b]`. -/
def Table.read : Table → ℕ → ℕ → ℕ
  | [], _, _ => 0
  | (a', d) :: t, a, b => if a' = a then GreedyArea.read d b else Table.read t a b

/-- The two nested loops over the pairs of a bag (`corset/samplers/greedy_area.py:22-28`, `30-36`). -/
def addPairs : List ℕ → Table → Table
  | [], d => d
  | a :: rest, d => addPairs rest (rest.foldl (fun d b => (d.bump a b).bump b a) d)

/-- The loop over the labels and attributes of a row (`corset/samplers/greedy_area.py:41-43`). -/
def addCross (labels attrs : List ℕ) (d : Table) : Table :=
  labels.foldl (fun d label => attrs.foldl (fun d attr => d.bump label attr) d) d

/-- What `compute_frequencies` returns, in its order: `d`, `d_formatted`, `Counter(all_labels)`, `d_label`,
`d_attributes`. -/
structure Freqs where
  d : Table
  formatted : Table
  allLabels : List ℕ
  label : Table
  attributes : Table

/-- The state of the loop over the rows. -/
structure Acc where
  d : Table
  allLabels : List ℕ
  label : Table
  attributes : Table

/-- One row (`corset/samplers/greedy_area.py:16-43`). -/
def addRow (order : Finset ℕ → List ℕ) (acc : Acc) (x y : List ℤ) : Acc :=
  { label := addPairs (order (ones y).toFinset) acc.label
    attributes := addPairs (order (ones x).toFinset) acc.attributes
    allLabels := acc.allLabels ++ order (ones y).toFinset
    d := addCross (order (ones y).toFinset) (order (ones x).toFinset) acc.d }

/-- The loop over the rows of `X` (`corset/samplers/greedy_area.py:15-43`); `IndexError` when `Y` has fewer
rows. -/
def addRows (order : Finset ℕ → List ℕ) : List (List ℤ) → List (List ℤ) → Acc → Py Acc
  | [], _, acc => .ok acc
  | _ :: _, [], _ => .error .indexError
  | x :: X, y :: Y, acc => addRows order X Y (addRow order acc x y)

/-- `compute_frequencies` (`corset/samplers/greedy_area.py:7-53`). -/
def computeFrequencies (order : Finset ℕ → List ℕ) (X Y : List (List ℤ)) : Py Freqs := do
  let acc ← addRows order X Y { d := [], allLabels := [], label := [], attributes := [] }
  return { d := acc.d
           formatted := acc.d.map fun e => (e.1, e.2.mergeSort fun a b => decide (a.2 ≤ b.2))
           allLabels := acc.allLabels, label := acc.label, attributes := acc.attributes }

/-- One weight of `compute_weights` (`corset/samplers/greedy_area.py:88-96`). -/
def tailWeight (row : List ℤ) : ℚ := ((ones row).length : ℚ) * (2 : ℚ) ^ (row.sum - 1)

/-- A fitted `GreedyAreaSampler`. -/
structure Fitted where
  Y : List (List ℤ)
  freqs : Freqs
  weights : List ℚ

/-- `GreedyAreaSampler.fit` (`corset/samplers/greedy_area.py:62-76`). -/
def fit (order : Finset ℕ → List ℕ) (X Y : List (List ℤ)) : Py Fitted := do
  let f ← computeFrequencies order X Y
  return { Y := Y, freqs := f, weights := Y.map tailWeight }

/-- `random.choices(range(len(ws)), weights=ws, k=1)[0]` for non-negative weights. When their total is 0,
Python 3.9 and later (`strict`) raise `ValueError`; Python 3.8 returns the last item. -/
def choices (strict : Bool) (ws : List ℚ) : Rand ℕ :=
  if ws = [] then .raise .indexError
  else if ws.sum = 0 then if strict then .raise .valueError else pure (ws.length - 1)
  else npChoice (ws.map (· / ws.sum))

/-- `min(this_co_occurences)` for the elements of the solution (`corset/samplers/greedy_area.py:133-137`). -/
def minLink (co : ℕ → ℕ → ℕ) (e : ℕ) : List ℕ → Py ℕ
  | [] => .error .valueError
  | t :: T => .ok (T.foldl (fun m t => min m (co e t)) (co e t))

/-- The loop over the remaining elements (`corset/samplers/greedy_area.py:130-141`): the element chosen so
far with its link; `none` is `float("-inf")`. -/
def pickLoop (co : ℕ → ℕ → ℕ) (T : List ℕ) : List ℕ → Option (ℕ × ℕ) → Py (Option (ℕ × ℕ))
  | [], best => .ok best
  | e :: rest, best => do
    let m ← minLink co e T
    match best with
    | none => pickLoop co T rest (some (e, m))
    | some b => if b.2 < m then pickLoop co T rest (some (e, m)) else pickLoop co T rest (some b)

/-- The `while` loop (`corset/samplers/greedy_area.py:128-144`), `todo` elements to add: each pass adds an
element that was not in the solution. -/
def grow (co : ℕ → ℕ → ℕ) (order : Finset ℕ → List ℕ) : ℕ → Finset ℕ → Finset ℕ → Py (Finset ℕ)
  | 0, T, _ => .ok T
  | todo + 1, T, cur => do
    let best ← pickLoop co (order T) (order cur) none
    match best with
    | none => .error .unboundLocalError
    | some b => grow co order todo (insert b.1 T) (cur.erase b.1)

/-- `GreedyAreaSampler.sample_once` (`corset/samplers/greedy_area.py:98-148`); `none` is the pair of empty
sets that is returned for a row without labels. -/
def sampleOnce (strict : Bool) (order : Finset ℕ → List ℕ) (s : Fitted) : Rand (Option (Finset ℕ)) := do
  let i ← choices strict s.weights
  let row ← Rand.lift (pyGet s.Y i)
  if ones row = [] then return none
  else do
    let k ← choices strict ((List.range (ones row).length).map fun j : ℕ => (j : ℚ))
    let j ← uniformIdx (ones row).length
    let first ← Rand.lift (pyGet (ones row) j)
    let T ← Rand.lift (grow s.freqs.label.read order k {first} ((ones row).toFinset.erase first))
    return some T

end GreedyArea

end Verif
