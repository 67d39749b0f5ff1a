/-
`preprocessing` and `read_data` of `corset/utils_data.py`: from a table of categories to two matrices of zeros
and ones. `pandas.read_csv` is not modelled; a table is the list of its rows, a missing cell is `none`.

Simplification: the values of a column are linearly ordered (pandas gives every column one type; it orders
the categories by value).
-/
import Verif.Py
import Mathlib.Data.List.Sort

namespace Verif

namespace Preprocess

variable {V : Type} [LinearOrder V]

/-- A `pandas.DataFrame` read without header: its columns are named `0 .. ncols - 1`. -/
structure Frame (V : Type) where
  rows : List (List (Option V))
  ncols : ℕ

/-- The values of a column that are not missing, one per row. -/
def Frame.values (df : Frame V) (i : ℕ) : List V := df.rows.filterMap fun r => r.getD i none

/-- `df.nunique().values[i]` (`corset/utils_data.py:53, 55`): missing cells do not count. -/
def Frame.nunique (df : Frame V) (i : ℕ) : ℕ := (df.values i).dedup.length

/-- `columns_to_keep` (`corset/utils_data.py:53`). -/
def Frame.columnsToKeep (df : Frame V) : List ℕ :=
  (List.range df.ncols).filter fun i => df.nunique i < 15 ∧ 3 ≤ df.nunique i

/-- `label_columns` (`corset/utils_data.py:55`). -/
def Frame.labelColumns (df : Frame V) : List ℕ :=
  (List.range df.ncols).filter fun i => df.nunique i < 3

/-- The categories of `df[col].astype('category')` (`corset/utils_data.py:64, 70`), in increasing order. -/
def Frame.categories (df : Frame V) (i : ℕ) : List V :=
  ((df.values i).insertionSort (· ≤ ·)).dedup

/-- `pandas.get_dummies(df[cols]).to_numpy()` when every column is categorical (`corset/utils_data.py:65,
71, 73`): one column for each category, 0 in each of them for a missing cell. Without columns pandas has
nothing to concatenate and raises `ValueError`. -/
def Frame.getDummies (df : Frame V) (cols : List ℕ) : Py (List (List ℕ)) :=
  if cols = [] then .error .valueError
  else .ok (df.rows.map fun r => cols.flatMap fun i =>
    (df.categories i).map fun v => if r.getD i none = some v then 1 else 0)

/-- `preprocessing` (`corset/utils_data.py:38-73`): features and labels. -/
def preprocessing (df : Frame V) : Py (List (List ℕ) × List (List ℕ)) := do
  let L ← df.getDummies df.labelColumns
  let D ← df.getDummies df.columnsToKeep
  return (D, L)

end Preprocess

end Verif
