/-
scipy compressed sparse matrices and the matrix/set helpers of `corset/utils.py`.
-/
import Verif.Py

namespace Verif

/-- A scipy compressed matrix. For a `csr_matrix` the major axis is the rows, for a `csc_matrix`
it is the columns. Data are integers (the code uses 0/1 matrices of various numeric types). -/
structure Cmp where
  nMajor : ℕ
  nMinor : ℕ
  indptr : List ℕ
  indices : List ℕ
  data : List ℤ
  deriving DecidableEq, Repr

namespace Cmp

/-- `indptr[i]` as a position into `indices`/`data` (0 past the end; only used for `i ≤ nMajor`). -/
def ptr (m : Cmp) (i : ℕ) : ℕ := m.indptr.getD i 0

/-- The structural invariants scipy maintains for a compressed matrix
(`scipy.sparse._compressed.check_format`). -/
structure WF (m : Cmp) : Prop where
  len_indptr : m.indptr.length = m.nMajor + 1
  ptr_zero : m.ptr 0 = 0
  ptr_mono : ∀ i < m.nMajor, m.ptr i ≤ m.ptr (i + 1)
  ptr_last : m.ptr m.nMajor = m.indices.length
  len_data : m.data.length = m.indices.length
  idx_lt : ∀ j ∈ m.indices, j < m.nMinor

/-- The stored column (minor) indices of major line `i`: `indices[indptr[i]:indptr[i+1]]`. -/
def segIdx (m : Cmp) (i : ℕ) : List ℕ := pySlice m.indices (m.ptr i) (m.ptr (i + 1))

/-- The stored values of major line `i`: `data[indptr[i]:indptr[i+1]]`. -/
def segData (m : Cmp) (i : ℕ) : List ℤ := pySlice m.data (m.ptr i) (m.ptr (i + 1))

/-- The stored (index, value) pairs of major line `i`. -/
def entries (m : Cmp) (i : ℕ) : List (ℕ × ℤ) := (m.segIdx i).zip (m.segData i)

/-- scipy's `nnz` (`getnnz`): the number of stored entries, `int(indptr[-1])`. -/
def nnz (m : Cmp) : ℕ := m.ptr m.nMajor

/-- Build a compressed matrix from its major lines (what `tocsr`/`tocsc`/`lil.tocsr` produce). -/
def ofLines (nMinor : ℕ) (lines : List (List (ℕ × ℤ))) : Cmp where
  nMajor := lines.length
  nMinor := nMinor
  indptr := (lines.map List.length).scanl (· + ·) 0
  indices := lines.flatten.map Prod.fst
  data := lines.flatten.map Prod.snd

/-- scipy's conversion between the CSR and CSC formats of the same matrix (`tocsr()`, `tocsc()`):
the result's major line `j` lists, by increasing major index `i` of the source, the entries
stored at `(i, j)`. Explicit zeros are kept, as in scipy. -/
def flip (m : Cmp) : Cmp :=
  ofLines m.nMajor <| (List.range m.nMinor).map fun j =>
    (List.range m.nMajor).flatMap fun i =>
      ((m.entries i).filter (fun e => e.1 = j)).map (fun e => (i, e.2))

end Cmp

/-- `convert_matrix_to_sets` (`corset/utils.py:62-65`) on a CSR matrix (which `_ensure_is_csrmatrix`,
`corset/utils.py:56-59`, leaves as it is):
`set(m[i, :].nonzero()[1])` for every row; `nonzero` keeps stored entries whose value is not 0. -/
def convertMatrixToSets (m : Cmp) : List (Finset ℕ) :=
  (List.range m.nMajor).map fun i =>
    (((m.entries i).filter (fun e => e.2 ≠ 0)).map Prod.fst).toFinset

/-- `convert_matrix_to_sets_v2` (`corset/utils.py:68-77`) on a CSR matrix. -/
def convertMatrixToSetsV2 (m : Cmp) : List (Finset ℕ) :=
  (List.range m.nMajor).map fun i =>
    (pySlice m.indices (m.ptr i) (m.ptr (i + 1))).toFinset

/-- One index of the fancy column selection `matrix[:, cols]`; `IndexError` outside
`[-ncols, ncols)`. -/
def selectCol (m : Cmp) (c : ℤ) : Py ℕ :=
  match pyIndex m.nMajor c with
  | some k => .ok k
  | none => .error .indexError

/-- The value of a CSC matrix in column `c`, row `i` (sum of the stored entries). -/
def cellSum (m : Cmp) (c i : ℕ) : ℤ :=
  (((m.entries c).filter (fun e => e.1 = i)).map Prod.snd).sum

/-- `conjunctive_collapse` (`corset/utils.py:101-108`) on a CSC matrix: fancy column selection,
row sums, comparison with the number of columns. For an empty list the row sums are all 0, so
every row compares equal. -/
def conjunctiveCollapse (m : Cmp) (cols : List ℤ) : Py (List Bool) := do
  let cs ← cols.mapM (selectCol m)
  return (List.range m.nMinor).map fun i =>
    decide ((cs.map fun c => cellSum m c i).sum = (cols.length : ℤ))

/-- The inner `for a_set in list_of_sets[1:]` loop with its `break`
(`corset/utils.py:128-135`). -/
def inEvery (el : ℕ) : List (Finset ℕ) → Bool
  | [] => true
  | s :: rest => if el ∉ s then false else inEvery el rest

/-- `ret = np.zeros(n, dtype=bool); ret[shared_rows] = 1` (`corset/utils.py:137-138`);
assigning at a row `≥ n` raises `IndexError`. -/
def maskOf (n : ℕ) (rows : List ℕ) : Py (List Bool) :=
  if ∀ r ∈ rows, r < n then .ok ((List.range n).map fun i => decide (i ∈ rows))
  else .error .indexError

/-- `set(indices[indptr[i]:indptr[i+1]])` with Python indexing (`corset/utils.py:121`). -/
def columnRowSet (m : Cmp) (i : ℤ) : Py (Finset ℕ) := do
  let a ← pyGet m.indptr i
  let b ← pyGet m.indptr (i + 1)
  return (pySlice m.indices a b).toFinset

/-- The intersection loop of `conjunctive_collapse_v2` (`corset/utils.py:122-135`): sort by size,
scan the smallest set, keep the elements found in all others. The set `smallest_set` is iterated
in increasing order (the order only affects the order of `shared_rows`, which is used as an index
list). -/
def sharedRows (listOfSets : List (Finset ℕ)) : Py (List ℕ) :=
  match listOfSets.mergeSort (fun s t => decide (s.card ≤ t.card)) with
  | [] => .error .indexError
  | smallest :: rest => .ok ((smallest.sort (· ≤ ·)).filter (fun el => inEvery el rest))

/-- `conjunctive_collapse_v2` (`corset/utils.py:111-139`) on a CSC matrix. -/
def conjunctiveCollapseV2 (m : Cmp) (cols : List ℤ) : Py (List Bool) := do
  if cols.length = 0 then
    .error .assertionError
  else
    let listOfSets ← cols.mapM (columnRowSet m)
    let shared ← sharedRows listOfSets
    maskOf m.nMinor shared

/-- `binary_vector_to_set` (`corset/utils.py:142-144`). -/
def binaryVectorToSet (v : List Bool) : Finset ℕ :=
  (Finset.range v.length).filter (fun i => v[i]? = some true)

/-- The inner assignment loop of `convert_sets_to_matrix` for one set
(`corset/utils.py:157-158`): `m[i, j] = 1` on a `lil_matrix` raises `IndexError` for `j`
outside `[-L, L)`; set elements are modelled as non-negative. A lil row keeps its columns
sorted and without duplicates. -/
def lilRow (L : ℕ) (s : Finset ℕ) : Py (List (ℕ × ℤ)) :=
  if ∀ j ∈ s, j < L then .ok ((s.sort (· ≤ ·)).map fun j => (j, 1)) else .error .indexError

/-- `convert_sets_to_matrix` (`corset/utils.py:147-160`). -/
def convertSetsToMatrix (sets : List (Finset ℕ)) (L : ℕ) : Py Cmp := do
  let lines ← sets.mapM (lilRow L)
  return Cmp.ofLines L lines

/-- `support_size` (`corset/utils.py:20-23`): the number of rows whose selected columns sum to
`len(ids)`. -/
def supportSize (m : Cmp) (ids : List ℤ) : Py ℕ := do
  let v ← conjunctiveCollapse m ids
  return v.countP (· = true)

/-- Row `i`, column `j` of a CSR matrix selected by a boolean mask: `M[mask]` keeps the rows
whose mask entry is true, in order. -/
def selectLines (m : Cmp) (keep : ℕ → Bool) : Cmp :=
  Cmp.ofLines m.nMinor (((List.range m.nMajor).filter keep).map m.entries)

/-- The positions where `flatten(Y.sum(axis=1)) > 0`, `corset/utils.py:81`. -/
def labelledRows (Y : Cmp) : List ℕ :=
  (List.range Y.nMajor).filter fun i => decide (0 < ((Y.entries i).map Prod.snd).sum)

/-- `M[mask]` on a CSR matrix. scipy turns the mask into the list of its true positions, without comparing
lengths; a position beyond the last row raises `IndexError`. -/
def takeLines (m : Cmp) (rows : List ℕ) : Py Cmp :=
  if ∀ i ∈ rows, i < m.nMajor then .ok (Cmp.ofLines m.nMinor (rows.map m.entries)) else .error .indexError

/-- `filter_rows_with_no_labels` (`corset/utils.py:80-82`) on CSR matrices. -/
def filterRowsWithNoLabels (X Y : Cmp) : Py (Cmp × Cmp) := do
  let X' ← takeLines X (labelledRows Y)
  let Y' ← takeLines Y (labelledRows Y)
  return (X', Y')

end Verif
