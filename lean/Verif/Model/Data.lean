/-
`corset/data.py` and the train/test split of `corset/utils_data.py`. A matrix is the list of its rows
together with its number of columns; the content of a row is arbitrary.
-/
import Verif.Model.Rand

namespace Verif

/-! ### `shuffle_split_data` -/

/-- `numpy.random.choice(range(n), k)`: `k` independent uniform draws, with replacement
(`corset/utils_data.py:468`). -/
def drawIndices (n : ℕ) : ℕ → Rand (List ℕ)
  | 0 => pure []
  | k + 1 => do
    let i ← uniformIdx n
    let is ← drawIndices n k
    return i :: is

/-- `xs[index_array]` for a one-dimensional index array. -/
def takeRows {α : Type} (xs : List α) (idx : List ℤ) : Py (List α) := idx.mapM (pyGet xs)

/-- `int(q)`: truncation towards zero. -/
def pyInt (q : ℚ) : ℤ := if 0 ≤ q then ⌊q⌋ else ⌈q⌉

/-- The four parts returned by `shuffle_split_data`. -/
structure Split (α β : Type) where
  trainX : List α
  trainY : List β
  testX : List α
  testY : List β

/-- The part of `shuffle_split_data` after the draw (`corset/utils_data.py:470-475`); on an integer
array `~i` is `-i - 1`. -/
def splitAt {α β : Type} (X : List α) (y : List β) (idx : List ℕ) : Py (Split α β) := do
  let tX ← takeRows X (idx.map fun i : ℕ => (i : ℤ))
  let tY ← takeRows y (idx.map fun i : ℕ => (i : ℤ))
  let sX ← takeRows X (idx.map fun i : ℕ => -(i : ℤ) - 1)
  let sY ← takeRows y (idx.map fun i : ℕ => -(i : ℤ) - 1)
  return { trainX := tX, trainY := tY, testX := sX, testY := sY }

/-- `shuffle_split_data` (`corset/utils_data.py:466-475`). Simplifications: the product of the
proportion and the number of rows is exact; a matrix without rows (for which numpy builds an index
array of floats) is reported as `IndexError`. A negative size is a `ValueError` of numpy. -/
def shuffleSplitData {α β : Type} (X : List α) (y : List β) (proportion : ℚ) : Rand (Split α β) :=
  if X.length = 0 then .raise .indexError
  else if pyInt (proportion * X.length) < 0 then .raise .valueError
  else do
    let idx ← drawIndices X.length (pyInt (proportion * X.length)).toNat
    Rand.lift (splitAt X y idx)

/-! ### `Dataset` -/

/-- A matrix seen by `Dataset`: its rows and the number of columns. -/
structure RowMat (ρ : Type) where
  rows : List ρ
  ncols : ℕ

/-- The attributes of a `Dataset` object (`corset/data.py:41-45, 119, 127-136, 149-155`); `none`: the
attribute does not exist. Names, label frequencies and the cached graph are not modelled. -/
structure DatasetObj (ρ : Type) where
  splitTrain : Bool
  trainRatio : ℚ
  trnX : Option (RowMat ρ)
  trnY : Option (RowMat ρ)
  tstX : Option (RowMat ρ)
  tstY : Option (RowMat ρ)
  devX : Option (RowMat ρ)
  devY : Option (RowMat ρ)

/-- `Dataset()` with its traits (`corset/data.py:41-45`). -/
def DatasetObj.new {ρ : Type} (splitTrain : Bool) (trainRatio : ℚ) : DatasetObj ρ :=
  { splitTrain := splitTrain, trainRatio := trainRatio, trnX := none, trnY := none, tstX := none,
    tstY := none, devX := none, devY := none }

/-- `self.attr`. -/
def attr {α : Type} : Option α → Py α
  | some a => .ok a
  | none => .error .attributeError

/-- The sizes sklearn 1.0.2 computes for `train_test_split(X, Y, train_size=ratio)`: `ValueError` for a
ratio outside the open unit interval or an empty training part. The product is exact. -/
def splitSizes (n : ℕ) (ratio : ℚ) : Py (ℕ × ℕ) :=
  if ratio ≤ 0 ∨ 1 ≤ ratio then .error .valueError
  else if ⌊ratio * n⌋.toNat = 0 then .error .valueError
  else .ok (⌊ratio * n⌋.toNat, n - ⌊ratio * n⌋.toNat)

/-- `train_test_split(X, Y, train_size=ratio, random_state=1234)` of sklearn 1.0.2. `perm n` stands for
`RandomState(1234).permutation(n)`: the first `n_test` entries are the held-out rows, the next
`n_train` entries the training rows. Returns `X_train, X_test, Y_train, Y_test`. -/
def trainTestSplit {ρ : Type} (perm : ℕ → List ℕ) (X Y : RowMat ρ) (ratio : ℚ) :
    Py (RowMat ρ × RowMat ρ × RowMat ρ × RowMat ρ) := do
  if X.rows.length ≠ Y.rows.length then .error .valueError
  else
    let (ntrain, ntest) ← splitSizes X.rows.length ratio
    let xtr ← takeRows X.rows ((pySlice (perm X.rows.length) ntest (ntest + ntrain)).map fun i : ℕ => (i : ℤ))
    let xte ← takeRows X.rows (((perm X.rows.length).take ntest).map fun i : ℕ => (i : ℤ))
    let ytr ← takeRows Y.rows ((pySlice (perm X.rows.length) ntest (ntest + ntrain)).map fun i : ℕ => (i : ℤ))
    let yte ← takeRows Y.rows (((perm X.rows.length).take ntest).map fun i : ℕ => (i : ℤ))
    return (⟨xtr, X.ncols⟩, ⟨xte, X.ncols⟩, ⟨ytr, Y.ncols⟩, ⟨yte, Y.ncols⟩)

/-- `Dataset.split_train_if_needed` (`corset/data.py:125-136`): the outcome and the object afterwards. -/
def DatasetObj.splitTrainIfNeeded {ρ : Type} (perm : ℕ → List ℕ) (d : DatasetObj ρ) :
    Py Unit × DatasetObj ρ :=
  if d.splitTrain then
    match attr d.trnX, attr d.trnY with
    | .ok X, .ok Y =>
      match trainTestSplit perm X Y d.trainRatio with
      | .ok (xtr, xte, ytr, yte) =>
        (.ok (), { d with trnX := some xtr, devX := some xte, trnY := some ytr, devY := some yte })
      | .error e => (.error e, d)
    | .error e, _ => (.error e, d)
    | _, .error e => (.error e, d)
  else (.ok (), { d with devX := none, devY := none })

/-- `Dataset._check_shapes` (`corset/data.py:157-170`). -/
def DatasetObj.checkShapes {ρ : Type} (d : DatasetObj ρ) : Py Unit := do
  let X ← attr d.trnX
  let Y ← attr d.trnY
  let X' ← attr d.tstX
  let Y' ← attr d.tstY
  if X.rows.length ≠ Y.rows.length then .error .assertionError
  else if X'.rows.length ≠ Y'.rows.length then .error .assertionError
  else if X.ncols ≠ X'.ncols then .error .assertionError
  else if Y.ncols ≠ Y'.ncols then .error .assertionError
  else .ok ()

/-- `Dataset.set_data` (`corset/data.py:149-155`): the attributes are assigned before the checks. -/
def DatasetObj.setData {ρ : Type} (perm : ℕ → List ℕ) (d : DatasetObj ρ) (X Y X' Y' : RowMat ρ) :
    Py Unit × DatasetObj ρ :=
  match ({ d with trnX := some X, trnY := some Y, tstX := some X', tstY := some Y' } :
      DatasetObj ρ).checkShapes with
  | .error e => (.error e, { d with trnX := some X, trnY := some Y, tstX := some X', tstY := some Y' })
  | .ok () =>
    ({ d with trnX := some X, trnY := some Y, tstX := some X', tstY := some Y' } :
      DatasetObj ρ).splitTrainIfNeeded perm

/-- `Dataset.ndev` (`corset/data.py:176-181`). -/
def DatasetObj.ndev {ρ : Type} (d : DatasetObj ρ) : Py ℕ :=
  if d.splitTrain then do
    let X ← attr d.devX
    return X.rows.length
  else .error .attributeError

/-- `Dataset.shape` (`corset/data.py:195-200`), with `ntrn`, `ntst`, `nfeat`, `ncls`
(`corset/data.py:172-193`): the items of the dictionary in insertion order. -/
def DatasetObj.shape {ρ : Type} (d : DatasetObj ρ) : Py (List (String × ℕ)) := do
  let X ← attr d.trnX
  let X' ← attr d.tstX
  let Y ← attr d.trnY
  if d.splitTrain then
    let m ← d.ndev
    return [("ntrn", X.rows.length), ("ntst", X'.rows.length), ("nfeat", X.ncols), ("ncls", Y.ncols),
      ("ndev", m)]
  else
    return [("ntrn", X.rows.length), ("ntst", X'.rows.length), ("nfeat", X.ncols), ("ncls", Y.ncols)]

end Verif
