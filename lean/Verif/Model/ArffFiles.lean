/-
The reader of the `genbase` files and the function `read_data_arff` of `corset/utils_data.py`, which chooses
the files and the reader.
-/
import Verif.Model.Arff
import Verif.Model.Data

namespace Verif

namespace Arff

/-- The code of one cell (`corset/utils_data.py:678-689`). `parse` is `float` followed by rounding to
`float16`. -/
def genbaseCell (parse : Text → Py ℚ) (t : Text) : Py ℚ :=
  if t = "YES".toList then .ok 1
  else if t = "NO".toList then .ok 0
  else if t = [] then .ok 0
  else parse t

/-- One data line (`corset/utils_data.py:674-694`): the cells after the first. A line with a single value is
broadcast by numpy. -/
def genbaseRow (parse : Text → Py ℚ) (n : ℕ) (line : Text) : Py (List ℚ) := do
  let vs ← ((splitChar ',' (inner line)).drop 1).mapM (genbaseCell parse)
  if vs.length = n then .ok vs
  else if vs.length = 1 then .ok (List.replicate n (vs.headD 0))
  else .error .valueError

/-- `read_data_arff_dense_genbase` (`corset/utils_data.py:639-755`): features and labels. The declarations
are read from the fourth line on; the declaration read at index `i` of the file is noted as column `i - 2`, and
`n_cols` is one more than the number of columns of the matrix. -/
def readGenbase (parse : Text → Py ℚ) (lines : List Text) (nLabels : ℤ) (sparsity : ℚ) :
    Py (List (List ℤ) × List (List ℤ)) := do
  let attrs ← denseAttributes (lines.drop 3)
  let n := attrs.length
  if lines.length < n + 5 then .error .valueError
  else do
    let A ← (lines.drop (n + 5)).mapM (genbaseRow parse n)
    let split := ((n : ℤ) + 1) - nLabels
    let w := (sliceTo (List.range n) split).length
    let numeric := ((List.range n).filter fun i => (attrs.getD i ([], false)).2).map (· + 1)
    let D ← binariseAll Quantile.binariseBelow sparsity w numeric (A.map fun r => sliceTo r split)
    return (dummies numeric w D, (A.map fun r => sliceFrom r split).map (·.map truncate))

/-- What `read_data_arff` returns. -/
structure Loaded where
  trainX : List (List ℤ)
  trainY : List (List ℤ)
  testX : List (List ℤ)
  testY : List (List ℤ)
  names : List Text

/-- `read_data_arff_sparse` or `read_data_arff_dense` (`corset/utils_data.py:427-428, 434, 451-452, 457`).
`content` is `open(path).readlines()`. -/
def readOne (parse : Text → Py ℚ) (content : Text → Py (List Text)) (sparse : Bool) (nLabels : ℤ) (sparsity : ℚ)
    (path : Text) : Py (List (List ℤ) × List (List ℤ) × List Text) := do
  let lines ← content path
  if sparse then do
    let (D, L, names) ← readSparse lines nLabels
    return (D.map (·.map fun v : ℕ => (v : ℤ)), L.map (·.map fun v : ℕ => (v : ℤ)), names)
  else readDense parse lines nLabels sparsity

/-- `read_data_arff` (`corset/utils_data.py:402-461`). `files` are the names of the regular files in the
directory. A proportion of 0 is the same as `False`. In the branch for `genbase` the variable returned as label
names is not assigned. -/
def readArff (parse : Text → Py ℚ) (files : List Text) (content : Text → Py (List Text)) (base : Text)
    (nLabels : ℤ) (sparsity proportion : ℚ) (sparse : Bool) : Rand Loaded :=
  let dataset := (splitChar '/' base).getLastD []
  let proportion := if files.any fun f => decide ("train".toList <:+: f) then 0 else proportion
  let one := readOne parse content sparse nLabels sparsity
  if proportion = 0 then Rand.lift do
    let trainPath := base ++ '/' :: dataset ++ "-train.arff".toList
    let testPath := base ++ '/' :: dataset ++ "-test.arff".toList
    if !sparse && dataset = "genbase".toList then do
      let lines ← content trainPath
      let _ ← readGenbase parse lines nLabels sparsity
      let lines ← content testPath
      let _ ← readGenbase parse lines nLabels sparsity
      .error .unboundLocalError
    else do
      let (X, Y, _) ← one trainPath
      let (X', Y', names) ← one testPath
      return { trainX := X, trainY := Y, testX := X', testY := Y', names := names }
  else do
    let (X, Y, names) ← Rand.lift (one (base ++ '/' :: dataset ++ ".arff".toList))
    let s ← shuffleSplitData X Y proportion
    return { trainX := s.trainX, trainY := s.trainY, testX := s.testX, testY := s.testY, names := names }

end Arff

end Verif
