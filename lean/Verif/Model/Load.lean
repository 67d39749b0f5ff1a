/-
`Dataset.load` (`corset/data.py:28-123`) and the graph of a data set (`corset/data.py:138-147`).

The library `mlrl.testbed` is a function from paths to matrices and names. Simplification: the number of columns
of a matrix read from an ARFF file is the length of its first row (0 if it has no rows).
-/
import Verif.Model.ArffFiles

namespace Verif

/-- `try`: the result or the exception as a value. -/
def Rand.attempt {α : Type} : Rand α → Rand (Py α)
  | .done r => .done (.ok r)
  | .choice p k => .choice p fun i => (k i).attempt

namespace Load

open Arff (Text)

/-- The name of a label or of a feature: a text, or a number made by `numpy.arange`. -/
inductive Name
  | text (t : Text)
  | num (n : ℕ)
  deriving DecidableEq

/-- `{name: i for i, name in enumerate(names)}` (`corset/data.py:112, 114`), from the index `i` on, added to the
dictionary `d`. A name that is there already gets the new index. -/
def enumerateFrom : ℕ → List Name → (Name → Option ℕ) → Name → Option ℕ
  | _, [], d => d
  | i, x :: xs, d => enumerateFrom (i + 1) xs fun y => if y = x then some i else d y

/-- A matrix of integers. -/
abbrev Mat := RowMat (List ℤ)

/-- A matrix given by its rows. -/
def ofRows (rows : List (List ℤ)) : Mat := ⟨rows, (rows.headD []).length⟩

/-- `flatten(Y.tocsc().sum(axis=0))` (`corset/data.py:117`). -/
def columnSums (Y : Mat) : List ℤ := (List.range Y.ncols).map fun j => (Y.rows.map fun r => r.getD j 0).sum

/-- What `load_data_set_and_meta_data` of `mlrl.testbed` returns. -/
structure LibSet where
  X : Mat
  Y : Mat
  labels : List Text
  features : List Text

/-- The world outside: number parser, directories, files, and the library. -/
structure World where
  parse : Text → Py ℚ
  listing : Text → Py (List Text)
  content : Text → Py (List Text)
  lib : Text → Text → Text → Py LibSet

/-- The six values at the end of the case distinction of `load`. -/
structure Fetched where
  trnX : Mat
  trnY : Mat
  tstX : Mat
  tstY : Mat
  features : List Name
  labels : List Name

/-- `load_toy_dataset` (`corset/data.py:28-39`). -/
def toy : Fetched :=
  { trnX := ⟨[[1, 1, 0], [0, 1, 1], [1, 0, 1]], 3⟩, trnY := ⟨[[1, 1], [0, 1], [1, 0]], 2⟩,
    tstX := ⟨[[1, 1, 0], [0, 1, 1], [1, 0, 1]], 3⟩, tstY := ⟨[[1, 1], [0, 1], [1, 0]], 2⟩,
    features := (List.range 3).map .num, labels := (List.range 2).map .num }

/-- `sparse_map` and `n_labels_map` (`corset/data.py:57-70`); `none` for the names of the other branches
(`corset/data.py:50-56`). -/
def arffOf (name : Text) : Option (Bool × ℕ) :=
  if name = "mediamill".toList then some (false, 101)
  else if name = "birds".toList then some (false, 19)
  else if name = "bookmarks".toList then some (true, 208)
  else if name = "CAL500".toList then some (false, 174)
  else if name = "emotions".toList then some (false, 6)
  else none

/-- The branch for the ARFF files of this project (`corset/data.py:72-85`). -/
def fetchArff (w : World) (datadir name : Text) (sparse : Bool) (nLabels : ℕ) : Rand Fetched := do
  let files ← Rand.lift (w.listing (datadir ++ '/' :: name))
  let d ← Arff.readArff w.parse files w.content (datadir ++ '/' :: name) nLabels (9 / 10) (7 / 10) sparse
  return { trnX := ofRows d.trainX, trnY := ofRows d.trainY, tstX := ofRows d.testX, tstY := ofRows d.testY,
           features := (List.range (ofRows d.trainX).ncols).map .num, labels := d.names.map .text }

/-- The last two branches (`corset/data.py:87-108`). `shuffle_split_data` takes three arguments and is called
with four: `TypeError`. Names are those of the second call. -/
def fetchLib (w : World) (datadir name : Text) : Py Fetched :=
  if name = "genbase".toList then do
    let _ ← w.lib (datadir ++ '/' :: name) (name ++ ".arff".toList) (name ++ ".xml".toList)
    .error .typeError
  else do
    let trn ← w.lib (datadir ++ '/' :: name) (name ++ "-train.arff".toList) (name ++ ".xml".toList)
    let tst ← w.lib (datadir ++ '/' :: name) (name ++ "-test.arff".toList) (name ++ ".xml".toList)
    return { trnX := trn.X, trnY := trn.Y, tstX := tst.X, tstY := tst.Y, features := tst.features.map .text,
             labels := tst.labels.map .text }

/-- The case distinction of `load` (`corset/data.py:47-108`). -/
def fetch (w : World) (datadir name : Text) : Rand Fetched :=
  if name = "toy".toList then pure toy
  else match arffOf name with
    | some (sparse, nLabels) => fetchArff w datadir name sparse nLabels
    | none => Rand.lift (fetchLib w datadir name)

/-- A `Dataset` object with the attributes that `load` sets besides the matrices; `none`: the attribute does not
exist. -/
structure Obj where
  name : Text
  datadir : Text
  data : DatasetObj (List ℤ)
  labelNames : Option (List Name)
  label2id : Option (Name → Option ℕ)
  featureNames : Option (List Name)
  feature2id : Option (Name → Option ℕ)
  labelFreq : Option (List ℤ)

/-- The rest of `load` (`corset/data.py:110-123`): names, frequencies, matrices, checks, split. As far as the
matrices are concerned these are the steps of `set_data`. -/
def finish (perm : ℕ → List ℕ) (o : Obj) (f : Fetched) : Py Unit × Obj :=
  ((o.data.setData perm f.trnX f.trnY f.tstX f.tstY).1,
    { o with labelNames := some f.labels, label2id := some (enumerateFrom 0 f.labels fun _ => none)
             featureNames := some f.features, feature2id := some (enumerateFrom 0 f.features fun _ => none)
             labelFreq := some (columnSums f.trnY)
             data := (o.data.setData perm f.trnX f.trnY f.tstX f.tstY).2 })

/-- `Dataset.load` (`corset/data.py:47-123`): the outcome and the object afterwards. -/
def load (w : World) (perm : ℕ → List ℕ) (o : Obj) : Rand (Py Unit × Obj) := do
  let r ← (fetch w o.datadir o.name).attempt
  match r with
  | .error e => return (.error e, o)
  | .ok f => return finish perm o f

/-- `Dataset.build_confidence_graph(which)` (`corset/data.py:138-145`). `construct` is the construction of the graph
(`Verif.confidenceGraph` on the CSC form); for another value of `which` the variables are not assigned. -/
def buildConfidenceGraph {G : Type} (construct : Mat → Option (List Name) → Py G) (o : Obj) (which : Text) : Py G :=
  if which = "Y".toList then do
    let mat ← attr o.data.trnY
    let names ← attr o.labelNames
    construct mat (some names)
  else if which = "X".toList then do
    let mat ← attr o.data.trnX
    construct mat none
  else .error .unboundLocalError

end Load

end Verif
