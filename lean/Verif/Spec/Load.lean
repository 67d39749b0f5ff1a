/-
Specification vocabulary for `Dataset.load`.
-/
import Verif.Model.Load
import Verif.Spec.ArffFiles

namespace Verif

namespace Load

open Arff (Text)

/-- Position `i` is the last one with this name. -/
def LastAt (names : List Name) (x : Name) (i : ℕ) : Prop :=
  names[i]? = some x ∧ ∀ j, i < j → names[j]? ≠ some x

/-- The sum of column `l`; for zeros and ones the number of rows with a 1. -/
def total (Y : Mat) (l : ℕ) : ℤ := (Y.rows.map fun r => r.getD l 0).sum

/-- The five data sets read by the ARFF readers of this project: name, sparse or dense, number of labels. -/
def arffSets : List (Text × Bool × ℕ) :=
  [("birds".toList, false, 19), ("emotions".toList, false, 6), ("bookmarks".toList, true, 208),
    ("CAL500".toList, false, 174), ("mediamill".toList, false, 101)]

/-- The dictionary maps each name to its last position. -/
def IsIndexOf (names : List Name) (d : Name → Option ℕ) : Prop := ∀ x i, d x = some i ↔ LastAt names x i

/-- `r` is what `load` of `o` gives when these matrices and names are read: the matrices are treated as by
`set_data` (see C78), the rest is set to what the names say. -/
def LoadedFrom (perm : ℕ → List ℕ) (o : Obj) (X Y X' Y' : Mat) (labels features : List Name)
    (r : Py (Py Unit × Obj)) : Prop :=
  ∃ o' lid fid, r = .ok ((o.data.setData perm X Y X' Y').1, o') ∧
    o'.data = (o.data.setData perm X Y X' Y').2 ∧ o'.name = o.name ∧ o'.datadir = o.datadir ∧
    o'.labelNames = some labels ∧ o'.featureNames = some features ∧
    o'.label2id = some lid ∧ IsIndexOf labels lid ∧ o'.feature2id = some fid ∧ IsIndexOf features fid ∧
    o'.labelFreq = some ((List.range Y.ncols).map fun l => total Y l)

end Load

end Verif
