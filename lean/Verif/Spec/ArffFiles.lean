/-
Specification vocabulary for the `genbase` files and for the choice of files.
-/
import Verif.Spec.Arff
import Verif.Spec.Quantile

namespace Verif

namespace Arff

/-- The number a cell of a `genbase` file stands for. -/
def GenbaseValue (parse : Text → Py ℚ) (t : Text) (v : ℚ) : Prop :=
  (t = "YES".toList ∧ v = 1) ∨ (t = "NO".toList ∧ v = 0) ∨
    (t ≠ "YES".toList ∧ t ≠ "NO".toList ∧ CellValue parse t v)

/-- The line says the name of an object and then this row of values. -/
def NamedRow (parse : Text → Py ℚ) (line : Text) (row : List ℚ) : Prop :=
  ∃ name ts, HasCells line name ts ∧ List.Forall₂ (GenbaseValue parse) ts row

/-- A file with two lines, the declaration of the name, the declarations of the other attributes, two more
lines, and the lines `body`. -/
def HasGenbaseShape (lines : List Text) (attrs : List (Text × Bool)) (body : List Text) : Prop :=
  ∃ h1 h2 nameDecl decls sep data, lines = h1 :: h2 :: nameDecl :: (decls ++ sep :: data :: body) ∧
    List.Forall₂ (fun line a => DeclaresType line a.1 a.2) decls attrs ∧ EndsHeader sep

/-! ### What a file says about features, labels and label names -/

/-- The last `nl` names; all of them if `nl` is 0. -/
def lastNames (names : List Text) (nl : ℕ) : List Text :=
  if nl = 0 then names else names.drop (names.length - nl)

/-- A sparse file: features and labels are 1 in the listed columns and 0 elsewhere. -/
def SparseSays (lines : List Text) (nl : ℕ) (X Y : List (List ℤ)) (labels : List Text) : Prop :=
  ∃ names body rows, HasShape lines names body ∧ List.Forall₂ Lists body rows ∧
    (∀ r ∈ rows, ∀ c ∈ r, c < names.length) ∧ nl ≤ names.length ∧ labels = lastNames names nl ∧
    X = rows.map (fun cols => (List.range (names.length - nl)).map fun c => if c ∈ cols then 1 else 0) ∧
    Y = rows.map (fun cols => (List.range nl).map fun j => if names.length - nl + j ∈ cols then 1 else 0)

/-- A column that is kept: it is numeric or has at most two values. -/
abbrev Kept (attrs : List (Text × Bool)) (V : List (List ℚ)) (c : ℕ) : Prop :=
  isNumeric attrs c ∨ (valuesOf (column V c)).length ≤ 2

/-- A dense file with the values `V`: numeric features are compared with the quantile of their column in this
file, kept features are rounded towards 0, the others are replaced by one column for each value. -/
noncomputable def denseFeatures (attrs : List (Text × Bool)) (V : List (List ℚ)) (w : ℕ) (q : ℕ → ℚ) :
    List (List ℤ) :=
  V.map fun row =>
    (((List.range w).filter fun c => Kept attrs V c).map fun c =>
      if isNumeric attrs c then (if row.getD c 0 ≤ q c then 0 else 1) else truncate (row.getD c 0)) ++
    ((List.range w).filter fun c => ¬ Kept attrs V c).flatMap fun c =>
      (valuesOf (column V c)).map fun v => if row.getD c 0 = v then 1 else 0

/-- What a dense file says. -/
def DenseSays (parse : Text → Py ℚ) (lines : List Text) (nl : ℕ) (s : ℚ) (X Y : List (List ℤ)) (labels : List Text) :
    Prop :=
  ∃ attrs body V, ∃ q : ℕ → ℚ, HasDenseShape lines attrs body ∧ List.Forall₂ (RowValues parse) body V ∧ V ≠ [] ∧
    (∀ row ∈ V, row.length = attrs.length) ∧ nl ≤ attrs.length ∧ 0 ≤ s ∧ s ≤ 1 ∧
    (∀ c, isNumeric attrs c → c < attrs.length - nl ∧ Quantile.IsQuantile (column V c) s (q c)) ∧
    labels = lastNames (attrs.map Prod.fst) nl ∧ X = denseFeatures attrs V (attrs.length - nl) q ∧
    Y = V.map fun row => (row.drop (attrs.length - nl)).map truncate

/-- What a file says, in one of the two formats. -/
def FileSays (parse : Text → Py ℚ) (sparse : Bool) (lines : List Text) (nl : ℕ) (s : ℚ) (X Y : List (List ℤ))
    (labels : List Text) : Prop :=
  if sparse then SparseSays lines nl X Y labels else DenseSays parse lines nl s X Y labels

/-- The last component of a path. -/
def LastComponent (path name : Text) : Prop := '/' ∉ name ∧ (path = name ∨ ∃ dir, path = dir ++ '/' :: name)

/-- Some file name contains `train`. -/
def MentionsTrain (files : List Text) : Prop := ∃ f ∈ files, ∃ a b, f = a ++ "train".toList ++ b

end Arff

end Verif
