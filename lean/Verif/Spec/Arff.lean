/-
Specification vocabulary for the ARFF readers: what a file says.
-/
import Verif.Model.Arff

namespace Verif

namespace Arff

/-- The text is a decimal numeral for the number. -/
inductive Numeral : Text → ℕ → Prop
  | digit (d : ℕ) (h : d < 10) : Numeral [Char.ofNat (48 + d)] d
  | snoc {t : Text} {n : ℕ} (d : ℕ) (h : d < 10) (ht : Numeral t n) :
      Numeral (t ++ [Char.ofNat (48 + d)]) (10 * n + d)

/-- The line declares an attribute with this name. -/
def Declares (line name : Text) : Prop :=
  ' ' ∉ name ∧ ∃ type, line = "@attribute ".toList ++ name ++ ' ' :: type

/-- The line does not start with the word `@attribute`. -/
def EndsHeader (line : Text) : Prop :=
  line ≠ "@attribute".toList ∧ ¬ ∃ rest, line = "@attribute ".toList ++ rest

/-- The text `column value` of a sparse row, with any value. -/
def EntryFor (t : Text) (c : ℕ) : Prop :=
  ∃ a v, t = a ++ ' ' :: v ∧ Numeral a c ∧ ' ' ∉ v ∧ ',' ∉ v

/-- The line `{c v,c v,...}` lists these columns; the last line of a file may have no line break. -/
def Lists (line : Text) (cols : List ℕ) : Prop :=
  ∃ ts, List.Forall₂ EntryFor ts cols ∧ ts ≠ [] ∧
    (line = '{' :: (List.intercalate [','] ts ++ ['}', '\n']) ∨ line = '{' :: (List.intercalate [','] ts ++ ['}']))

/-- A file with two lines, the declarations of `names`, two more lines, and the lines `body`. -/
def HasShape (lines : List Text) (names : List Text) (body : List Text) : Prop :=
  ∃ h1 h2 decls sep data, lines = h1 :: h2 :: (decls ++ sep :: data :: body) ∧
    List.Forall₂ Declares decls names ∧ EndsHeader sep

/-! ### Dense files -/

/-- The line declares an attribute with this name, of type `numeric` or not. -/
def DeclaresType (line name : Text) (num : Bool) : Prop :=
  ' ' ∉ name ∧ ∃ type, ' ' ∉ type ∧ (num = true ↔ type = "numeric\n".toList) ∧
    (line = "@attribute ".toList ++ name ++ ' ' :: type ∨
      ∃ rest, line = "@attribute ".toList ++ name ++ ' ' :: type ++ ' ' :: rest)

/-- The number written in a cell; an empty cell counts as 0. -/
def CellValue (parse : Text → Py ℚ) (t : Text) (v : ℚ) : Prop :=
  (t = [] ∧ v = 0) ∨ (t ≠ [] ∧ parse t = .ok v)

/-- A line with the cells `t :: ts`, the first of which is not empty, ended by a line break. -/
def HasCells (line t : Text) (ts : List Text) : Prop :=
  t ≠ [] ∧ (∀ u ∈ t :: ts, ',' ∉ u) ∧ line = List.intercalate [','] (t :: ts) ++ ['\n']

/-- The values the reader takes from a line: those of its cells, except that the first cell loses its first
character and, in a line without line break, the last cell its last character. -/
def RowValues (parse : Text → Py ℚ) (line : Text) (row : List ℚ) : Prop :=
  (∃ t ts, HasCells line t ts ∧ List.Forall₂ (CellValue parse) (t.drop 1 :: ts) row) ∨
  (∃ t ts u, t ≠ [] ∧ u ≠ [] ∧ (∀ x ∈ t :: (ts ++ [u]), ',' ∉ x) ∧
    line = List.intercalate [','] (t :: (ts ++ [u])) ∧
    List.Forall₂ (CellValue parse) (t.drop 1 :: (ts ++ [u.dropLast])) row)

/-- The distinct values of a column, in increasing order. -/
noncomputable def valuesOf (col : List ℚ) : List ℚ := col.toFinset.sort (· ≤ ·)

/-- Attribute `c` is declared `numeric`. -/
abbrev isNumeric (attrs : List (Text × Bool)) (c : ℕ) : Prop := (attrs.getD c ([], false)).2 = true

/-- A dense file with two lines, the declarations, two more lines, and the lines `body`. -/
def HasDenseShape (lines : List Text) (attrs : List (Text × Bool)) (body : List Text) : Prop :=
  ∃ h1 h2 decls sep data, lines = h1 :: h2 :: (decls ++ sep :: data :: body) ∧
    List.Forall₂ (fun line a => DeclaresType line a.1 a.2) decls attrs ∧ EndsHeader sep

end Arff

end Verif
