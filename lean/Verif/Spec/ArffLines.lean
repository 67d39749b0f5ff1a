/-
Specification vocabulary for data lines of sparse ARFF files: every line, well formed or not.
-/
import Verif.Spec.Arff

namespace Verif

namespace Arff

/-- The text is an integer: a numeral, perhaps with a sign, perhaps with white space around it. -/
def IntText (t : Text) (k : ℤ) : Prop :=
  ∃ w s a w' c, t = w ++ s ++ a ++ w' ∧ (∀ x ∈ w ++ w', x.isWhitespace = true) ∧ Numeral a c ∧
    ((s = [] ∧ k = c) ∨ (s = ['+'] ∧ k = c) ∨ (s = ['-'] ∧ k = -c))

/-- The text consists of two parts with one blank between, the first of which is an integer. -/
def Entry (t : Text) (k : ℤ) : Prop := ∃ a v, t = a ++ ' ' :: v ∧ ' ' ∉ a ∧ ' ' ∉ v ∧ IntText a k

/-- The line without its first and its last character consists of these texts, with commas between. -/
def Pieces (line : Text) (ts : List Text) : Prop :=
  ts ≠ [] ∧ (∀ t ∈ ts, ',' ∉ t) ∧ (line.drop 1).dropLast = List.intercalate [','] ts

/-- A column of `n`, counted from the start or, if negative, from the end. -/
def InRange (n : ℕ) (k : ℤ) : Prop := -(n : ℤ) ≤ k ∧ k < n

/-- The line lists these columns. -/
def RowOf (n : ℕ) (line : Text) (ks : List ℤ) : Prop :=
  ∃ ts, Pieces line ts ∧ List.Forall₂ Entry ts ks ∧ ∀ k ∈ ks, InRange n k

/-- Column `c` of `n` is listed, counted from the start or from the end. -/
def Lists.Has (n : ℕ) (ks : List ℤ) (c : ℕ) : Prop := (c : ℤ) ∈ ks ∨ (c : ℤ) - n ∈ ks

instance (n : ℕ) (ks : List ℤ) (c : ℕ) : Decidable (Lists.Has n ks c) := by unfold Lists.Has; infer_instance

/-- The values that the reader of dense files takes from a line, for `n` attributes: one for each piece, or the only one
`n` times. -/
def DenseRowOf (parse : Text → Py ℚ) (n : ℕ) (line : Text) (row : List ℚ) : Prop :=
  ∃ ts vs, Pieces line ts ∧ List.Forall₂ (CellValue parse) ts vs ∧
    ((vs = row ∧ row.length = n) ∨ ∃ v, vs = [v] ∧ row = List.replicate n v)

end Arff

end Verif
