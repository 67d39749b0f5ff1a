/-
What the conversion of a table of categories should give, without reference to how it is computed.
-/
import Verif.Model.Preprocess
import Mathlib.Data.Finset.Card
import Mathlib.Data.Prod.Lex

namespace Verif

namespace Preprocess

variable {V : Type}

/-- The cell in row `r`, column `i`; `none` if it is missing. -/
def cell (df : Frame V) (r i : ℕ) : Option V := ((df.rows[r]?).getD [])[i]?.getD none

/-- The value occurs in the column. -/
def Occurs (df : Frame V) (i : ℕ) (v : V) : Prop := ∃ r < df.rows.length, cell df r i = some v

/-- The column has exactly `k` different values. -/
def HasValues (df : Frame V) (i k : ℕ) : Prop := ∃ s : Finset V, (∀ v, v ∈ s ↔ Occurs df i v) ∧ s.card = k

/-- A column with 3 to 14 different values. -/
def FeatureColumn (df : Frame V) (i : ℕ) : Prop := i < df.ncols ∧ ∃ k, HasValues df i k ∧ 3 ≤ k ∧ k ≤ 14

/-- A column with at most two different values. -/
def LabelColumn (df : Frame V) (i : ℕ) : Prop := i < df.ncols ∧ ∃ k, HasValues df i k ∧ k ≤ 2

/-- `M` is the table of the statements "cell `(r, i)` is `v`", one column for each pair of a column `i` with
the property `P` and a value `v` occurring in it, ordered by column and then by value. -/
def Encodes [LinearOrder V] (df : Frame V) (P : ℕ → Prop) (header : List (ℕ × V)) (M : List (List ℕ)) : Prop :=
  header.Pairwise (fun a b => a.1 < b.1 ∨ a.1 = b.1 ∧ a.2 < b.2) ∧
  (∀ i v, (i, v) ∈ header ↔ P i ∧ Occurs df i v) ∧
  M.length = df.rows.length ∧
  ∀ (r : ℕ) (hr : r < M.length), M[r].length = header.length ∧
    ∀ (k : ℕ) (hk : k < M[r].length) (hk' : k < header.length),
      (cell df r header[k].1 = some header[k].2 → M[r][k] = 1) ∧
      (cell df r header[k].1 ≠ some header[k].2 → M[r][k] = 0)

end Preprocess

end Verif
