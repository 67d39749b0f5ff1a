/-
What the generators of synthetic data promise: matrices of zeros and ones that a list of rules explains, up to
a bounded number of flipped cells.
-/
import Verif.Model.Synthetic
import Mathlib.Data.Finset.Card

namespace Verif

namespace Synthetic

/-- The cell in row `r` and column `c`. -/
def cell (M : Matrix) (r c : ℕ) : ℤ := (M.getD r []).getD c 0

/-- `n` rows of `m` cells. -/
def Shaped (n m : ℕ) (M : Matrix) : Prop := M.length = n ∧ ∀ row ∈ M, row.length = m

/-- Every cell is 1 if some rule covers its row and names its column, and 0 otherwise. `cover` has one list
of rows for each rule, `names` one list of columns for each rule. -/
def Explained (n m : ℕ) (cover names : List (List ℕ)) (M : Matrix) : Prop :=
  Shaped n m M ∧ ∀ r < n, ∀ c < m,
    cell M r c = if ∃ i < names.length, r ∈ cover.getD i [] ∧ c ∈ names.getD i [] then 1 else 0

/-- `M'` is `M` with the cells of some set flipped; the set has at most `k` cells, and an odd number of cells
if and only if `k` is odd. -/
def Flipped (n m k : ℕ) (M M' : Matrix) : Prop :=
  Shaped n m M' ∧ ∃ S : Finset (ℕ × ℕ), S ⊆ Finset.range n ×ˢ Finset.range m ∧ S.card ≤ k ∧
    S.card % 2 = k % 2 ∧
    ∀ r < n, ∀ c < m, cell M' r c = if (r, c) ∈ S then 1 - cell M r c else cell M r c

/-- The rows covered by the rules: one list for each rule, of fewer than `s` different rows below `t`. -/
def Covers (t s R : ℕ) (cover : List (List ℕ)) : Prop :=
  cover.length = R ∧ ∀ rows ∈ cover, rows.Nodup ∧ rows.length < s ∧ ∀ r ∈ rows, r < t

/-- No row is covered by two rules. -/
def Disjoint (cover : List (List ℕ)) : Prop := cover.Pairwise fun a b => ∀ r ∈ a, r ∉ b

/-- A set of columns below `m`: listed without repetition, at least `lo` and fewer than `m`. -/
def Columns (lo m : ℕ) (cols : List ℕ) : Prop :=
  cols.Nodup ∧ lo ≤ cols.length ∧ cols.length < m ∧ ∀ c ∈ cols, c < m

/-- What explains the generated data before noise: the lists of rows covered by the rules, with at most
`s - 1` rows below `t` for each rule. -/
structure Clean (n nf nl t s : ℕ) (rules : List GenRule) (cover : List (List ℕ)) (F L : Matrix) : Prop where
  covers : Covers t s rules.length cover
  features : Explained n nf cover (rules.map Prod.fst) F
  labels : Explained n nl cover (rules.map Prod.snd) L

end Synthetic

end Verif
