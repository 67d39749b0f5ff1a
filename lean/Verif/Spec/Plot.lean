/-
Specification vocabulary for the figures of the bicluster viewer.
-/
import Verif.Spec.Biclus
import Verif.Model.Plot

namespace Verif

namespace Biclus

/-- The biclusters that are shown: the pairs of clusters of which neither is empty, in the given order. -/
def shownPairs (left right : List (List ℕ)) : List (List ℕ × List ℕ) :=
  (left.zip right).filter fun c => decide (c.1 ≠ [] ∧ c.2 ≠ [])

/-- Every non-empty left cluster has a right counterpart. -/
def Paired (left right : List (List ℕ)) : Prop :=
  ∀ i < left.length, left.getD i [] ≠ [] → i < right.length

/-- The rows and columns of the biclusters that are shown are rows and columns of the matrix. -/
def Fits (A : Dense ℚ) (left right : List (List ℕ)) : Prop :=
  ∀ c ∈ shownPairs left right, (∀ x ∈ c.1, x < A.rows) ∧ ∀ y ∈ c.2, y < A.cols

/-- `M` is `A` with its rows in the order `rows` and its columns in the order `cols`. -/
def Rearranged (A : Dense ℚ) (rows cols : List ℕ) (M : Dense ℚ) : Prop :=
  M.rows = A.rows ∧ M.cols = A.cols ∧
    ∀ a < A.rows, ∀ b < A.cols, M.at_ a b = A.at_ (rows.getD a 0) (cols.getD b 0)

/-- Bicluster number `j` contains row `x` and column `y`. -/
def Covers (pairs : List (List ℕ × List ℕ)) (j x y : ℕ) : Prop :=
  j < pairs.length ∧ x ∈ (pairs.getD j ([], [])).1 ∧ y ∈ (pairs.getD j ([], [])).2

/-- `C` has the shape of `A`, and its entry for the row and the column displayed at a cell is one plus the number
of the last bicluster that contains them, zero if there is none. -/
def Coloured (A : Dense ℚ) (pairs : List (List ℕ × List ℕ)) (rows cols : List ℕ) (C : Dense ℕ) : Prop :=
  C.rows = A.rows ∧ C.cols = A.cols ∧
    ∀ a < A.rows, ∀ b < A.cols,
      ((∀ j, ¬ Covers pairs j (rows.getD a 0) (cols.getD b 0)) ∧ C.at_ a b = 0) ∨
      ∃ j, Covers pairs j (rows.getD a 0) (cols.getD b 0) ∧ C.at_ a b = j + 1 ∧
        ∀ k, j < k → ¬ Covers pairs k (rows.getD a 0) (cols.getD b 0)

/-- The requested panels, from the first to the last: the matrix as it is, the rearranged matrix, and the
rearranged matrix under the colours of the biclusters. -/
def panels (o : PlotOptions) (A M : Dense ℚ) (C : Dense ℕ) : Figure :=
  (if o.unordered then [[.values A]] else []) ++ (if o.ordered then [[.values M]] else []) ++
    (if o.clusters then [[.values M, .colours C]] else [])

/-- A finished call: the figure is in the output file if one is named, has been shown together with all open
figures if that is wanted, and no figure is open any more. -/
def finished (o : PlotOptions) (fig : Figure) (s : Screen) : Screen where
  files := fun f => if o.output = some f then some fig else s.files f
  opened := []
  shown := if o.show_ = true then s.shown ++ s.opened ++ [fig] else s.shown

end Biclus

end Verif
