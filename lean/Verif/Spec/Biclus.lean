/-
Specification vocabulary for the bicluster viewer.
-/
import Verif.Model.Biclus
import Mathlib.Algebra.BigOperators.Group.Finset.Basic
import Mathlib.Data.Finset.SDiff

namespace Verif

namespace Biclus

/-- The index occurs in some cluster. -/
def Clustered (clusters : List (List ℕ)) (x : ℕ) : Prop := ∃ c ∈ clusters, x ∈ c

/-- The two indices belong to exactly the same clusters. -/
def SameClusters (clusters : List (List ℕ)) (x y : ℕ) : Prop := ∀ c ∈ clusters, x ∈ c ↔ y ∈ c

/-- `l` lists each of `0, …, n - 1` exactly once. -/
def Lists (n : ℕ) (l : List ℕ) : Prop := l.Nodup ∧ ∀ x, x ∈ l ↔ x < n

/-- A viewer object: what the constructor returns for some outcome of the two shuffles. -/
def Constructed (left right : List (List ℕ)) (A : Dense ℚ) (m : BlockMatrix) : Prop :=
  ∃ lp rp, BlockMatrix.new left right A lp rp = .ok m ∧
    Lists m.leftBlocks.length lp ∧ Lists m.rightBlocks.length rp

/-- A viewer object after construction, or after construction and a call of `order()`. -/
def Viewer (left right : List (List ℕ)) (A : Dense ℚ) (m : BlockMatrix) : Prop :=
  Constructed left right A m ∨ ∃ m0, Constructed left right A m0 ∧ order m0 = .ok m

/-- The row (column) indices in the clusters of the object are within the matrix. -/
def InRange (m : BlockMatrix) : Prop :=
  (∀ x, Clustered m.leftClusters x → x < m.original.rows) ∧
  ∀ y, Clustered m.rightClusters y → y < m.original.cols

/-- Row `x` and column `y` belong to the bicluster number `j` of the object. -/
def InCluster (m : BlockMatrix) (j x y : ℕ) : Prop :=
  j < m.leftClusters.length ∧ x ∈ m.leftClusters.getD j [] ∧ y ∈ m.rightClusters.getD j []

/-- The mean of the entries in the given columns. -/
noncomputable def density (B : Dense ℚ) (S : Finset ℕ) : ℝ :=
  (∑ r ∈ Finset.range B.rows, ∑ c ∈ S, (B.at_ r c : ℝ)) / ((B.rows : ℝ) * (S.card : ℝ))

open Classical in
/-- How far `p` and `q` are from the densities inside and outside the columns `S` (one inside no cells, zero
outside all cells). -/
noncomputable def discrepancy (B : Dense ℚ) (S : Finset ℕ) (p q : ℝ) : ℝ :=
  |p - if 0 < B.rows ∧ S.Nonempty then density B S else 1| +
  |q - if 0 < B.rows ∧ (Finset.range B.cols \ S).Nonempty then density B (Finset.range B.cols \ S) else 0|

open Classical in
/-- The columns of which more than the given share of the entries are not zero. -/
noncomputable def voted (B : Dense ℚ) (t : ℝ) : Finset ℕ :=
  (Finset.range B.cols).filter fun c =>
    (((Finset.range B.rows).filter fun r => B.at_ r c ≠ 0).card : ℝ) > t * (B.rows : ℝ)

/-- A matrix of zeros and ones. -/
def ZeroOne (B : Dense ℚ) : Prop := ∀ a < B.rows, ∀ b < B.cols, B.at_ a b = 0 ∨ B.at_ a b = 1

/-- The importance of an index: the total area of the biclusters that contain it. -/
def importance (own other : List (List ℕ)) (x : ℕ) : ℕ :=
  ∑ j ∈ (Finset.range own.length).filter fun j => x ∈ own.getD j [],
    (own.getD j []).length * (other.getD j []).length

/-- The similarity of two indices: the share of their biclusters that they have in common, each weighted by its
size on the other side (zero if the weights are zero). -/
def similarity (own other : List (List ℕ)) (x y : ℕ) : ℚ :=
  ((∑ j ∈ (Finset.range own.length).filter fun j => x ∈ own.getD j [] ∧ y ∈ own.getD j [],
    (other.getD j []).length : ℕ) : ℚ) /
  ((∑ j ∈ (Finset.range own.length).filter fun j => x ∈ own.getD j [] ∨ y ∈ own.getD j [],
    (other.getD j []).length : ℕ) : ℚ)

/-- How similar an item is to its better neighbour if it is put at place `p` of `sigma`. -/
def gain (sim : ℕ → ℕ → ℚ) (sigma : List ℕ) (x p : ℕ) : ℚ :=
  if p = 0 then sim x (sigma.getD 0 0)
  else if p = sigma.length then sim x (sigma.getD (p - 1) 0)
  else max (sim x (sigma.getD (p - 1) 0)) (sim x (sigma.getD p 0))

/-- The places that are considered: both ends, and every gap but the first one if the item is at least as
similar to both neighbours as they are to each other. -/
def Considered (sim : ℕ → ℕ → ℚ) (sigma : List ℕ) (x p : ℕ) : Prop :=
  p = 0 ∨ p = sigma.length ∨ (2 ≤ p ∧ p < sigma.length ∧
    sim (sigma.getD (p - 1) 0) (sigma.getD p 0) ≤
      min (sim x (sigma.getD (p - 1) 0)) (sim x (sigma.getD p 0)))

/-- Place `p` is chosen: of highest gain among the places considered; ties go to the last place, then to the
first place, then to the earliest gap. -/
def BestPlace (sim : ℕ → ℕ → ℚ) (sigma : List ℕ) (x p : ℕ) : Prop :=
  Considered sim sigma x p ∧
  (∀ p', Considered sim sigma x p' → gain sim sigma x p' ≤ gain sim sigma x p) ∧
  (p ≠ sigma.length → gain sim sigma x sigma.length < gain sim sigma x p) ∧
  (p ≠ 0 → p ≠ sigma.length → gain sim sigma x 0 < gain sim sigma x p) ∧
  ∀ p', p' < p → p < sigma.length → Considered sim sigma x p' → gain sim sigma x p' < gain sim sigma x p

/-- `Advised sim items sigma`: placing the items one after the other gives `sigma`. -/
inductive Advised (sim : ℕ → ℕ → ℚ) : List ℕ → List ℕ → Prop
  | nil : Advised sim [] []
  | early {items sigma x} : Advised sim items sigma → sigma.length < 2 →
      Advised sim (items ++ [x]) (sigma ++ [x])
  | insert {items sigma x p} : Advised sim items sigma → 2 ≤ sigma.length → BestPlace sim sigma x p →
      Advised sim (items ++ [x]) (sigma.take p ++ x :: sigma.drop p)

/-- The first index of a block, which stands for the whole block. -/
def standsFor (blocks : List (List ℕ)) (b : ℕ) : ℕ := (blocks.getD b []).headD 0

end Biclus

end Verif
