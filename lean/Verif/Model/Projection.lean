/-
Model of the clustering step of the bicluster viewer, `biclus_viz/includes/pcv/ProjCluster.py` and `PCV.py` with
all their arguments, and of the script `biclus_viz/main.py`.

The singular value decomposition and k-means are parameters: whether the decomposition converges, and the labels.
Matrices are two-dimensional (`numpy.loadtxt` returns a vector for a file with one row or one column; unpacking
its shape is the `ValueError` that such a matrix gives here as well, because it has too few rows or columns).
-/
import Verif.Model.Plot

namespace Verif

namespace Biclus

/-- `SimpleProj`, `biclus_viz/includes/pcv/ProjCluster.py:37-43`: `svds` wants at least one singular vector and
fewer than the smaller side of the matrix. `svd` is what the computation itself does; the projection, which only
k-means uses, is not represented. -/
def simpleProj (rows cols : ℕ) (k : ℤ) (svd : Py Unit) : Py Unit :=
  let svdK := min k (min (cols : ℤ) rows)
  if 1 ≤ svdK ∧ svdK < min (cols : ℤ) rows then svd else .error .valueError

/-- `kmeans`, `biclus_viz/includes/pcv/ProjCluster.py:45-60`: `KMeans` wants at least one cluster, at least one
sample and not more clusters than samples. The samples are the columns of the projected matrix. -/
def kmeans (samples features : ℕ) (tau : ℤ) (labels : List ℕ) : Py (List (List ℕ)) :=
  if 1 ≤ tau ∧ tau ≤ samples ∧ 1 ≤ features then .ok (groupByLabel labels) else .error .valueError

/-- `ProjCluster`, `biclus_viz/includes/pcv/ProjCluster.py:15-35` (with `Proj`), on a matrix with the given number of rows and
columns. For an unknown projection `Proj` returns `None`, and the product of `None` with a matrix is a
`TypeError` if the matrix has a cell. An unknown clustering only prints a message. -/
def projCluster (rows cols : ℕ) (k tau : ℤ) (projection clustering : String) (svd : Py Unit)
    (labels : List ℕ) : Py (List (List ℕ)) := do
  if projection = "simple" then simpleProj rows cols k svd
  else if rows = 0 ∨ cols = 0 then pure () else throw .typeError
  if clustering = "kmeans" then kmeans cols rows tau labels else return []

/-- `PCV`, `biclus_viz/includes/pcv/PCV.py:7-14`, with all arguments but the unused `gamma` and
`minClusterSize`. It clusters the columns of the transposed matrix. -/
noncomputable def pcvCall (B : Dense ℚ) (k : ℤ) (threshold : ℝ) (tau : Option ℤ) (projection clustering : String)
    (useHeuristic : Bool) (svd : Py Unit) (labels : List ℕ) : Py (List (List ℕ) × List (List ℕ)) := do
  let left ← projCluster B.cols B.rows k (tau.getD k) projection clustering svd labels
  let right ← binaryMajorityVote B left threshold 0 useHeuristic
  return (left, right)

/-- `biclus_viz/main.py:16-32`, given the matrix read from the input file. -/
noncomputable def viewerScript (A : Dense ℚ) (svd : Py Unit) (labels lp rp : List ℕ) (s : Screen) :
    Py Figure × Screen :=
  match pcvCall A 5 (1 / 2) none "simple" "kmeans" true svd labels with
  | .error e => (.error e, s)
  | .ok (left, right) =>
    plotClusteredMatrix { unordered := true, ordered := true, clusters := true, transpose := false,
                          output := some "plots/dialect.pdf", show_ := false } A left right lp rp s

end Biclus

end Verif
