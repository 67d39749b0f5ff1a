/-
Model of the bicluster viewer: `biclus_viz/includes/pcv/` (projection clustering with majority votes) and the
ordering part of `biclus_viz/PlotCreator.py` (the ADVISER algorithm). The drawing calls are in `Verif/Model/Plot.lean`.

Matrices are functions of a row and a column index together with their dimensions; indices that come from
clusters are natural numbers (numpy would accept negative ones).
-/
import Verif.Py
import Mathlib.Analysis.SpecialFunctions.Log.Basic

namespace Verif

namespace Biclus

/-- A numpy matrix. -/
structure Dense (α : Type) where
  rows : ℕ
  cols : ℕ
  at_ : ℕ → ℕ → α

/-- `if k not in d: d[k] = []` followed by `d[k].append(a)`, for a dict in insertion order
(`biclus_viz/PlotCreator.py:150-154`, `162-166`, `biclus_viz/includes/pcv/ProjCluster.py:52-56`). -/
def dictAppend {κ α : Type} [DecidableEq κ] : List (κ × List α) → κ → α → List (κ × List α)
  | [], k, a => [(k, [a])]
  | (k', l) :: d, k, a => if k' = k then (k', l ++ [a]) :: d else (k', l) :: dictAppend d k a

/-! ### `PlotCreator.py` -/

/-- The first loop of `createBlocks`, `biclus_viz/PlotCreator.py:146-154`. -/
def indexToClusters (clusters : List (List ℕ)) : List (ℕ × List ℕ) :=
  clusters.zipIdx.foldl (fun d ci => ci.1.foldl (fun d index => dictAppend d index ci.2) d) []

/-- `createBlocks`, `biclus_viz/PlotCreator.py:145-169`. The keys of `blocks` are the string forms of lists of
integers; here they are the lists themselves. -/
def createBlocks (clusters : List (List ℕ)) : List (List ℕ) :=
  ((indexToClusters clusters).foldl (fun d e => dictAppend d e.2 e.1) []).map Prod.snd

/-- The loop of `__init__` that keeps the pairs of non-empty clusters, `biclus_viz/PlotCreator.py:180-183`.
The right cluster is looked up only if the left one is not empty. -/
def keepClusters : List (List ℕ) → List (List ℕ) → Py (List (List ℕ × List ℕ))
  | [], _ => .ok []
  | [] :: ls, rs => keepClusters ls rs.tail
  | (_ :: _) :: _, [] => .error .indexError
  | (x :: l) :: ls, r :: rs => do
    let rest ← keepClusters ls rs
    return if r = [] then rest else (x :: l, r) :: rest

/-- The attributes of a `BlockBlockMatrix` that ordering and plotting use. -/
structure BlockMatrix where
  original : Dense ℚ
  leftClusters : List (List ℕ)
  rightClusters : List (List ℕ)
  leftBlocks : List (List ℕ)
  rightBlocks : List (List ℕ)
  leftPerm : List ℕ
  rightPerm : List ℕ

/-- `BlockBlockMatrix.__init__`, `biclus_viz/PlotCreator.py:173-206`. `lp` and `rp` are what
`random.shuffle` made of the block numbers. -/
def BlockMatrix.new (left right : List (List ℕ)) (A : Dense ℚ) (lp rp : List ℕ) : Py BlockMatrix := do
  let kept ← keepClusters left right
  return { original := A, leftClusters := kept.map Prod.fst, rightClusters := kept.map Prod.snd,
           leftBlocks := createBlocks (kept.map Prod.fst), rightBlocks := createBlocks (kept.map Prod.snd),
           leftPerm := lp, rightPerm := rp }

/-- `createBlockedClusters`, `biclus_viz/PlotCreator.py:440-448`. `blocks.index(block)` is the first position of an equal
list. -/
def blockedClusters (clusters blocks : List (List ℕ)) : List (List ℕ) :=
  clusters.map fun cluster => (blocks.filter fun block => decide (∀ x ∈ block, x ∈ cluster)).map fun block =>
    blocks.idxOf block

/-- `self.leftClustersBlock`, `biclus_viz/PlotCreator.py:192-194`. -/
def BlockMatrix.leftClustersBlock (m : BlockMatrix) : List (List ℕ) := blockedClusters m.leftClusters m.leftBlocks

/-- `self.rightClustersBlock`, `biclus_viz/PlotCreator.py:195-197`. -/
def BlockMatrix.rightClustersBlock (m : BlockMatrix) : List (List ℕ) := blockedClusters m.rightClusters m.rightBlocks

/-- An entry of `UA` or `PA`: block number, block, cluster number. -/
structure Assoc where
  item : ℕ
  block : List ℕ
  role : ℕ

/-- The entries of `UA` (or `PA`) for one block, `biclus_viz/PlotCreator.py:271-276`. -/
def assocOf (clusters : List (List ℕ)) (b : ℕ) (block : List ℕ) : Py (List Assoc) := do
  let user ← pyGet block 0
  return ((List.range clusters.length).filter fun r => decide (user ∈ clusters.getD r [])).map
    fun r => { item := b, block := block, role := r }

/-- `UA` and `PA`, `biclus_viz/PlotCreator.py:269-285`. -/
def associations (clusters blocks : List (List ℕ)) : Py (List Assoc) := do
  let l ← blocks.zipIdx.mapM fun bi => assocOf clusters bi.2 bi.1
  return l.flatten

/-- `roleArea`, `biclus_viz/PlotCreator.py:331-332`. -/
def roleArea (m : BlockMatrix) (r : ℕ) : ℕ :=
  (m.leftClusters.getD r []).length * (m.rightClusters.getD r []).length

/-- `importanceScore`, `biclus_viz/PlotCreator.py:334-339`. -/
def importanceScore (m : BlockMatrix) (IA : List Assoc) (item : ℕ) : ℕ :=
  ((IA.filter fun a => decide (a.item = item)).map fun a => roleArea m a.role).sum

/-- The roles of an item, `biclus_viz/PlotCreator.py:343-348`. -/
def rolesOf (IA : List Assoc) (i : ℕ) : List ℕ := (IA.filter fun a => decide (a.item = i)).map Assoc.role

/-- `riUrj`, `biclus_viz/PlotCreator.py:349-357`. -/
def rolesUnion (ri rj : List ℕ) : List ℕ :=
  rj.foldl (fun acc r => if r ∈ acc then acc else acc ++ [r]) ri

/-- `jacc`, `biclus_viz/PlotCreator.py:341-369`. -/
def jacc (IA IAbar : List Assoc) (i j : ℕ) : ℚ :=
  let ri := rolesOf IA i
  let rj := rolesOf IA j
  let rU : ℕ := ((IAbar.filter fun a => decide (a.role ∈ rolesUnion ri rj)).map fun a => a.block.length).sum
  let rN : ℕ := ((IAbar.filter fun a => decide (a.role ∈ ri.filter fun r => decide (r ∈ rj))).map
    fun a => a.block.length).sum
  if rU = 0 then 0 else (rN : ℚ) / (rU : ℚ)

/-- The body of the loop over the gaps, `biclus_viz/PlotCreator.py:319-326`. -/
def gapStep (jac : ℕ → ℕ → ℚ) (sigma : List ℕ) (I : ℕ) (pj : ℕ × ℚ) (i : ℕ) : ℕ × ℚ :=
  let jprec := jac I (sigma.getD (i - 1) 0)
  let jsucc := jac I (sigma.getD i 0)
  let jcurr := jac (sigma.getD (i - 1) 0) (sigma.getD i 0)
  if max jprec jsucc > pj.2 ∧ min jprec jsucc ≥ jcurr then (i, max jprec jsucc) else pj

/-- The insertion position, `biclus_viz/PlotCreator.py:311-326`. -/
def insertPosition (jac : ℕ → ℕ → ℚ) (sigma : List ℕ) (I : ℕ) : ℕ :=
  let first := jac I (sigma.getD 0 0)
  let last := jac I (sigma.getLastD 0)
  let start := if first > last then (0, first) else (sigma.length, last)
  (((List.range (sigma.length - 2)).map fun i => i + 2).foldl (gapStep jac sigma I) start).1

/-- `sortSet`, `biclus_viz/PlotCreator.py:302-329`. -/
def sortSet (m : BlockMatrix) (IA IAbar : List Assoc) (items : List ℕ) : List ℕ :=
  (items.mergeSort fun a b => decide (-(importanceScore m IA a : ℤ) ≤ -(importanceScore m IA b : ℤ))).foldl
    (fun sigma I => if sigma.length < 2 then sigma ++ [I]
      else sigma.insertIdx (insertPosition (jacc IA IAbar) sigma I) I) []

/-- `order` and `adviser`, `biclus_viz/PlotCreator.py:253-300`. -/
def order (m : BlockMatrix) : Py BlockMatrix := do
  let UA ← associations m.leftClusters m.leftBlocks
  let PA ← associations m.rightClusters m.rightBlocks
  return { m with leftPerm := sortSet m UA PA (List.range m.leftBlocks.length),
                  rightPerm := sortSet m PA UA (List.range m.rightBlocks.length) }

/-- `getLeftPermutation` and `getRightPermutation`, `biclus_viz/PlotCreator.py:229-247`. -/
def nodePermutation (n : ℕ) (blocks : List (List ℕ)) (perm : List ℕ) : Py (List ℕ) := do
  let bs ← perm.mapM fun i : ℕ => pyGet blocks (i : ℤ)
  return (List.range n).foldl (fun acc node => if node ∈ acc then acc else acc ++ [node]) bs.flatten

/-- `getLeftPermutation`, `biclus_viz/PlotCreator.py:229-238`. -/
def leftPermutation (m : BlockMatrix) : Py (List ℕ) := nodePermutation m.original.rows m.leftBlocks m.leftPerm

/-- `getRightPermutation`, `biclus_viz/PlotCreator.py:240-247`. -/
def rightPermutation (m : BlockMatrix) : Py (List ℕ) :=
  nodePermutation m.original.cols m.rightBlocks m.rightPerm

/-- `returnOriginalMatrix()`, `biclus_viz/PlotCreator.py:458-469`: rows by the left permutation (`IndexError`
if an entry is out of range), then the columns of the copy are overwritten (`ValueError` if the number of
selected columns is not the number of columns). -/
def orderedOriginal (m : BlockMatrix) : Py (Dense ℚ) := do
  let lp ← leftPermutation m
  let rp ← rightPermutation m
  if ¬ ∀ i ∈ lp, i < m.original.rows then .error .indexError
  else if ¬ ∀ j ∈ rp, j < m.original.cols then .error .indexError
  else if rp.length ≠ m.original.cols then .error .valueError
  else return { rows := lp.length, cols := m.original.cols,
                at_ := fun a b => m.original.at_ (lp.getD a 0) (rp.getD b 0) }

/-- `l.index(x)`; `ValueError` if absent. -/
def listIndex (l : List ℕ) (x : ℕ) : Py ℕ := if x ∈ l then .ok (l.idxOf x) else .error .valueError

/-- `M[np.ix_(ls, rs)] = v`. -/
def setBlock (M : Dense ℕ) (ls rs : List ℕ) (v : ℕ) : Py (Dense ℕ) :=
  if (∀ a ∈ ls, a < M.rows) ∧ ∀ b ∈ rs, b < M.cols then
    .ok { M with at_ := fun a b => if a ∈ ls ∧ b ∈ rs then v else M.at_ a b }
  else .error .indexError

/-- The loop that paints the clusters, `biclus_viz/PlotCreator.py:404-408`; the arguments are the pairs of
ordered clusters and the number of the next one. -/
def paint : List (List ℕ × List ℕ) → ℕ → Dense ℕ → Py (Dense ℕ)
  | [], _, M => .ok M
  | c :: cs, i, M => do
    let M' ← setBlock M c.1 c.2 (i + 1)
    paint cs (i + 1) M'

/-- `plotMatrix(axs=None)`, `biclus_viz/PlotCreator.py:371-427`, with `showClusters=True`. -/
def clusterMatrix (m : BlockMatrix) : Py (Dense ℕ) := do
  let lp ← leftPermutation m
  let rp ← rightPermutation m
  let _ ← m.leftBlocks.mapM fun b => b.mapM (listIndex lp)
  let _ ← m.rightBlocks.mapM fun b => b.mapM (listIndex rp)
  let lc ← m.leftClusters.mapM fun c => c.mapM (listIndex lp)
  let rc ← m.rightClusters.mapM fun c => c.mapM (listIndex rp)
  paint (lc.zip rc) 0 { rows := m.original.rows, cols := m.original.cols, at_ := fun _ _ => 0 }

/-- `C[i, k]` as `createBlockBlockAdj` leaves it, `biclus_viz/PlotCreator.py:209-223`. Every assignment to the
cell writes the same number, so only whether there is one matters. -/
def blockAdj (m : BlockMatrix) (i k : ℕ) : ℕ :=
  if (List.range m.leftClusters.length).any fun j =>
      decide (∀ x ∈ m.leftBlocks.getD i [], x ∈ m.leftClusters.getD j []) &&
      decide (∀ y ∈ m.rightBlocks.getD k [], y ∈ m.rightClusters.getD j [])
  then (m.leftBlocks.getD i []).toFinset.card * (m.rightBlocks.getD k []).toFinset.card else 0

/-- The number painted on a block, `biclus_viz/PlotCreator.py:415-422`. -/
def blockColour (m : BlockMatrix) (i k : ℕ) : Py ℕ := do
  let a ← listIndex m.leftPerm i
  let b ← listIndex m.rightPerm k
  return if a % 2 = 0 then 1 + b % 2 else 3 + b % 2

/-- The loops of `plotMatrix` with `showClusters=False`, `biclus_viz/PlotCreator.py:410-422`, over a list of
pairs of block numbers. -/
def paintBlocks (m : BlockMatrix) (lb rb : List (List ℕ)) : List (ℕ × ℕ) → Dense ℕ → Py (Dense ℕ)
  | [], M => .ok M
  | ik :: rest, M =>
    if blockAdj m ik.1 ik.2 ≠ 0 then do
      let v ← blockColour m ik.1 ik.2
      let M' ← setBlock M (lb.getD ik.1 []) (rb.getD ik.2 []) v
      paintBlocks m lb rb rest M'
    else paintBlocks m lb rb rest M

/-- `plotMatrix(axs=None, showClusters=False)`, `biclus_viz/PlotCreator.py:371-427`. -/
def blockMatrix (m : BlockMatrix) : Py (Dense ℕ) := do
  let lp ← leftPermutation m
  let rp ← rightPermutation m
  let lb ← m.leftBlocks.mapM fun b => b.mapM (listIndex lp)
  let rb ← m.rightBlocks.mapM fun b => b.mapM (listIndex rp)
  let _ ← m.leftClusters.mapM fun c => c.mapM (listIndex lp)
  let _ ← m.rightClusters.mapM fun c => c.mapM (listIndex rp)
  paintBlocks m lb rb
    ((List.range m.leftBlocks.length).flatMap fun i => (List.range m.rightBlocks.length).map fun k => (i, k))
    { rows := m.original.rows, cols := m.original.cols, at_ := fun _ _ => 0 }

/-! ### Clustering and majority votes -/

/-- The end of `kmeans`, `biclus_viz/includes/pcv/ProjCluster.py:48-60`: the columns grouped by the label that
k-means gave them. The labels themselves (singular vectors, k-means) are arbitrary. -/
def groupByLabel (labels : List ℕ) : List (List ℕ) :=
  (labels.zipIdx.foldl (fun d li => dictAppend d li.1 li.2) []).map Prod.snd

/-- `numpy.count_nonzero(B, axis=0)[col]`. -/
def countNonzero (B : Dense ℚ) (col : ℕ) : ℕ :=
  ((List.range B.rows).filter fun r => decide (B.at_ r col ≠ 0)).length

open Classical in
/-- `BinaryMajorityVoteSingleCluster`, `biclus_viz/includes/pcv/MajorityVote.py:22-39`; the columns in
increasing order (the code returns a list made of a set). -/
noncomputable def majorityVote (B : Dense ℚ) (threshold : ℝ) : List ℕ :=
  (List.range B.cols).filter fun col => decide ((countNonzero B col : ℝ) > (B.rows : ℝ) * threshold)

/-- `roundingThreshold`, `biclus_viz/includes/pcv/Heuristic.py:56-57`, with exact logarithms. Division by zero
raises `ZeroDivisionError`, a logarithm of a number that is not positive `ValueError`. -/
noncomputable def roundingThreshold (p q : ℝ) : Py ℝ :=
  open Classical in
  if 1 - p = 0 ∨ q = 0 then .error .zeroDivisionError
  else if (1 - q) / (1 - p) ≤ 0 ∨ p * (1 - q) / q / (1 - p) ≤ 0 then .error .valueError
  else if Real.log (p * (1 - q) / q / (1 - p)) / Real.log 2 = 0 then .error .zeroDivisionError
  else .ok ((Real.log ((1 - q) / (1 - p)) / Real.log 2) /
    (Real.log (p * (1 - q) / q / (1 - p)) / Real.log 2))

/-- `B[:, cluster].sum()`. -/
def sumColumns (B : Dense ℚ) (cluster : List ℕ) : ℚ :=
  (cluster.map fun c => ((List.range B.rows).map fun r => B.at_ r c).sum).sum

/-- `estimatePQSingleCluster`, `biclus_viz/includes/pcv/Heuristic.py:30-54`. -/
noncomputable def estimateSingle (p q : ℝ) (B : Dense ℚ) : Py (ℝ × ℝ × List ℕ) := do
  let threshold ← roundingThreshold p q
  let cluster := majorityVote B threshold
  let total := sumColumns B (List.range B.cols)
  let inside := sumColumns B cluster
  return (if B.rows * cluster.length > 0 then (inside : ℝ) / ((B.rows * cluster.length : ℕ) : ℝ) else 1,
    if (B.rows : ℤ) * ((B.cols : ℤ) - cluster.length) > 0 then
      ((total - inside : ℚ) : ℝ) / (((B.rows : ℤ) * ((B.cols : ℤ) - cluster.length) : ℤ) : ℝ) else 0, cluster)

/-- The variables of the loops of `estimatePQ`: `minDiff` (`none` for infinity), `bestP`, `bestQ`,
`bestCluster`. -/
structure PQBest where
  minDiff : Option ℝ
  p : ℝ
  q : ℝ
  cluster : List ℕ

open Classical in
/-- The body of the loops, `biclus_viz/includes/pcv/Heuristic.py:15-25`. -/
noncomputable def pqStep (B : Dense ℚ) (best : PQBest) (pq : ℝ × ℝ) : Py PQBest :=
  if pq.2 ≥ pq.1 then .ok best
  else do
    let e ← estimateSingle pq.1 pq.2 B
    let diff := |pq.1 - e.1| + |pq.2 - e.2.1|
    return if best.minDiff.elim True (fun d => diff < d) then
      { minDiff := some diff, p := pq.1, q := pq.2, cluster := e.2.2 } else best

/-- `estimatePQ`, `biclus_viz/includes/pcv/Heuristic.py:6-28`. -/
noncomputable def estimatePQ (ps qs : List ℝ) (B : Dense ℚ) : Py PQBest :=
  (ps.flatMap fun p => qs.map fun q => (p, q)).foldlM (pqStep B) { minDiff := none, p := 1, q := 0, cluster := [] }

/-- `B[list(rows), :]`; `IndexError` if a row is out of range. -/
def selectRows (B : Dense ℚ) (rows : List ℕ) : Py (Dense ℚ) :=
  if ∀ r ∈ rows, r < B.rows then
    .ok { rows := rows.length, cols := B.cols, at_ := fun a b => B.at_ (rows.getD a 0) b }
  else .error .indexError

/-- `ps` of `BinaryMajorityVote`, `biclus_viz/includes/pcv/MajorityVote.py:13`. -/
noncomputable def gridP : List ℝ := (List.range 7).map fun i : ℕ => 3 / 10 + (i : ℝ) / 10

/-- `qs`, `biclus_viz/includes/pcv/MajorityVote.py:14`. -/
noncomputable def gridQ : List ℝ := (List.range 5).map fun i : ℕ => 1 / 50 + (i : ℝ) / 50

/-- `BinaryMajorityVote`, `biclus_viz/includes/pcv/MajorityVote.py:5-20`. -/
noncomputable def binaryMajorityVote (B : Dense ℚ) (clusters : List (List ℕ)) (threshold : ℝ) (minSize : ℕ)
    (useHeuristic : Bool) : Py (List (List ℕ)) := do
  let l ← clusters.mapM fun c =>
    if c.length < minSize then .ok none
    else do
      let S ← selectRows B c
      if useHeuristic then do
        let e ← estimatePQ gridP gridQ S
        return some e.cluster
      else return some (majorityVote S threshold)
  return l.filterMap id

/-- `PCV`, `biclus_viz/includes/pcv/PCV.py:7-14`, given the labels k-means assigns to the rows of `B`. Its
parameter `minClusterSize` is not used. -/
noncomputable def pcv (B : Dense ℚ) (labels : List ℕ) (threshold : ℝ) (useHeuristic : Bool) :
    Py (List (List ℕ) × List (List ℕ)) := do
  let left := groupByLabel labels
  let right ← binaryMajorityVote B left threshold 0 useHeuristic
  return (left, right)

end Biclus

end Verif
