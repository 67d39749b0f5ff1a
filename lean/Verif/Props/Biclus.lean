/-
C84-C86: the bicluster viewer. What the constructor accepts, that the reordered matrix is the original matrix
with its rows and columns permuted, that blocks are the classes of indices with the same clusters, and what the
pictures show.
-/
import Verif.Lemmas.BiclusPlot
import Mathlib.Data.List.GetD

namespace Verif

namespace Biclus

/-! ### C84 -/

/-- C84. The constructor raises iff some non-empty left cluster has no right counterpart, and then an
`IndexError`. -/
theorem C84_constructor_raises_iff (left right : List (List ℕ)) (A : Dense ℚ) (lp rp : List ℕ) (e : PyErr) :
    BlockMatrix.new left right A lp rp = .error e ↔
      e = .indexError ∧ ∃ i < left.length, left.getD i [] ≠ [] ∧ right.length ≤ i := by
  by_cases h : ∃ i < left.length, left.getD i [] ≠ [] ∧ right.length ≤ i
  · rw [BlockMatrix.new, keepClusters_error h]
    constructor
    · intro h'
      cases h'
      exact ⟨rfl, h⟩
    · rintro ⟨rfl, -⟩
      rfl
  · rw [BlockMatrix.new, keepClusters_ok]
    · constructor
      · intro h'; cases h'
      · rintro ⟨-, h'⟩
        exact absurd h' h
    · intro i hi hne
      by_contra hlt
      exact h ⟨i, hi, hne, Nat.not_lt.mp hlt⟩

/-- C84. Otherwise the object keeps, in order, the pairs of clusters of which neither is empty. -/
theorem C84_constructor_keeps (left right : List (List ℕ)) (A : Dense ℚ) (m : BlockMatrix)
    (h : Viewer left right A m) :
    m.original = A ∧ m.leftClusters.length = m.rightClusters.length ∧
      m.leftClusters.zip m.rightClusters =
        (left.zip right).filter fun c => decide (c.1 ≠ [] ∧ c.2 ≠ []) := by
  have hw := viewer_wf h
  refine ⟨hw.original, hw.same, ?_⟩
  obtain ⟨kept, hk, h1, h2⟩ := viewer_clusters h
  have : kept = (left.zip right).filter fun c => decide (c.1 ≠ [] ∧ c.2 ≠ []) := by
    by_cases he : ∃ i < left.length, left.getD i [] ≠ [] ∧ right.length ≤ i
    · rw [keepClusters_error he] at hk; cases hk
    · rw [keepClusters_ok] at hk
      · exact (Except.ok.inj hk).symm
      · intro i hi hne
        by_contra hlt
        exact he ⟨i, hi, hne, Nat.not_lt.mp hlt⟩
  rw [h1, h2, ← this]
  clear * -
  induction kept with
  | nil => rfl
  | cons c l ih => simp [ih]

theorem inRange_left {A : Dense ℚ} {m : BlockMatrix} (hw : Wf A m) :
    (∀ x ∈ m.leftBlocks.flatten, x < m.original.rows) ↔
      ∀ x, Clustered m.leftClusters x → x < m.original.rows := by
  rw [hw.left]
  exact forall_congr' fun x => by rw [mem_blocks]

theorem inRange_right {A : Dense ℚ} {m : BlockMatrix} (hw : Wf A m) :
    (∀ x ∈ m.rightBlocks.flatten, x < m.original.cols) ↔
      ∀ x, Clustered m.rightClusters x → x < m.original.cols := by
  rw [hw.right]
  exact forall_congr' fun x => by rw [mem_blocks]

theorem leftBlocks_nodup {A : Dense ℚ} {m : BlockMatrix} (hw : Wf A m) : m.leftBlocks.flatten.Nodup := by
  rw [hw.left]; exact blocks_nodup _

theorem rightBlocks_nodup {A : Dense ℚ} {m : BlockMatrix} (hw : Wf A m) : m.rightBlocks.flatten.Nodup := by
  rw [hw.right]; exact blocks_nodup _

theorem perms_ok {A : Dense ℚ} {m : BlockMatrix} (hw : Wf A m) :
    leftPermutation m = .ok (nodes m.original.rows m.leftBlocks m.leftPerm) ∧
    rightPermutation m = .ok (nodes m.original.cols m.rightBlocks m.rightPerm) :=
  ⟨nodePermutation_ok hw.leftPerm, nodePermutation_ok hw.rightPerm⟩

theorem perms_lists {A : Dense ℚ} {m : BlockMatrix} (hw : Wf A m) (hr : InRange m) :
    Lists m.original.rows (nodes m.original.rows m.leftBlocks m.leftPerm) ∧
    Lists m.original.cols (nodes m.original.cols m.rightBlocks m.rightPerm) :=
  ⟨(nodes_lists_iff hw.leftPerm (leftBlocks_nodup hw)).mpr ((inRange_left hw).mpr hr.1),
   (nodes_lists_iff hw.rightPerm (rightBlocks_nodup hw)).mpr ((inRange_right hw).mpr hr.2)⟩

/-- C84. The row and column orders list every row and every column exactly once, before and after
`order()`. -/
theorem C84_every_row_once (left right : List (List ℕ)) (A : Dense ℚ) (m : BlockMatrix)
    (h : Viewer left right A m) (hr : InRange m) :
    ∃ lp rp, leftPermutation m = .ok lp ∧ rightPermutation m = .ok rp ∧ Lists A.rows lp ∧ Lists A.cols rp := by
  have hw := viewer_wf h
  have := perms_lists hw hr
  rw [hw.original] at this
  refine ⟨_, _, ?_, ?_, this.1, this.2⟩
  · rw [(perms_ok hw).1, hw.original]
  · rw [(perms_ok hw).2, hw.original]

/-- C84. The matrix shown is the original one with rows and columns in these orders; nothing is lost, nothing
is repeated. -/
theorem C84_shown_matrix (left right : List (List ℕ)) (A : Dense ℚ) (m : BlockMatrix)
    (h : Viewer left right A m) (hr : InRange m) :
    ∃ lp rp M, leftPermutation m = .ok lp ∧ rightPermutation m = .ok rp ∧ Lists A.rows lp ∧ Lists A.cols rp ∧
      orderedOriginal m = .ok M ∧ M.rows = A.rows ∧ M.cols = A.cols ∧
      ∀ a < A.rows, ∀ b < A.cols, M.at_ a b = A.at_ (lp.getD a 0) (rp.getD b 0) := by
  obtain ⟨lp, rp, h1, h2, h3, h4⟩ := C84_every_row_once left right A m h hr
  have hw := viewer_wf h
  have ho := hw.original
  refine ⟨lp, rp, { rows := lp.length, cols := m.original.cols, at_ := fun a b => m.original.at_ (lp.getD a 0) (rp.getD b 0) }, h1, h2, h3, h4, ?_, h3.length, by rw [ho], ?_⟩
  · rw [orderedOriginal, h1, h2]
    change (if ¬ ∀ i ∈ lp, i < m.original.rows then _ else _) = _
    rw [if_neg (not_not.mpr fun i hi => by rw [ho]; exact (h3.2 i).mp hi),
      if_neg (not_not.mpr fun i hi => by rw [ho]; exact (h4.2 i).mp hi),
      if_neg (not_not.mpr (by rw [ho]; exact h4.length))]
    rfl
  · intro a _ b _
    rw [ho]

/-- C84. If some index is outside the matrix, showing the matrix raises `IndexError`. -/
theorem C84_out_of_range (left right : List (List ℕ)) (A : Dense ℚ) (m : BlockMatrix)
    (h : Viewer left right A m) (hr : ¬ InRange m) : orderedOriginal m = .error .indexError := by
  have hw := viewer_wf h
  rw [orderedOriginal, (perms_ok hw).1, (perms_ok hw).2]
  change (if ¬ ∀ i ∈ nodes m.original.rows m.leftBlocks m.leftPerm, i < m.original.rows then _ else _) = _
  by_cases hl : ∀ x, Clustered m.leftClusters x → x < m.original.rows
  · have hl' := ((nodes_lists_iff hw.leftPerm (leftBlocks_nodup hw)).mpr ((inRange_left hw).mpr hl))
    rw [if_neg (not_not.mpr fun i hi => (hl'.2 i).mp hi), if_pos]
    intro hall
    apply hr
    refine ⟨hl, (inRange_right hw).mp ?_⟩
    intro x hx
    exact hall x (nodes_block hw.rightPerm hx)
  · rw [if_pos]
    intro hall
    apply hl
    refine (inRange_left hw).mp ?_
    intro x hx
    exact hall x (nodes_block hw.leftPerm hx)

/-- C84. The rows of a block are next to each other, and the rows in no cluster come last, in increasing
order; likewise for columns. -/
theorem C84_blocks_together (left right : List (List ℕ)) (A : Dense ℚ) (m : BlockMatrix)
    (h : Viewer left right A m) :
    (∃ (bs : List (List ℕ)) (rest : List ℕ), bs.Perm m.leftBlocks ∧ leftPermutation m = .ok (bs.flatten ++ rest) ∧ rest.SortedLT ∧
      ∀ x, x ∈ rest ↔ x < A.rows ∧ ¬ Clustered m.leftClusters x) ∧
    ∃ (bs : List (List ℕ)) (rest : List ℕ), bs.Perm m.rightBlocks ∧ rightPermutation m = .ok (bs.flatten ++ rest) ∧ rest.SortedLT ∧
      ∀ x, x ∈ rest ↔ x < A.cols ∧ ¬ Clustered m.rightClusters x := by
  have hw := viewer_wf h
  constructor
  · refine ⟨_, _, hw.leftPerm.map_getD [], (perms_ok hw).1, (List.pairwise_lt_range.filter _).sortedLT, ?_⟩
    intro x
    rw [List.mem_filter, List.mem_range, decide_eq_true_eq, (nodes_perm hw.leftPerm).mem_iff, hw.left, mem_blocks,
      hw.original]
  · refine ⟨_, _, hw.rightPerm.map_getD [], (perms_ok hw).2, (List.pairwise_lt_range.filter _).sortedLT, ?_⟩
    intro x
    rw [List.mem_filter, List.mem_range, decide_eq_true_eq, (nodes_perm hw.rightPerm).mem_iff, hw.right,
      mem_blocks, hw.original]

/-! ### C85 -/

/-- C85. The blocks are non-empty, disjoint, without repetition, and contain exactly the clustered indices. -/
theorem C85_blocks_partition (clusters : List (List ℕ)) :
    (createBlocks clusters).flatten.Nodup ∧ (∀ B ∈ createBlocks clusters, B ≠ []) ∧
      ∀ x, (∃ B ∈ createBlocks clusters, x ∈ B) ↔ Clustered clusters x := by
  refine ⟨blocks_nodup _, fun B hB => block_ne_nil hB, fun x => ?_⟩
  rw [← mem_blocks, List.mem_flatten]

/-- C85. Every cluster either contains a block or is disjoint from it. -/
theorem C85_clusters_are_unions (clusters : List (List ℕ)) (c B : List ℕ) (hc : c ∈ clusters)
    (hB : B ∈ createBlocks clusters) : (∀ x ∈ B, x ∈ c) ∨ ∀ x ∈ B, x ∉ c := by
  obtain ⟨x, -, hx, -⟩ := block_spec.mp hB
  by_cases hxc : x ∈ c
  · refine Or.inl fun y hy => ?_
    exact (same_of_signature ((mem_block hB hx y).mp hy).2 c hc).mpr hxc
  · refine Or.inr fun y hy hyc => hxc ?_
    exact (same_of_signature ((mem_block hB hx y).mp hy).2 c hc).mp hyc

/-- C85. Two clustered indices are in a common block iff they belong to the same clusters. -/
theorem C85_same_block_iff (clusters : List (List ℕ)) (hn : ∀ c ∈ clusters, c.Nodup) (x y : ℕ)
    (hx : Clustered clusters x) (hy : Clustered clusters y) :
    (∃ B ∈ createBlocks clusters, x ∈ B ∧ y ∈ B) ↔ SameClusters clusters x y := by
  constructor
  · rintro ⟨B, hB, h1, h2⟩
    exact same_of_signature ((mem_block hB h2 x).mp h1).2
  · intro h
    obtain ⟨B, hB, hxB⟩ := List.mem_flatten.mp (mem_blocks.mpr hx)
    refine ⟨B, hB, hxB, (mem_block hB hxB y).mpr ⟨hy, ?_⟩⟩
    rw [signature_congr]
    intro c hc
    have := h c hc
    by_cases hxc : x ∈ c
    · rw [List.count_eq_one_of_mem (hn c hc) hxc, List.count_eq_one_of_mem (hn c hc) (this.mp hxc)]
    · rw [List.count_eq_zero_of_not_mem hxc, List.count_eq_zero_of_not_mem fun hyc => hxc (this.mpr hyc)]

theorem blocks_distinct (clusters : List (List ℕ)) : (createBlocks clusters).Nodup := by
  rw [List.nodup_iff_pairwise_ne]
  have h := (List.nodup_flatten.mp (blocks_nodup clusters)).2
  refine List.Pairwise.imp_of_mem ?_ h
  rintro B B' hB - hd rfl
  obtain ⟨x, hx⟩ := List.exists_mem_of_ne_nil _ (block_ne_nil hB)
  exact hd hx hx

theorem idxOf_filter {l : List (List ℕ)} (hl : l.Nodup) (p : List ℕ → Bool) :
    (l.filter p).map (fun B => l.idxOf B) = (List.range l.length).filter fun b => p (l.getD b []) := by
  have h1 : l = (List.range l.length).map fun b => l.getD b [] := by
    refine List.ext_getElem (by simp) fun i h1 h2 => ?_
    simp [List.getElem?_eq_getElem h1]
  conv_lhs => rw [h1, List.filter_map, List.map_map]
  rw [← h1]
  refine (List.map_congr_left fun b hb => ?_).trans (List.map_id _)
  have hb' : b < l.length := List.mem_range.mp (List.mem_of_mem_filter hb)
  show l.idxOf (l.getD b []) = b
  rw [List.getD_eq_getElem _ _ hb']
  exact List.Nodup.idxOf_getElem hl b hb'

/-- C85. `createBlockedClusters` describes each cluster by its blocks: the numbers listed for the `j`-th cluster increase,
they are the numbers of the blocks inside the cluster, and every index in the cluster is in exactly one of these
blocks. -/
theorem C85_blocked_clusters (clusters : List (List ℕ)) :
    (blockedClusters clusters (createBlocks clusters)).length = clusters.length ∧
    ∀ j (hj : j < clusters.length), ∃ bs, (blockedClusters clusters (createBlocks clusters))[j]? = some bs ∧
      bs.Pairwise (· < ·) ∧
      (∀ b, b ∈ bs ↔ ∃ B, (createBlocks clusters)[b]? = some B ∧ ∀ x ∈ B, x ∈ clusters[j]) ∧
      ∀ x, x ∈ clusters[j] ↔ ∃! b, b ∈ bs ∧ ∃ B, (createBlocks clusters)[b]? = some B ∧ x ∈ B := by
  refine ⟨by simp [blockedClusters], fun j hj => ?_⟩
  refine ⟨(List.range (createBlocks clusters).length).filter fun b =>
    decide (∀ x ∈ (createBlocks clusters).getD b [], x ∈ clusters[j]), ?_, ?_, ?_, ?_⟩
  · unfold blockedClusters
    rw [List.getElem?_map, List.getElem?_eq_getElem hj, Option.map_some,
      idxOf_filter (blocks_distinct clusters) fun block => decide (∀ x ∈ block, x ∈ clusters[j])]
  · exact List.Pairwise.filter _ List.pairwise_lt_range
  · intro b
    rw [List.mem_filter, List.mem_range, decide_eq_true_iff]
    constructor
    · rintro ⟨hb, h⟩
      rw [List.getD_eq_getElem _ _ hb] at h
      exact ⟨_, List.getElem?_eq_getElem hb, h⟩
    · rintro ⟨B, hB, h⟩
      obtain ⟨hb, rfl⟩ := List.getElem?_eq_some_iff.mp hB
      exact ⟨hb, by rw [List.getD_eq_getElem _ _ hb]; exact h⟩
  · intro x
    constructor
    · intro hx
      have hcl : Clustered clusters x := ⟨clusters[j], List.getElem_mem hj, hx⟩
      obtain ⟨B, hB, hxB⟩ := List.mem_flatten.mp (mem_blocks.mpr hcl)
      obtain ⟨b, hb, rfl⟩ := List.getElem_of_mem hB
      refine ⟨b, ⟨?_, _, List.getElem?_eq_getElem hb, hxB⟩, ?_⟩
      · rw [List.mem_filter, List.mem_range, decide_eq_true_iff, List.getD_eq_getElem _ _ hb]
        refine ⟨hb, ?_⟩
        rcases C85_clusters_are_unions clusters clusters[j] _ (List.getElem_mem hj) hB with h | h
        · exact h
        · exact absurd hx (h x hxB)
      · rintro b' ⟨-, B', hB', hx'⟩
        obtain ⟨hb', rfl⟩ := List.getElem?_eq_some_iff.mp hB'
        by_contra hne
        have hd := List.pairwise_iff_getElem.mp (List.nodup_flatten.mp (blocks_nodup clusters)).2
        rcases Nat.lt_or_gt_of_ne hne with hlt | hlt
        · exact hd b' b hb' hb hlt hx' hxB
        · exact hd b b' hb hb' hlt hxB hx'
    · rintro ⟨b, ⟨hb, B, hB, hx⟩, -⟩
      rw [List.mem_filter, List.mem_range, decide_eq_true_iff] at hb
      obtain ⟨hb', rfl⟩ := List.getElem?_eq_some_iff.mp hB
      rw [List.getD_eq_getElem _ _ hb'] at hb
      exact hb.2 x hx

example : blockedClusters [[0, 1, 2], [2, 3]] (createBlocks [[0, 1, 2], [2, 3]]) = [[0, 1], [1, 2]] := by decide

/-- C85. In a block matrix both sides are described in this way: the `j`-th entry of `leftClustersBlock` lists the
numbers of the row blocks that make up the `j`-th row cluster, and `rightClustersBlock` does it for the columns. -/
theorem C85_block_matrix (left right : List (List ℕ)) (A : Dense ℚ) (lp rp : List ℕ) (m : BlockMatrix)
    (h : BlockMatrix.new left right A lp rp = .ok m) :
    m.leftClustersBlock.length = m.leftClusters.length ∧ m.rightClustersBlock.length = m.rightClusters.length ∧
    (∀ (j : ℕ) (c bs : List ℕ), m.leftClusters[j]? = some c → m.leftClustersBlock[j]? = some bs →
      ∀ x, x ∈ c ↔ ∃ b ∈ bs, ∃ B, m.leftBlocks[b]? = some B ∧ x ∈ B) ∧
    ∀ (j : ℕ) (c bs : List ℕ), m.rightClusters[j]? = some c → m.rightClustersBlock[j]? = some bs →
      ∀ x, x ∈ c ↔ ∃ b ∈ bs, ∃ B, m.rightBlocks[b]? = some B ∧ x ∈ B := by
  have key : ∀ (cs : List (List ℕ)) (j : ℕ) (c bs : List ℕ), cs[j]? = some c →
      (blockedClusters cs (createBlocks cs))[j]? = some bs →
      ∀ x, x ∈ c ↔ ∃ b ∈ bs, ∃ B, (createBlocks cs)[b]? = some B ∧ x ∈ B := by
    intro cs j c bs hc hbs x
    obtain ⟨hj, rfl⟩ := List.getElem?_eq_some_iff.mp hc
    obtain ⟨bs', hb', -, h2, h3⟩ := (C85_blocked_clusters cs).2 j hj
    rw [hbs] at hb'
    cases hb'
    constructor
    · intro hx
      obtain ⟨b, ⟨hb, hB⟩, -⟩ := (h3 x).mp hx
      exact ⟨b, hb, hB⟩
    · rintro ⟨b, hb, B, hB, hx⟩
      obtain ⟨B', hB', hsub⟩ := (h2 b).mp hb
      rw [hB] at hB'
      cases hB'
      exact hsub x hx
  unfold BlockMatrix.new at h
  rcases hk : keepClusters left right with e | kept
  · rw [hk] at h; cases h
  · rw [hk] at h
    simp only [bind, Except.bind, pure, Except.pure, Except.ok.injEq] at h
    subst h
    exact ⟨(C85_blocked_clusters _).1, (C85_blocked_clusters _).1, key _, key _⟩

example : ∃ m, BlockMatrix.new [[0, 1, 2], [2, 3]] [[0], [1]]
      { rows := 4, cols := 2, at_ := fun _ _ => 0 } [0, 1, 2] [0, 1] = .ok m ∧
    m.leftClustersBlock = [[0, 1], [1, 2]] ∧ m.rightClustersBlock = [[0], [1]] := ⟨_, rfl, by decide, by decide⟩

/-! ### C86 -/

theorem clusters_listed {A : Dense ℚ} {m : BlockMatrix} (hw : Wf A m) (hr : InRange m) :
    (∀ c ∈ m.leftClusters, ∀ x ∈ c, x ∈ nodes m.original.rows m.leftBlocks m.leftPerm) ∧
    ∀ c ∈ m.rightClusters, ∀ x ∈ c, x ∈ nodes m.original.cols m.rightBlocks m.rightPerm :=
  ⟨fun c hc x hx => nodes_cover (hr.1 x ⟨c, hc, hx⟩), fun c hc x hx => nodes_cover (hr.2 x ⟨c, hc, hx⟩)⟩

theorem blocks_listed {A : Dense ℚ} {m : BlockMatrix} (hw : Wf A m) :
    (∀ c ∈ m.leftBlocks, ∀ x ∈ c, x ∈ nodes m.original.rows m.leftBlocks m.leftPerm) ∧
    ∀ c ∈ m.rightBlocks, ∀ x ∈ c, x ∈ nodes m.original.cols m.rightBlocks m.rightPerm :=
  ⟨fun _ hc _ hx => nodes_block hw.leftPerm (List.mem_flatten.mpr ⟨_, hc, hx⟩),
   fun _ hc _ hx => nodes_block hw.rightPerm (List.mem_flatten.mpr ⟨_, hc, hx⟩)⟩

theorem idx_lt {n : ℕ} {l c : List ℕ} (hl : Lists n l) (hc : ∀ x ∈ c, x ∈ l) : ∀ a ∈ c.map l.idxOf, a < n := by
  intro a ha
  obtain ⟨x, hx, rfl⟩ := List.mem_map.mp ha
  rw [← hl.length]
  exact List.idxOf_lt_length_of_mem (hc x hx)

theorem getD_zip_map {f g : List ℕ → List ℕ} {ls rs : List (List ℕ)} (h : ls.length = rs.length) (j : ℕ)
    (hj : j < ls.length) :
    ((ls.map f).zip (rs.map g)).getD j ([], []) = (f (ls.getD j []), g (rs.getD j [])) := by
  rw [getD_lt (by simp; omega), List.getElem_zip, List.getElem_map, List.getElem_map, getD_lt hj,
    getD_lt (h ▸ hj)]

/-- C86. The cluster picture: cell (a, b) shows one plus the number of the last bicluster that contains the row
and the column displayed there, and zero if there is none. -/
theorem C86_cluster_picture (left right : List (List ℕ)) (A : Dense ℚ) (m : BlockMatrix)
    (h : Viewer left right A m) (hr : InRange m) :
    ∃ lp rp M, leftPermutation m = .ok lp ∧ rightPermutation m = .ok rp ∧ clusterMatrix m = .ok M ∧
      M.rows = A.rows ∧ M.cols = A.cols ∧
      ∀ a < A.rows, ∀ b < A.cols,
        ((∀ j, ¬ InCluster m j (lp.getD a 0) (rp.getD b 0)) ∧ M.at_ a b = 0) ∨
        ∃ j, InCluster m j (lp.getD a 0) (rp.getD b 0) ∧ M.at_ a b = j + 1 ∧
          ∀ k, j < k → ¬ InCluster m k (lp.getD a 0) (rp.getD b 0) := by
  have hw := viewer_wf h
  have ho := hw.original
  obtain ⟨p1, p2⟩ := perms_ok hw
  obtain ⟨l1, l2⟩ := perms_lists hw hr
  obtain ⟨c1, c2⟩ := clusters_listed hw hr
  obtain ⟨b1, b2⟩ := blocks_listed hw
  generalize nodes m.original.rows m.leftBlocks m.leftPerm = lp at *
  generalize nodes m.original.cols m.rightBlocks m.rightPerm = rp at *
  obtain ⟨M, hM, hrows, hcols, hs⟩ := paint_spec
    ((m.leftClusters.map fun c => c.map lp.idxOf).zip (m.rightClusters.map fun c => c.map rp.idxOf)) 0
    { rows := m.original.rows, cols := m.original.cols, at_ := fun _ _ => 0 } (by
      intro c hc
      obtain ⟨h1, h2⟩ := List.of_mem_zip hc
      obtain ⟨d1, hd1, e1⟩ := List.mem_map.mp h1
      obtain ⟨d2, hd2, e2⟩ := List.mem_map.mp h2
      rw [← e1, ← e2]
      exact ⟨idx_lt l1 (c1 d1 hd1), idx_lt l2 (c2 d2 hd2)⟩)
  refine ⟨lp, rp, M, p1, p2, ?_, by rw [hrows, ho], by rw [hcols, ho], ?_⟩
  · simp only [clusterMatrix, p1, p2, bind, Except.bind, indices_ok b1, indices_ok b2, indices_ok c1, indices_ok c2]
    exact hM
  · intro a ha b hb
    have ha' : a < lp.length := by rw [l1.length, ho]; exact ha
    have hb' : b < rp.length := by rw [l2.length, ho]; exact hb
    have hlen : ((m.leftClusters.map fun c => c.map lp.idxOf).zip
        (m.rightClusters.map fun c => c.map rp.idxOf)).length = m.leftClusters.length := by
      simp [hw.same]
    have key : ∀ j < m.leftClusters.length,
        ((a ∈ (((m.leftClusters.map fun c => c.map lp.idxOf).zip
          (m.rightClusters.map fun c => c.map rp.idxOf)).getD j ([], [])).1 ∧
        b ∈ (((m.leftClusters.map fun c => c.map lp.idxOf).zip
          (m.rightClusters.map fun c => c.map rp.idxOf)).getD j ([], [])).2) ↔
        InCluster m j (lp.getD a 0) (rp.getD b 0)) := by
      intro j hj
      rw [getD_zip_map hw.same j hj, InCluster]
      rw [mem_map_idxOf l1.1 (c1 _ (by rw [getD_lt hj]; exact List.getElem_mem _)) ha',
        mem_map_idxOf l2.1 (c2 _ (by rw [getD_lt (hw.same ▸ hj)]; exact List.getElem_mem _)) hb']
      exact ⟨fun h => ⟨hj, h⟩, fun h => h.2⟩
    rw [hlen] at hs
    rcases hs a b with ⟨hno, hv⟩ | ⟨j, hj, h1, h2, hv, hlast⟩
    · refine Or.inl ⟨?_, hv⟩
      intro j hj
      exact hno j hj.1 ((key j hj.1).mpr hj)
    · refine Or.inr ⟨j, (key j hj).mp ⟨h1, h2⟩, by rw [hv]; omega, ?_⟩
      intro k hk hin
      exact hlast k hin.1 hk ((key k hin.1).mpr hin)

theorem blockAdj_ne_zero {A : Dense ℚ} {m : BlockMatrix} (hw : Wf A m) {i k x y : ℕ}
    (hi : i < m.leftBlocks.length) (hk : k < m.rightBlocks.length) (hx : x ∈ m.leftBlocks.getD i [])
    (hy : y ∈ m.rightBlocks.getD k []) : blockAdj m i k ≠ 0 ↔ ∃ j, InCluster m j x y := by
  have hbi : m.leftBlocks.getD i [] ∈ createBlocks m.leftClusters := by
    rw [getD_lt hi, ← hw.left]; exact List.getElem_mem _
  have hbk : m.rightBlocks.getD k [] ∈ createBlocks m.rightClusters := by
    rw [getD_lt hk, ← hw.right]; exact List.getElem_mem _
  have hcard : (m.leftBlocks.getD i []).toFinset.card * (m.rightBlocks.getD k []).toFinset.card ≠ 0 := by
    apply mul_ne_zero
    · exact Finset.card_ne_zero.mpr ⟨x, List.mem_toFinset.mpr hx⟩
    · exact Finset.card_ne_zero.mpr ⟨y, List.mem_toFinset.mpr hy⟩
  rw [blockAdj]
  constructor
  · intro h
    split at h
    · rename_i hany
      obtain ⟨j, hj, hjj⟩ := List.any_eq_true.mp hany
      rw [Bool.and_eq_true, decide_eq_true_eq, decide_eq_true_eq] at hjj
      exact ⟨j, List.mem_range.mp hj, hjj.1 x hx, hjj.2 y hy⟩
    · exact absurd rfl h
  · rintro ⟨j, hj, h1, h2⟩
    rw [if_pos]
    · exact hcard
    · rw [List.any_eq_true]
      refine ⟨j, List.mem_range.mpr hj, ?_⟩
      rw [Bool.and_eq_true, decide_eq_true_eq, decide_eq_true_eq]
      have hlc : m.leftClusters.getD j [] ∈ m.leftClusters := by rw [getD_lt hj]; exact List.getElem_mem _
      have hrc : m.rightClusters.getD j [] ∈ m.rightClusters := by
        rw [getD_lt (hw.same ▸ hj)]; exact List.getElem_mem _
      refine ⟨?_, ?_⟩
      · rcases C85_clusters_are_unions _ _ _ hlc hbi with h' | h'
        · exact h'
        · exact absurd h1 (h' x hx)
      · rcases C85_clusters_are_unions _ _ _ hrc hbk with h' | h'
        · exact h'
        · exact absurd h2 (h' y hy)

/-- C86. The block picture: a cell is nonzero iff the row and the column displayed there share a bicluster,
and then its value tells the parities of the positions of their blocks. -/
theorem C86_block_picture (left right : List (List ℕ)) (A : Dense ℚ) (m : BlockMatrix)
    (h : Viewer left right A m) (hr : InRange m) :
    ∃ lp rp M, leftPermutation m = .ok lp ∧ rightPermutation m = .ok rp ∧ blockMatrix m = .ok M ∧
      M.rows = A.rows ∧ M.cols = A.cols ∧
      ∀ a < A.rows, ∀ b < A.cols,
        (M.at_ a b ≠ 0 ↔ ∃ j, InCluster m j (lp.getD a 0) (rp.getD b 0)) ∧
        ∀ s t, s < m.leftPerm.length → t < m.rightPerm.length →
          lp.getD a 0 ∈ m.leftBlocks.getD (m.leftPerm.getD s 0) [] →
          rp.getD b 0 ∈ m.rightBlocks.getD (m.rightPerm.getD t 0) [] →
          M.at_ a b ≠ 0 → M.at_ a b = 1 + 2 * (s % 2) + t % 2 := by
  have hw := viewer_wf h
  have ho := hw.original
  obtain ⟨p1, p2⟩ := perms_ok hw
  obtain ⟨l1, l2⟩ := perms_lists hw hr
  obtain ⟨c1, c2⟩ := clusters_listed hw hr
  obtain ⟨b1, b2⟩ := blocks_listed hw
  generalize nodes m.original.rows m.leftBlocks m.leftPerm = lp at *
  generalize nodes m.original.cols m.rightBlocks m.rightPerm = rp at *
  have hgetl : ∀ i, (m.leftBlocks.map fun c => c.map lp.idxOf).getD i [] =
      (m.leftBlocks.getD i []).map lp.idxOf := by
    intro i
    by_cases hi : i < m.leftBlocks.length
    · rw [getD_lt (by simpa using hi), getD_lt hi, List.getElem_map]
    · rw [List.getD_eq_default _ _ (by simpa using hi), List.getD_eq_default _ _ (by simpa using hi)]; rfl
  have hgetr : ∀ i, (m.rightBlocks.map fun c => c.map rp.idxOf).getD i [] =
      (m.rightBlocks.getD i []).map rp.idxOf := by
    intro i
    by_cases hi : i < m.rightBlocks.length
    · rw [getD_lt (by simpa using hi), getD_lt hi, List.getElem_map]
    · rw [List.getD_eq_default _ _ (by simpa using hi), List.getD_eq_default _ _ (by simpa using hi)]; rfl
  have hbl : ∀ i, ∀ x ∈ m.leftBlocks.getD i [], x ∈ lp := by
    intro i x hx
    by_cases hi : i < m.leftBlocks.length
    · rw [getD_lt hi] at hx
      exact b1 _ (List.getElem_mem _) x hx
    · rw [List.getD_eq_default _ _ (by simpa using hi)] at hx
      simp at hx
  have hbr : ∀ i, ∀ x ∈ m.rightBlocks.getD i [], x ∈ rp := by
    intro i x hx
    by_cases hi : i < m.rightBlocks.length
    · rw [getD_lt hi] at hx
      exact b2 _ (List.getElem_mem _) x hx
    · rw [List.getD_eq_default _ _ (by simpa using hi)] at hx
      simp at hx
  obtain ⟨M, hM, hrows, hcols, hs⟩ := paintBlocks_spec hw
    (m.leftBlocks.map fun c => c.map lp.idxOf) (m.rightBlocks.map fun c => c.map rp.idxOf)
    ((List.range m.leftBlocks.length).flatMap fun i => (List.range m.rightBlocks.length).map fun k => (i, k))
    { rows := m.original.rows, cols := m.original.cols, at_ := fun _ _ => 0 }
    (by
      rintro ⟨i, k⟩ hik
      simp only [List.mem_flatMap, List.mem_range, List.mem_map, Prod.mk.injEq] at hik
      obtain ⟨i', hi', k', hk', rfl, rfl⟩ := hik
      exact ⟨hi', hk'⟩)
    (by intro i; rw [hgetl]; exact idx_lt l1 (hbl i))
    (by intro i; rw [hgetr]; exact idx_lt l2 (hbr i))
  refine ⟨lp, rp, M, p1, p2, ?_, by rw [hrows, ho], by rw [hcols, ho], ?_⟩
  · simp only [blockMatrix, p1, p2, bind, Except.bind, indices_ok b1, indices_ok b2, indices_ok c1, indices_ok c2]
    exact hM
  · intro a ha b hb
    have ha' : a < lp.length := by rw [l1.length, ho]; exact ha
    have hb' : b < rp.length := by rw [l2.length, ho]; exact hb
    have hs' := hs a b
    simp only [hgetl, hgetr] at hs'
    have eqa : ∀ i, a ∈ (m.leftBlocks.getD i []).map lp.idxOf ↔ lp.getD a 0 ∈ m.leftBlocks.getD i [] :=
      fun i => mem_map_idxOf l1.1 (hbl i) ha'
    have eqb : ∀ i, b ∈ (m.rightBlocks.getD i []).map rp.idxOf ↔ rp.getD b 0 ∈ m.rightBlocks.getD i [] :=
      fun i => mem_map_idxOf l2.1 (hbr i) hb'
    simp only [eqa, eqb] at hs'
    have hpair : ∀ i k, i < m.leftBlocks.length → k < m.rightBlocks.length →
        (i, k) ∈ ((List.range m.leftBlocks.length).flatMap fun i =>
          (List.range m.rightBlocks.length).map fun k => (i, k)) := by
      intro i k hi hk
      simp only [List.mem_flatMap, List.mem_range, List.mem_map, Prod.mk.injEq]
      exact ⟨i, hi, k, hk, rfl, rfl⟩
    have hpair' : ∀ ik ∈ ((List.range m.leftBlocks.length).flatMap fun i =>
          (List.range m.rightBlocks.length).map fun k => (i, k)),
        ik.1 < m.leftBlocks.length ∧ ik.2 < m.rightBlocks.length := by
      rintro ⟨i, k⟩ hik
      simp only [List.mem_flatMap, List.mem_range, List.mem_map, Prod.mk.injEq] at hik
      obtain ⟨i', hi', k', hk', rfl, rfl⟩ := hik
      exact ⟨hi', hk'⟩
    constructor
    · constructor
      · intro hne
        rcases hs' with ⟨-, hv⟩ | ⟨ik, hik, hadj, h1, h2, hv⟩
        · exact absurd hv hne
        · exact (blockAdj_ne_zero hw (hpair' ik hik).1 (hpair' ik hik).2 h1 h2).mp hadj
      · rintro ⟨j, hj, h1, h2⟩
        obtain ⟨B, hB, hxB⟩ := List.mem_flatten.mp (mem_blocks.mpr
          (⟨m.leftClusters.getD j [], by rw [getD_lt hj]; exact List.getElem_mem _, h1⟩ :
            Clustered m.leftClusters (lp.getD a 0)))
        obtain ⟨B', hB', hyB⟩ := List.mem_flatten.mp (mem_blocks.mpr
          (⟨m.rightClusters.getD j [], by rw [getD_lt (hw.same ▸ hj)]; exact List.getElem_mem _, h2⟩ :
            Clustered m.rightClusters (rp.getD b 0)))
        rw [← hw.left] at hB
        rw [← hw.right] at hB'
        obtain ⟨i, hi, rfl⟩ := List.getElem_of_mem hB
        obtain ⟨k, hk, rfl⟩ := List.getElem_of_mem hB'
        rw [← getD_lt hi []] at hxB
        rw [← getD_lt hk []] at hyB
        rcases hs' with ⟨hno, -⟩ | ⟨ik, hik, hadj, g1, g2, hv⟩
        · exact absurd ⟨hxB, hyB⟩ (hno (i, k) (hpair i k hi hk)
            ((blockAdj_ne_zero hw hi hk hxB hyB).mpr ⟨j, hj, h1, h2⟩))
        · rw [hv]
          split <;> omega
    · intro s t hst htt hs1 ht1 hne
      rcases hs' with ⟨-, hv⟩ | ⟨ik, hik, hadj, g1, g2, hv⟩
      · exact absurd hv hne
      · have uniq : ∀ {bs : List (List ℕ)} (_ : bs.flatten.Nodup) {i k x : ℕ} (_ : i < bs.length)
            (_ : k < bs.length), x ∈ bs.getD i [] → x ∈ bs.getD k [] → i = k := by
          intro bs hbs i k x hi hk h1 h2
          rw [getD_lt hi] at h1
          rw [getD_lt hk] at h2
          by_contra hik
          have hd := (List.nodup_flatten.mp hbs).2
          rw [List.pairwise_iff_getElem] at hd
          rcases Nat.lt_or_gt_of_ne hik with hlt | hlt
          · exact hd i k hi hk hlt h1 h2
          · exact hd k i hk hi hlt h2 h1
        have e1 : ik.1 = m.leftPerm.getD s 0 := uniq (leftBlocks_nodup hw) (hpair' ik hik).1
          ((hw.leftPerm.2 _).mp (by rw [getD_lt hst]; exact List.getElem_mem _)) g1 hs1
        have e2 : ik.2 = m.rightPerm.getD t 0 := uniq (rightBlocks_nodup hw) (hpair' ik hik).2
          ((hw.rightPerm.2 _).mp (by rw [getD_lt htt]; exact List.getElem_mem _)) g2 ht1
        rw [hv, e1, e2, getD_lt hst, getD_lt htt, hw.leftPerm.1.idxOf_getElem, hw.rightPerm.1.idxOf_getElem]
        split <;> omega

/-- C86. Both pictures colour the same cells. -/
theorem C86_same_cells (left right : List (List ℕ)) (A : Dense ℚ) (m : BlockMatrix)
    (h : Viewer left right A m) (hr : InRange m) :
    ∃ M M', clusterMatrix m = .ok M ∧ blockMatrix m = .ok M' ∧
      ∀ a < A.rows, ∀ b < A.cols, M.at_ a b = 0 ↔ M'.at_ a b = 0 := by
  obtain ⟨lp, rp, M, h1, h2, h3, -, -, h4⟩ := C86_cluster_picture left right A m h hr
  obtain ⟨lp', rp', M', h1', h2', h3', -, -, h4'⟩ := C86_block_picture left right A m h hr
  rw [h1] at h1'
  rw [h2] at h2'
  cases h1'
  cases h2'
  refine ⟨M, M', h3, h3', ?_⟩
  intro a ha b hb
  have e := (h4' a ha b hb).1
  rcases h4 a ha b hb with ⟨hno, hv⟩ | ⟨j, hj, hv, -⟩
  · refine ⟨fun _ => ?_, fun _ => hv⟩
    by_contra hne
    obtain ⟨j, hj⟩ := e.mp hne
    exact hno j hj
  · refine ⟨fun h0 => ?_, fun h0 => ?_⟩
    · rw [hv] at h0; omega
    · exact absurd h0 (e.mpr ⟨j, hj⟩)

/-! ### Examples -/

/-- A 4 × 3 matrix with two overlapping biclusters. -/
def exMatrix : Dense ℚ := { rows := 4, cols := 3, at_ := fun a b => if a = b then 1 else 0 }

/-- The constructor accepts the example; after `order()` the overlap is still in the middle. -/
theorem exViewer : ∃ m, Viewer [[0, 1], [1, 3], []] [[0, 2], [2]] exMatrix m ∧ InRange m := by
  refine ⟨_, Or.inl ⟨[0, 1, 2], [1, 0], rfl, ?_, ?_⟩, ?_⟩
  · exact lists_iff_perm.mpr (by decide)
  · exact lists_iff_perm.mpr (by decide)
  · constructor
    · intro x hx
      obtain ⟨c, hc, hx⟩ := hx
      have : ∀ c ∈ ([[0, 1], [1, 3]] : List (List ℕ)), ∀ x ∈ c, x < 4 := by decide
      exact this c hc x hx
    · intro x hx
      obtain ⟨c, hc, hx⟩ := hx
      have : ∀ c ∈ ([[0, 2], [2]] : List (List ℕ)), ∀ x ∈ c, x < 3 := by decide
      exact this c hc x hx

end Biclus

end Verif
