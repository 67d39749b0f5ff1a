/-
Properties C47-C52 and C71-C72: label graphs, probable cliques, clique sampling.
-/
import Verif.Lemmas.Confidence
import Verif.Props.Trie
import Mathlib.Data.Finset.Prod

namespace Verif
open UGraph Cmp

/-- A CSC label matrix with 3 labels over 3 rows: label 0 on rows {0,1}, label 1 on rows {0,1}, label 2
on rows {1,2}. -/
def exampleLabels : Cmp :=
  { nMajor := 3, nMinor := 3, indptr := [0, 2, 4, 6], indices := [0, 1, 0, 1, 1, 2],
    data := [1, 1, 1, 1, 1, 1] }

theorem exampleLabels_binary : exampleLabels.Binary :=
  { len_indptr := by decide, ptr_zero := by decide, ptr_mono := by decide, ptr_last := by decide,
    len_data := by decide, idx_lt := by decide, data_one := by decide, nodup := by decide }

/-! ### C47 -/

/-- **C47** The confidence graph of a binary label matrix: the nodes are the labels, `u -> v` is an edge
exactly when the labels differ and share a row, and the weight is `|rows(u) ∩ rows(v)| / |rows(u)|`. -/
theorem C47_confidence_graph (Y : Cmp) (h : Y.Binary) :
    ∃ g, confidenceGraph Y = .ok g ∧ g.nodes = List.range Y.nMajor ∧
      (g.edges.map Prod.fst).Nodup ∧
      ∀ u v p, g.weight u v = some p ↔ u < Y.nMajor ∧ v < Y.nMajor ∧ u ≠ v ∧
        (commonRows Y u v).Nonempty ∧
        p = ((commonRows Y u v).card : ℚ) / ((commonRows Y u u).card : ℚ) := by
  refine ⟨_, confidenceGraph_ok h, rfl, ?_, fun u v p => confidence_weight h (confidenceGraph_ok h) u v p⟩
  simp only [List.map_map, Function.comp_def, List.map_id']
  apply List.Nodup.filter
  unfold corNonzero
  apply List.Nodup.filter
  rw [List.nodup_flatMap]
  refine ⟨fun u _ => List.nodup_range.map fun a b hab => by simpa using hab, ?_⟩
  refine List.nodup_range.imp ?_
  intro a b hab x hx hy
  simp only [List.mem_map, List.mem_range] at hx hy
  obtain ⟨c, -, rfl⟩ := hx
  obtain ⟨d, -, hd⟩ := hy
  simp only [Prod.mk.injEq] at hd
  exact hab hd.1.symm

/-- **C47** Weights lie in `(0, 1]` and edges come in both directions. -/
theorem C47_range_and_symmetry (Y : Cmp) (h : Y.Binary) (g : DiG) (hg : confidenceGraph Y = .ok g)
    (u v : ℕ) :
    (∀ p, g.weight u v = some p → 0 < p ∧ p ≤ 1) ∧ (g.hasEdge u v = true ↔ g.hasEdge v u = true) := by
  constructor
  · intro p hp
    obtain ⟨-, -, -, hne, rfl⟩ := (confidence_weight h hg u v p).mp hp
    exact conf_range h.toWF hne
  · unfold DiG.hasEdge
    rw [Option.isSome_iff_exists, Option.isSome_iff_exists]
    constructor
    · rintro ⟨p, hp⟩
      obtain ⟨h1, h2, h3, h4, -⟩ := (confidence_weight h hg u v p).mp hp
      rw [commonRows_comm h.toWF] at h4
      exact ⟨_, (confidence_weight h hg v u _).mpr ⟨h2, h1, h3.symm, h4, rfl⟩⟩
    · rintro ⟨p, hp⟩
      obtain ⟨h1, h2, h3, h4, -⟩ := (confidence_weight h hg v u p).mp hp
      rw [commonRows_comm h.toWF] at h4
      exact ⟨_, (confidence_weight h hg u v _).mpr ⟨h2, h1, h3.symm, h4, rfl⟩⟩

/-- **C47** The node attribute `freq` is the number of rows carrying the label. -/
theorem C47_label_frequency (Y : Cmp) (h : Y.Binary) :
    labelFreq Y = (List.range Y.nMajor).map fun l => ((commonRows Y l l).card : ℤ) := by
  classical
  unfold labelFreq
  apply List.map_congr_left
  intro l hl
  rw [List.mem_range] at hl
  unfold commonRows
  rw [← list_sum_range_ite]
  congr 1
  apply List.map_congr_left
  intro i _
  rw [cellSum_binary h hl]
  simp

/-- The hypothesis is met, and the example has an edge of weight 1 and one of weight 1/2. -/
example : exampleLabels.Binary ∧ ∃ g, confidenceGraph exampleLabels = .ok g ∧
    g.weight 0 1 = some 1 ∧ g.weight 0 2 = some (1 / 2) :=
  ⟨exampleLabels_binary,
    { nodes := [0, 1, 2],
      edges := [((0, 1), 1), ((0, 2), 1 / 2), ((1, 0), 1), ((1, 2), 1 / 2), ((2, 0), 1 / 2),
        ((2, 1), 1 / 2)] }, by decide +kernel, by decide +kernel, by decide +kernel⟩

/-! ### C48 -/

theorem confidence_simple {Y : Cmp} (h : Y.Binary) {g : DiG} (hg : confidenceGraph Y = .ok g) :
    g.nodes = List.range Y.nMajor ∧ g.Simple := by
  have hn : g.nodes = List.range Y.nMajor := by
    rw [confidenceGraph_ok h] at hg
    cases Except.ok.inj hg
    rfl
  refine ⟨hn, ?_, ?_⟩
  · intro u v huv
    rw [DiG.hasEdge, Option.isSome_iff_exists] at huv
    obtain ⟨p, hp⟩ := huv
    obtain ⟨h1, h2, -⟩ := (confidence_weight h hg u v p).mp hp
    rw [hn, List.mem_range, List.mem_range]
    exact ⟨h1, h2⟩
  · intro u
    rcases hw : g.hasEdge u u with _ | _
    · rfl
    · rw [DiG.hasEdge, Option.isSome_iff_exists] at hw
      obtain ⟨p, hp⟩ := hw
      obtain ⟨-, -, h3, -⟩ := (confidence_weight h hg u u p).mp hp
      exact absurd rfl h3

/-- **C48** For a confidence graph the conversion to an undirected graph never fails; it joins exactly
the labels that share a row, with weight `1 - (1-p)(1-q)` for the two directed weights. -/
theorem C48_connectivity_graph (Y : Cmp) (h : Y.Binary) (g : DiG) (hg : confidenceGraph Y = .ok g) :
    ∃ c, connectivityGraph g = .ok c ∧ c.WF ∧ c.nodes = List.range Y.nMajor ∧
      ∀ u v w, c.weight u v = some w ↔ ∃ p q, g.weight u v = some p ∧ g.weight v u = some q ∧
        w = 1 - (1 - p) * (1 - q) := by
  obtain ⟨hn, hs⟩ := confidence_simple h hg
  have hbi : ∀ u v, g.hasEdge u v = true → g.hasEdge v u = true :=
    fun u v => ((C47_range_and_symmetry Y h g hg u v).2).mp
  obtain ⟨c, hc, hcn⟩ := connectivity_ok hbi
  refine ⟨c, hc, connectivity_wf hc ?_ hs.ends, hcn.trans hn, ?_⟩
  · rw [hn]; exact List.nodup_range
  · intro u v w
    rw [connectivity_weight_iff hc u v w hbi]
    constructor
    · rintro ⟨-, p, q, hpq⟩; exact ⟨p, q, hpq⟩
    · rintro ⟨p, q, hp, hq, hw⟩
      refine ⟨?_, p, q, hp, hq, hw⟩
      rintro rfl
      have := hs.noLoop u
      rw [DiG.hasEdge, hp] at this
      cases this

/-- **C48** The combined weight is a probability, at least as large as both directed ones. -/
theorem C48_weights (Y : Cmp) (h : Y.Binary) (g : DiG) (hg : confidenceGraph Y = .ok g) (c : UGraph ℚ)
    (hc : connectivityGraph g = .ok c) (u v : ℕ) (w : ℚ) (hw : c.weight u v = some w) :
    0 < w ∧ w ≤ 1 ∧ (∀ p, g.weight u v = some p → p ≤ w) ∧ (∀ q, g.weight v u = some q → q ≤ w) := by
  obtain ⟨c', hc', -, -, hcw⟩ := C48_connectivity_graph Y h g hg
  rw [hc] at hc'
  cases Except.ok.inj hc'
  obtain ⟨p, q, hp, hq, rfl⟩ := (hcw u v w).mp hw
  obtain ⟨hp0, hp1⟩ := (C47_range_and_symmetry Y h g hg u v).1 p hp
  obtain ⟨hq0, hq1⟩ := (C47_range_and_symmetry Y h g hg v u).1 q hq
  refine ⟨by nlinarith, by nlinarith, ?_, ?_⟩
  · intro p' hp'
    rw [hp] at hp'; cases hp'
    nlinarith
  · intro q' hq'
    rw [hq] at hq'; cases hq'
    nlinarith

/-- **C48** `_build_graph` combines the two steps: two labels are joined iff they differ and share a
row. -/
theorem C48_build_graph (Y : Cmp) (h : Y.Binary) :
    ∃ c, buildGraph Y = .ok c ∧ c.WF ∧ c.AllWeights (fun w => 0 < w ∧ w ≤ 1) ∧
      c.nodes = List.range Y.nMajor ∧
      ∀ u v, c.Adj u v ↔ u < Y.nMajor ∧ v < Y.nMajor ∧ u ≠ v ∧ (commonRows Y u v).Nonempty := by
  obtain ⟨g, hg, -⟩ := C47_confidence_graph Y h
  obtain ⟨c, hc, hwf, hn, hcw⟩ := C48_connectivity_graph Y h g hg
  refine ⟨c, ?_, hwf, ?_, hn, ?_⟩
  · unfold buildGraph
    rw [hg]
    exact hc
  · intro e he
    obtain ⟨h1, h2, -⟩ := C48_weights Y h g hg c hc e.1.1 e.1.2 e.2 (hwf.simple e he)
    exact ⟨h1, h2⟩
  · intro u v
    constructor
    · rintro ⟨w, hw⟩
      obtain ⟨p, q, hp, -, -⟩ := (hcw u v w).mp hw
      obtain ⟨h1, h2, h3, h4, -⟩ := (confidence_weight h hg u v p).mp hp
      exact ⟨h1, h2, h3, h4⟩
    · rintro ⟨h1, h2, h3, h4⟩
      have h4' := h4
      rw [commonRows_comm h.toWF] at h4'
      exact ⟨_, (hcw u v _).mpr ⟨_, _, (confidence_weight h hg u v _).mpr ⟨h1, h2, h3, h4, rfl⟩,
        (confidence_weight h hg v u _).mpr ⟨h2, h1, h3.symm, h4', rfl⟩, rfl⟩⟩

/-- **C48** On other digraphs the conversion does fail: an edge from a smaller to a larger node whose
reverse is missing makes it raise. -/
theorem C48_missing_reverse (g : DiG) (u v : ℕ) (huv : u < v) (h1 : g.hasEdge u v = true)
    (h2 : g.hasEdge v u = false) : connectivityGraph g = .error .keyError := by
  have herr : ∀ e ∈ g.edges, ∀ er, connectEdge g e = .error er → er = .keyError := by
    intro e _ er he
    unfold connectEdge at he
    split at he
    · split at he
      · cases he
      · cases he; rfl
    · cases he
  rw [DiG.hasEdge, Option.isSome_iff_exists] at h1
  obtain ⟨p, hp⟩ := h1
  have hmem : ((u, v), p) ∈ g.edges := mem_of_lookup (l := g.edges) hp
  rcases hm : g.edges.mapM (connectEdge g) with er | es
  · obtain ⟨e, he, her⟩ : ∃ e ∈ g.edges, connectEdge g e = .error er := mapM_error hm
    have := herr e he er her
    subst this
    unfold connectivityGraph
    rw [hm]
    rfl
  · exfalso
    rw [mapM_eq_ok_iff] at hm
    obtain ⟨o, -, ho⟩ := forall₂_mem_left hm hmem
    have hnone : g.weight v u = none := by
      rw [DiG.hasEdge, Option.isSome_eq_false_iff, Option.isNone_iff_eq_none] at h2
      exact h2
    simp only [connectEdge, huv, if_true, hp, hnone] at ho
    cases ho

/-- The hypotheses are met by a graph with one edge, and the conversion of the example is the expected
graph. -/
example : connectivityGraph { nodes := [0, 1], edges := [((0, 1), 1 / 2)] } = .error .keyError :=
  C48_missing_reverse _ 0 1 (by decide) (by decide +kernel) (by decide +kernel)

example : buildGraph exampleLabels = .ok
    { nodes := [0, 1, 2], edges := [((0, 1), 1), ((0, 2), 3 / 4), ((1, 2), 3 / 4)] } := by decide +kernel

/-! ### C49 -/

/-- **C49** The enumeration of probable cliques on a graph with weights in `[0,1]`, for every threshold
and every order in which sets are traversed, given enough recursion depth: each listed tuple is
increasing, is listed once, and the listed tuples are exactly the single nodes and the cliques whose
product of edge probabilities is at least `alpha`, each with that product. -/
theorem C49_enumeration (g : UGraph ℚ) (hwf : g.WF) (hg : g.AllWeights fun p => 0 ≤ p ∧ p ≤ 1)
    (alpha : ℚ) (order : Finset ℕ → List ℕ) (ho : Traverses order) (depth : ℕ)
    (hd : g.nodes.length < depth) :
    ∃ L, enumerateCliques ratOps g alpha order depth = .ok L ∧ (L.map Prod.fst).Nodup ∧
      ∀ T p, (T, p) ∈ L ↔ T.Pairwise (· < ·) ∧ g.Probable alpha T.toFinset ∧
        p = g.cliqueProb T.toFinset := by
  obtain ⟨L, h1, h2, h3⟩ := enumerate_spec ratOps_lawful hg hwf alpha ho depth hd
  refine ⟨L, h1, h2, fun T p => ?_⟩
  rw [h3]
  constructor
  · rintro ⟨hne, hcl, hp, hlen⟩
    rw [orderedProb_rat g hcl.sorted] at hp
    refine ⟨hcl.sorted, ⟨by simpa using hne, hcl.isClique, ?_⟩, hp⟩
    rw [List.toFinset_card_of_nodup (hcl.sorted.imp ne_of_lt), ← hp]
    exact hlen
  · rintro ⟨hs, ⟨hne, hcl, hcard⟩, hp⟩
    refine ⟨by simpa using hne, cliqueList_of_isClique hs hcl, by rw [orderedProb_rat g hs, hp], ?_⟩
    rw [List.toFinset_card_of_nodup (hs.imp ne_of_lt), ← hp] at hcard
    exact hcard

/-- **C49** The same for any arithmetic that only ever lowers a product, such as one that rounds: the
probability attached to a clique is then the product in the order of the tuple. -/
theorem C49_any_arithmetic {K : Type} [LinearOrder K] (ops : ProbOps K) (Valid : K → Prop)
    (hl : ops.Lawful Valid) (g : UGraph K) (hwf : g.WF) (hg : g.AllWeights Valid) (alpha : K)
    (order : Finset ℕ → List ℕ) (ho : Traverses order) (depth : ℕ) (hd : g.nodes.length < depth) :
    ∃ L, enumerateCliques ops g alpha order depth = .ok L ∧ (L.map Prod.fst).Nodup ∧
      ∀ T p, (T, p) ∈ L ↔ T ≠ [] ∧ T.Pairwise (· < ·) ∧ g.IsClique T.toFinset ∧
        p = orderedProb ops g T ∧ (T.length = 1 ∨ alpha ≤ p) := by
  obtain ⟨L, h1, h2, h3⟩ := enumerate_spec hl hg hwf alpha ho depth hd
  refine ⟨L, h1, h2, fun T p => ?_⟩
  rw [h3]
  constructor
  · rintro ⟨hne, hcl, hp, hlen⟩
    exact ⟨hne, hcl.sorted, hcl.isClique, hp, hlen⟩
  · rintro ⟨hne, hs, hcl, hp, hlen⟩
    exact ⟨hne, cliqueList_of_isClique hs hcl, hp, hlen⟩

/-- The graph of the example matrix. -/
def exampleGraph : UGraph ℚ :=
  { nodes := [0, 1, 2], edges := [((0, 1), 1), ((0, 2), 3 / 4), ((1, 2), 3 / 4)] }

theorem exampleGraph_wf : exampleGraph.WF ∧ exampleGraph.AllWeights (fun p => 0 ≤ p ∧ p ≤ 1) := by
  obtain ⟨c, hc, hwf, hw, -⟩ := C48_build_graph exampleLabels exampleLabels_binary
  have : buildGraph exampleLabels = .ok exampleGraph := by decide +kernel
  rw [this] at hc
  cases Except.ok.inj hc
  exact ⟨hwf, fun e he => ⟨(hw e he).1.le, (hw e he).2⟩⟩

/-- The hypotheses are met; with threshold 2/3 the triangle (product 9/16) is left out although all its
edges are in. -/
example : exampleGraph.Probable (2 / 3) {0, 1} ∧ ¬ exampleGraph.Probable (2 / 3) {0, 1, 2} := by
  constructor
  · refine ⟨by decide, ⟨by decide, ?_⟩, Or.inr (by decide +kernel)⟩
    have : ∀ x ∈ ({0, 1} : Finset ℕ), ∀ y ∈ ({0, 1} : Finset ℕ), x ≠ y →
        (exampleGraph.weight x y).isSome = true := by decide +kernel
    exact fun x hx y hy hne => Option.isSome_iff_exists.mp (this x hx y hy hne)
  · rintro ⟨-, -, h | h⟩
    · revert h; decide
    · revert h; decide +kernel

/-- The rounding arithmetic of `C49_any_arithmetic`: products rounded down to multiples of `1/1000`. -/
def roundedOps : ProbOps ℚ := { one := 1, mul := fun p w => (⌊p * w * 1000⌋ : ℚ) / 1000, zero := 0 }

theorem roundedOps_lawful : roundedOps.Lawful fun p : ℚ => 0 ≤ p ∧ p ≤ 1 := by
  have hle : ∀ x : ℚ, (⌊x * 1000⌋ : ℚ) / 1000 ≤ x := by
    intro x
    rw [div_le_iff₀ (by norm_num)]
    exact Int.floor_le _
  refine ⟨by simp [roundedOps], ?_, ?_, ?_, ?_⟩
  · intro p w hp hw
    refine ⟨div_nonneg ?_ (by norm_num), (hle _).trans (ratOps_lawful.mul p w hp hw).2⟩
    exact_mod_cast Int.floor_nonneg.mpr
      (mul_nonneg (ratOps_lawful.mul p w hp hw).1 (by norm_num))
  · exact fun p w hp hw => (hle _).trans (ratOps_lawful.le_left p w hp hw)
  · exact fun p w hp hw => (hle _).trans (ratOps_lawful.le_right p w hp hw)
  · intro p q w hp hq hw hpq
    apply div_le_div_of_nonneg_right _ (by norm_num : (0 : ℚ) ≤ 1000)
    have : ⌊p * w * 1000⌋ ≤ ⌊q * w * 1000⌋ := by
      apply Int.floor_le_floor
      exact mul_le_mul_of_nonneg_right (mul_le_mul_of_nonneg_right hpq hw.1) (by norm_num)
    exact_mod_cast this

/-! ### C71: the two back ends -/

/-- **C71** The compiled back end `dfs_v2` and the Python back end `dfs` return the same list on graphs
whose nodes are `0 .. n-1`, in the same arithmetic and with the same set traversal. -/
theorem C71_backends_agree {K : Type} [LinearOrder K] (ops : ProbOps K) (g : UGraph K) (hwf : g.WF) (n : ℕ)
    (hn : g.nodes = List.range n) (hpos : 0 < n) (alpha : K) (order : Finset ℕ → List ℕ)
    (ho : Traverses order) (depth : ℕ) :
    enumerateProbableCliques ops g alpha .dfsV2 order depth =
      enumerateProbableCliques ops g alpha .dfs order depth :=
  enumerateV2_eq hwf hn hpos alpha ho depth

/-- **C71** Even when the two back ends traverse sets differently, they return the same tuples with the
same probabilities, up to order. -/
theorem C71_backends_agree_any_order {K : Type} [LinearOrder K] (ops : ProbOps K) (Valid : K → Prop)
    (hl : ops.Lawful Valid) (g : UGraph K) (hwf : g.WF) (hg : g.AllWeights Valid) (n : ℕ)
    (hn : g.nodes = List.range n) (hpos : 0 < n) (alpha : K) (order order' : Finset ℕ → List ℕ)
    (ho : Traverses order) (ho' : Traverses order') (depth depth' : ℕ) (hd : n < depth) (hd' : n < depth') :
    ∃ L L', enumerateProbableCliques ops g alpha .dfs order depth = .ok L ∧
      enumerateProbableCliques ops g alpha .dfsV2 order' depth' = .ok L' ∧ L.Perm L' := by
  have hlen : g.nodes.length = n := by rw [hn, List.length_range]
  obtain ⟨L, h1, h2, h3⟩ := enumerate_spec hl hg hwf alpha ho depth (by omega)
  obtain ⟨L', h1', h2', h3'⟩ := enumerate_spec hl hg hwf alpha ho' depth' (by omega)
  rw [← enumerateV2_eq hwf hn hpos alpha ho' depth'] at h1'
  refine ⟨L, L', h1, h1', ?_⟩
  rw [List.perm_ext_iff_of_nodup (List.Nodup.of_map _ h2) (List.Nodup.of_map _ h2')]
  rintro ⟨T, p⟩
  rw [h3, h3']

/-- **C71** The one graph of that kind on which they differ is the empty one: `dfs` returns an empty list
and `dfs_v2` raises. -/
theorem C71_empty {K : Type} [LinearOrder K] (ops : ProbOps K) (g : UGraph K) (hn : g.nodes = []) (alpha : K)
    (order : Finset ℕ → List ℕ) (depth : ℕ) (hd : 0 < depth) :
    enumerateProbableCliques ops g alpha .dfs order depth = .ok [] ∧
    enumerateProbableCliques ops g alpha .dfsV2 order depth = .error .exception := by
  constructor
  · obtain ⟨d, rfl⟩ : ∃ d, depth = d + 1 := ⟨depth - 1, by omega⟩
    simp only [enumerateProbableCliques, enumerateCliques]
    rw [dfs, hn]
    rfl
  · simp only [enumerateProbableCliques, enumerateCliquesV2, wrapGraph]
    rw [if_pos hn]
    rfl

/-- **C71** Any other back end is refused. -/
theorem C71_unsupported {K : Type} [LinearOrder K] (ops : ProbOps K) (g : UGraph K) (alpha : K)
    (order : Finset ℕ → List ℕ) (depth : ℕ) :
    enumerateProbableCliques ops g alpha .other order depth = .error .valueError := rfl

example : exampleGraph.nodes = List.range 3 := by decide

/-! ### C50 -/

/-- **C50** Removing the edges lighter than the threshold before enumerating does not change the set of
listed tuples with their probabilities. -/
theorem C50_prune_same {K : Type} [LinearOrder K] (ops : ProbOps K) (Valid : K → Prop)
    (hl : ops.Lawful Valid) (g : UGraph K) (hwf : g.WF) (hg : g.AllWeights Valid) (alpha : K)
    (order : Finset ℕ → List ℕ) (ho : Traverses order) (depth : ℕ) (hd : g.nodes.length < depth) :
    ∃ L L', enumerateCliques ops g alpha order depth = .ok L ∧
      enumerateCliques ops (pruneEdges g alpha) alpha order depth = .ok L' ∧ L.Perm L' := by
  obtain ⟨L, h1, h2, h3⟩ := enumerate_spec hl hg hwf alpha ho depth hd
  obtain ⟨L', h1', h2', h3'⟩ :=
    enumerate_spec hl (prune_valid hg alpha) (prune_wf hwf alpha) alpha ho depth hd
  refine ⟨L, L', h1, h1', ?_⟩
  rw [List.perm_ext_iff_of_nodup (List.Nodup.of_map _ h2) (List.Nodup.of_map _ h2')]
  rintro ⟨T, p⟩
  rw [h3, h3', prune_same hl hg hwf]

/-- **C50** The sample space of the sampler, with pruning or without: every non-empty set of labels that
is a single label or a clique of probability at least `min_proba`, each once. -/
theorem C50_sample_space (Y : Cmp) (h : Y.Binary) (g : UGraph ℚ) (hg : buildGraph Y = .ok g)
    (hpos : 0 < Y.nMajor) (minProba : ℚ) (doPrune : Bool) (backend : Backend) (hb : backend ≠ .other)
    (order : Finset ℕ → List ℕ) (ho : Traverses order) (depth : ℕ) (hd : Y.nMajor < depth) :
    ∃ space, buildSampleSpace ratOps g minProba doPrune backend order depth = .ok space ∧ space.Nodup ∧
      ∀ T, T ∈ space ↔ g.Probable minProba T := by
  obtain ⟨c, hc, hwf, hw, hn, -⟩ := C48_build_graph Y h
  rw [hg] at hc
  cases Except.ok.inj hc
  have hval : g.AllWeights fun p => 0 ≤ p ∧ p ≤ 1 := fun e he => ⟨(hw e he).1.le, (hw e he).2⟩
  have hlen : g.nodes.length < depth := by rw [hn, List.length_range]; exact hd
  obtain ⟨L, h1, h2, h3⟩ := C49_enumeration g hwf hval minProba order ho depth hlen
  obtain ⟨L₁, L', k1, k2, k3⟩ := C50_prune_same ratOps _ ratOps_lawful g hwf hval minProba order ho
    depth hlen
  rw [h1] at k1
  cases Except.ok.inj k1
  have key : ∀ M : List (List ℕ × ℚ), M.Perm L → (M.map fun e => e.1.toFinset).Nodup ∧
      ∀ T, T ∈ M.map (fun e => e.1.toFinset) ↔ g.Probable minProba T := by
    intro M hM
    have hmem : ∀ T p, (T, p) ∈ M ↔ _ := fun T p => hM.mem_iff.trans (h3 T p)
    constructor
    · have hnd : (M.map Prod.fst).Nodup := (hM.map Prod.fst).nodup_iff.mpr h2
      have hcomp : M.map (fun e => e.1.toFinset) = (M.map Prod.fst).map List.toFinset := by
        rw [List.map_map]; rfl
      rw [hcomp]
      refine List.Nodup.map_on ?_ hnd
      intro a ha b hb hab
      obtain ⟨⟨a', p⟩, ha', rfl⟩ := List.mem_map.mp ha
      obtain ⟨⟨b', q⟩, hb', rfl⟩ := List.mem_map.mp hb
      obtain ⟨hsa, -⟩ := (hmem _ _).mp ha'
      obtain ⟨hsb, -⟩ := (hmem _ _).mp hb'
      have hp : a'.Perm b' := (List.perm_ext_iff_of_nodup (hsa.imp ne_of_lt) (hsb.imp ne_of_lt)).mpr
        fun x => by rw [← List.mem_toFinset, ← List.mem_toFinset]; exact Finset.ext_iff.mp hab x
      exact hp.eq_of_pairwise (fun x y _ _ h1 h2 => absurd h1 (not_lt.mpr h2.le)) hsa hsb
    · intro T
      constructor
      · intro hT
        obtain ⟨⟨a, p⟩, ha, rfl⟩ := List.mem_map.mp hT
        exact ((hmem _ _).mp ha).2.1
      · intro hT
        refine List.mem_map.mpr ⟨(T.sort (· ≤ ·), g.cliqueProb T), (hmem _ _).mpr ?_, ?_⟩
        · rw [Finset.sort_toFinset]
          exact ⟨sort_lt T, hT, rfl⟩
        · exact Finset.sort_toFinset T _
  have hback : ∀ g' : UGraph ℚ, g'.WF → g'.nodes = g.nodes →
      enumerateProbableCliques ratOps g' minProba backend order depth =
        enumerateCliques ratOps g' minProba order depth := by
    intro g' hwf' hn'
    cases backend with
    | dfs => rfl
    | dfsV2 => exact enumerateV2_eq hwf' (hn'.trans hn) hpos minProba ho depth
    | other => exact absurd rfl hb
  cases doPrune with
  | false =>
    refine ⟨L.map fun e => e.1.toFinset, ?_, key L (List.Perm.refl _)⟩
    unfold buildSampleSpace
    simp only [Bool.false_eq_true, if_false]
    rw [hback g hwf rfl, h1]; rfl
  | true =>
    refine ⟨L'.map fun e => e.1.toFinset, ?_, key L' k3.symm⟩
    unfold buildSampleSpace
    simp only [if_true]
    rw [hback _ (prune_wf hwf minProba) rfl, k2]; rfl

example : ∃ space, buildSampleSpace ratOps exampleGraph (2 / 3) true .dfsV2 Finset.toList 10 = .ok space ∧
    space.Nodup ∧ ∀ T, T ∈ space ↔ exampleGraph.Probable (2 / 3) T :=
  C50_sample_space exampleLabels exampleLabels_binary exampleGraph (by decide +kernel) (by decide) _ _ _
    (by decide) _ traverses_toList 10 (by decide)

/-! ### C51 -/

/-- **C51** Lowering the threshold only adds cliques. -/
theorem C51_monotone (g : UGraph ℚ) (hwf : g.WF) (hg : g.AllWeights fun p => 0 ≤ p ∧ p ≤ 1)
    (alpha beta : ℚ) (hab : beta ≤ alpha) (order : Finset ℕ → List ℕ) (ho : Traverses order)
    (depth : ℕ) (hd : g.nodes.length < depth) :
    ∃ L L', enumerateCliques ratOps g alpha order depth = .ok L ∧
      enumerateCliques ratOps g beta order depth = .ok L' ∧ ∀ e ∈ L, e ∈ L' := by
  obtain ⟨L, h1, -, h3⟩ := C49_enumeration g hwf hg alpha order ho depth hd
  obtain ⟨L', h1', -, h3'⟩ := C49_enumeration g hwf hg beta order ho depth hd
  refine ⟨L, L', h1, h1', ?_⟩
  rintro ⟨T, p⟩ he
  obtain ⟨hs, ⟨h4, h5, h6⟩, hp⟩ := (h3 T p).mp he
  exact (h3' T p).mpr ⟨hs, ⟨h4, h5, h6.imp_right hab.trans⟩, hp⟩

/-- **C51** Every non-empty subset of an enumerated clique is itself enumerated, with at least the same
probability. -/
theorem C51_subset_closed (g : UGraph ℚ) (hwf : g.WF) (hg : g.AllWeights fun p => 0 ≤ p ∧ p ≤ 1)
    (alpha : ℚ) (order : Finset ℕ → List ℕ) (ho : Traverses order) (depth : ℕ)
    (hd : g.nodes.length < depth) (L : List (List ℕ × ℚ))
    (hL : enumerateCliques ratOps g alpha order depth = .ok L) (T : List ℕ) (p : ℚ) (hT : (T, p) ∈ L)
    (S : Finset ℕ) (hS : S ⊆ T.toFinset) (hne : S ≠ ∅) :
    ∃ q, (S.sort (· ≤ ·), q) ∈ L ∧ p ≤ q := by
  obtain ⟨L', h1, -, h3⟩ := C49_enumeration g hwf hg alpha order ho depth hd
  rw [hL] at h1
  cases Except.ok.inj h1
  obtain ⟨hs, ⟨h4, h5, h6⟩, hp⟩ := (h3 T p).mp hT
  have hsub : (S.sort (· ≤ ·)).Sublist T := by
    have hmem : ∀ x ∈ S.sort (· ≤ ·), x ∈ T := fun x hx =>
      List.mem_toFinset.mp (hS ((Finset.mem_sort _).mp hx))
    have h7 : (S.sort (· ≤ ·)).Subperm T := List.subperm_of_subset (Finset.sort_nodup _ _) hmem
    exact List.sublist_of_subperm_of_pairwise h7 (sort_lt S) hs
  have hle : g.cliqueProb T.toFinset ≤ g.cliqueProb S := by
    have := orderedProb_sublist ratOps_lawful hg hsub
    rw [orderedProb_rat g hs, orderedProb_rat g (sort_lt S), Finset.sort_toFinset] at this
    exact this
  refine ⟨g.cliqueProb S, (h3 _ _).mpr ⟨sort_lt S, ?_, ?_⟩, by rw [hp]; exact hle⟩
  · rw [Finset.sort_toFinset]
    refine ⟨hne, ⟨fun x hx => h5.1 x (hS hx), fun x hx y hy hxy => h5.2 x (hS hx) y (hS hy) hxy⟩, ?_⟩
    rcases h6 with h6 | h6
    · left
      have := Finset.card_le_card hS
      have := Finset.card_pos.mpr (Finset.nonempty_iff_ne_empty.mpr hne)
      omega
    · exact Or.inr (h6.trans hle)
  · rw [Finset.sort_toFinset]

/-- The hypotheses are met by the example graph, whose triangle is enumerated at threshold 1/2. -/
example : ([0, 1, 2] : List ℕ).Pairwise (· < ·) ∧ (1 / 2 : ℚ) ≤ exampleGraph.cliqueProb {0, 1, 2} :=
  ⟨by decide, by decide +kernel⟩

/-! ### C52 -/

/-- **C52** Whatever the random draws, `sample_clique` ends within as many iterations as there are nodes,
raises nothing, and returns the sorted tuple of a set that was grown from the start node by adding one
node at a time, each joined by an edge from every node already there. -/
theorem C52_sample_clique (g : DiG) (hg : g.Simple) (start : Option ℕ)
    (hstart : ∀ u, start = some u → u ∈ g.nodes) (hne : g.nodes ≠ []) (fuel : ℕ)
    (hf : g.nodes.length ≤ fuel) (x : Py (Option (List ℕ)))
    (hx : (sampleClique g start fuel).Outcome x) :
    ∃ T added : List ℕ, x = .ok (some T) ∧ T.Pairwise (· < ·) ∧ T.Perm added ∧
      added.Pairwise (fun a b => g.hasEdge a b = true) ∧ (∀ v ∈ T, v ∈ g.nodes) ∧
      ∃ u, added.head? = some u ∧ ∀ v, start = some v → u = v := by
  have core : ∀ u ∈ g.nodes, ∀ y, (cliqueLoop g fuel {u} u).Outcome y →
      ∃ added, y = .ok (some added.toFinset) ∧ g.Grown u added := by
    intro u hu y hy
    have hgr : g.Grown u [u] := ⟨rfl, by simp, by simpa using hu, by simp⟩
    have hcard : g.nodes.toFinset.card < fuel + [u].length := by
      have := List.toFinset_card_le g.nodes
      simp only [List.length_cons, List.length_nil]
      omega
    obtain ⟨l', h1, h2, -⟩ := cliqueLoop_outcome hg u fuel [u] u y hgr (by simp) hcard hy
    exact ⟨l', h1, h2⟩
  have fin : ∀ u ∈ g.nodes, (∀ v, start = some v → u = v) → ∀ y,
      (do let r ← cliqueLoop g fuel {u} u
          return r.map fun S => S.sort (· ≤ ·) : Rand (Option (List ℕ))).Outcome y →
      ∃ T added : List ℕ, y = .ok (some T) ∧ T.Pairwise (· < ·) ∧ T.Perm added ∧
        added.Pairwise (fun a b => g.hasEdge a b = true) ∧ (∀ v ∈ T, v ∈ g.nodes) ∧
        ∃ u, added.head? = some u ∧ ∀ v, start = some v → u = v := by
    intro u hu hsu y hy
    rcases (Rand.outcome_bind _ _ _).mp hy with ⟨r, hr, h2⟩ | ⟨er, hr, -⟩
    · obtain ⟨added, h1, h3⟩ := core u hu _ hr
      cases Except.ok.inj h1
      refine ⟨added.toFinset.sort (· ≤ ·), added, h2, sort_lt _, ?_, h3.joined, ?_, u, h3.start,
        hsu⟩
      · rw [List.perm_ext_iff_of_nodup (Finset.sort_nodup _ _) h3.nodup]
        intro a
        rw [Finset.mem_sort, List.mem_toFinset]
      · intro v hv
        rw [Finset.mem_sort, List.mem_toFinset] at hv
        exact h3.nodes v hv
    · obtain ⟨added, h1, -⟩ := core u hu _ hr
      cases h1
  unfold sampleClique at hx
  cases start with
  | some u => exact fin u (hstart u rfl) (by intro v hv; exact Option.some.inj hv) x hx
  | none =>
    have hlen : g.nodes.length ≠ 0 := by simpa using hne
    rcases (Rand.outcome_bind _ _ _).mp hx with ⟨i, hi, h2⟩ | ⟨er, hi, -⟩
    · obtain ⟨j, hj, h4⟩ := (outcome_uniformIdx hlen _).mp hi
      cases Except.ok.inj h4
      refine fin (g.nodes.getD i 0) ?_ (by simp) x h2
      rw [getD_lt hj]
      exact List.getElem_mem hj
    · obtain ⟨j, -, h4⟩ := (outcome_uniformIdx hlen _).mp hi
      cases h4

/-- **C52** On a confidence graph every sampled tuple is a clique in both directions. -/
theorem C52_confidence_graph (Y : Cmp) (h : Y.Binary) (g : DiG) (hg : confidenceGraph Y = .ok g)
    (start : Option ℕ) (hstart : ∀ u, start = some u → u < Y.nMajor) (hne : 0 < Y.nMajor) (fuel : ℕ)
    (hf : Y.nMajor ≤ fuel) (x : Py (Option (List ℕ))) (hx : (sampleClique g start fuel).Outcome x) :
    ∃ T : List ℕ, x = .ok (some T) ∧ T.Pairwise (· < ·) ∧ (∀ u, start = some u → u ∈ T) ∧ T ≠ [] ∧
      ∀ u ∈ T, ∀ v ∈ T, u ≠ v → (commonRows Y u v).Nonempty := by
  obtain ⟨hn, hs⟩ := confidence_simple h hg
  obtain ⟨T, added, h1, h2, h3, h4, -, u, h6, h7⟩ := C52_sample_clique g hs start
    (fun u hu => by rw [hn, List.mem_range]; exact hstart u hu)
    (by rw [hn]; intro h0; rw [List.range_eq_nil] at h0; omega) fuel (by rw [hn, List.length_range]; exact hf)
    x hx
  have huT : u ∈ T := h3.mem_iff.mpr (List.mem_of_mem_head? h6)
  refine ⟨T, h1, h2, ?_, List.ne_nil_of_mem huT, ?_⟩
  · intro v hv
    rw [← h7 v hv]; exact huT
  · have hsymm : ∀ a b, g.hasEdge a b = true → g.hasEdge b a = true :=
      fun a b => ((C47_range_and_symmetry Y h g hg a b).2).mp
    have hall : ∀ {a b}, a ∈ added → b ∈ added → a ≠ b → g.hasEdge a b = true := by
      intro a b ha hb hab
      obtain ⟨i, hi, rfl⟩ := List.getElem_of_mem ha
      obtain ⟨j, hj, rfl⟩ := List.getElem_of_mem hb
      have hp := List.pairwise_iff_getElem.mp h4
      rcases Nat.lt_trichotomy i j with hlt | heq | hgt
      · exact hp i j hi hj hlt
      · subst heq; exact absurd rfl hab
      · exact hsymm _ _ (hp j i hj hi hgt)
    intro a ha b hb hab
    have hedge := hall (h3.mem_iff.mp ha) (h3.mem_iff.mp hb) hab
    rw [DiG.hasEdge, Option.isSome_iff_exists] at hedge
    obtain ⟨p, hp⟩ := hedge
    exact ((confidence_weight h hg a b p).mp hp).2.2.2.1

/-- **C52** A graph without nodes makes the random choice of the start node raise `ValueError`. -/
theorem C52_no_nodes (g : DiG) (hne : g.nodes = []) (fuel : ℕ) (x : Py (Option (List ℕ))) :
    (sampleClique g none fuel).Outcome x ↔ x = .error .valueError := by
  unfold sampleClique
  rw [hne]
  rfl

/-- The hypotheses are met, and a clique of size three has positive probability. -/
example : ∃ g, confidenceGraph exampleLabels = .ok g ∧ g.Simple ∧ g.nodes ≠ [] := by
  obtain ⟨g, hg, hn, -⟩ := C47_confidence_graph exampleLabels exampleLabels_binary
  exact ⟨g, hg, (confidence_simple exampleLabels_binary hg).2, by rw [hn]; decide⟩

/-! ### C72: subgraph statistics -/

theorem mem_orderedPairs {nodes : List ℕ} (hn : nodes.Nodup) {u v : ℕ} :
    (u, v) ∈ orderedPairs nodes ↔ u ∈ nodes ∧ v ∈ nodes ∧ u ≠ v := by
  unfold orderedPairs
  simp only [List.mem_filterMap, List.mem_flatMap, List.mem_range, List.mem_map]
  constructor
  · rintro ⟨_, ⟨i, hi, j, hj, rfl⟩, h⟩
    simp only at h
    split at h
    · cases h
    · rename_i hij
      simp only [Option.some.injEq, Prod.mk.injEq] at h
      obtain ⟨rfl, rfl⟩ := h
      rw [getD_lt hi, getD_lt hj]
      exact ⟨List.getElem_mem hi, List.getElem_mem hj, fun he => hij ((hn.getElem_inj_iff).mp he)⟩
  · rintro ⟨hu, hv, hne⟩
    obtain ⟨i, hi, rfl⟩ := List.getElem_of_mem hu
    obtain ⟨j, hj, rfl⟩ := List.getElem_of_mem hv
    refine ⟨(i, j), ⟨i, hi, j, hj, rfl⟩, ?_⟩
    have hij : i ≠ j := by rintro rfl; exact hne rfl
    simp only [if_neg hij, getD_lt hi, getD_lt hj]

theorem orderedPairs_nodup {nodes : List ℕ} (hn : nodes.Nodup) : (orderedPairs nodes).Nodup := by
  unfold orderedPairs
  have h0 : ((List.range nodes.length).flatMap fun i => (List.range nodes.length).map fun j => (i, j)).Nodup := by
    rw [List.nodup_flatMap]
    refine ⟨fun u _ => List.nodup_range.map fun a b hab => by simpa using hab, ?_⟩
    refine List.nodup_range.imp ?_
    intro a b hab x hx hy
    simp only [List.mem_map, List.mem_range] at hx hy
    obtain ⟨c, -, rfl⟩ := hx
    obtain ⟨d, -, hd⟩ := hy
    simp only [Prod.mk.injEq] at hd
    exact hab hd.1.symm
  rw [List.Nodup, List.pairwise_filterMap]
  refine List.Pairwise.imp_of_mem ?_ h0
  rintro ⟨i, j⟩ ⟨i', j'⟩ hm hm' hne b hb b' hb' rfl
  simp only [List.mem_flatMap, List.mem_map, List.mem_range, Prod.mk.injEq] at hm hm'
  obtain ⟨_, hi, _, hj, rfl, rfl⟩ := hm
  obtain ⟨_, hi', _, hj', rfl, rfl⟩ := hm'
  simp only at hb hb'
  split at hb
  · cases hb
  · split at hb'
    · cases hb'
    · simp only [Option.some.injEq] at hb hb'
      rw [← hb', getD_lt hi, getD_lt hj, getD_lt hi', getD_lt hj', Prod.mk.injEq, hn.getElem_inj_iff,
        hn.getElem_inj_iff] at hb
      exact hne (Prod.ext hb.1 hb.2)

/-- The weights of all ordered pairs of different nodes. -/
theorem orderedPairs_sum {nodes : List ℕ} (hn : nodes.Nodup) (f : ℕ × ℕ → ℚ) :
    ((orderedPairs nodes).map f).sum = ∑ e ∈ nodes.toFinset.offDiag, f e := by
  classical
  rw [← List.sum_toFinset f (orderedPairs_nodup hn)]
  congr 1
  ext ⟨u, v⟩
  rw [List.mem_toFinset, mem_orderedPairs hn, Finset.mem_offDiag, List.mem_toFinset, List.mem_toFinset]

/-- The edge count test recognises cliques. -/
theorem subgraphIsClique_iff (g : DiG) (hu : (g.edges.map Prod.fst).Nodup) (hg : g.Simple)
    (nodes : List ℕ) (hn : nodes.Nodup) :
    subgraphIsClique g nodes = true ↔ ∀ u ∈ nodes, ∀ v ∈ nodes, u ≠ v → g.hasEdge u v = true := by
  classical
  unfold subgraphIsClique
  set es := g.edges.filter fun e => decide (e.1.1 ∈ nodes ∧ e.1.2 ∈ nodes) with hes
  have hnd : (es.map Prod.fst).Nodup := hu.sublist (List.filter_sublist.map _)
  have hmem : ∀ u v, (u, v) ∈ (es.map Prod.fst).toFinset ↔ g.hasEdge u v = true ∧ u ∈ nodes ∧ v ∈ nodes := by
    intro u v
    rw [List.mem_toFinset, List.mem_map]
    constructor
    · rintro ⟨⟨e, w⟩, he, rfl⟩
      rw [hes, List.mem_filter] at he
      obtain ⟨h1, h2⟩ := he
      rw [decide_eq_true_eq] at h2
      obtain ⟨b, hb⟩ := lookup_isSome_of_mem (l := g.edges) h1
      refine ⟨?_, h2⟩
      rw [DiG.hasEdge, Option.isSome_iff_exists]
      exact ⟨b, hb⟩
    · rintro ⟨h1, h2⟩
      rw [DiG.hasEdge, Option.isSome_iff_exists] at h1
      obtain ⟨b, hb⟩ := h1
      have := mem_of_lookup (l := g.edges) hb
      exact ⟨((u, v), b), by rw [hes, List.mem_filter]; exact ⟨this, by simpa using h2⟩, rfl⟩
  have hsub : (es.map Prod.fst).toFinset ⊆ nodes.toFinset.offDiag := by
    rintro ⟨u, v⟩ h
    obtain ⟨h1, h2, h3⟩ := (hmem u v).mp h
    rw [Finset.mem_offDiag, List.mem_toFinset, List.mem_toFinset]
    refine ⟨h2, h3, ?_⟩
    intro huv
    simp only at huv
    subst huv
    rw [hg.noLoop] at h1
    cases h1
  have hcard : (es.map Prod.fst).toFinset.card = es.length := by
    rw [List.toFinset_card_of_nodup hnd, List.length_map]
  have hoff : (nodes.toFinset.offDiag.card : ℤ) = (nodes.length : ℤ) * ((nodes.length : ℤ) - 1) := by
    rw [Finset.offDiag_card, List.toFinset_card_of_nodup hn]
    have : nodes.length ≤ nodes.length * nodes.length := Nat.le_mul_self _
    push_cast [this]
    ring
  rw [beq_iff_eq, ← hoff, ← hcard, Nat.cast_inj]
  constructor
  · intro heq u hu' v hv' hne
    have := Finset.eq_of_subset_of_card_le hsub heq.ge
    have h1 : (u, v) ∈ nodes.toFinset.offDiag := by
      rw [Finset.mem_offDiag, List.mem_toFinset, List.mem_toFinset]; exact ⟨hu', hv', hne⟩
    rw [← this] at h1
    exact ((hmem u v).mp h1).1
  · intro hall
    congr 1
    apply Finset.Subset.antisymm hsub
    rintro ⟨u, v⟩ h
    rw [Finset.mem_offDiag, List.mem_toFinset, List.mem_toFinset] at h
    exact (hmem u v).mpr ⟨hall u h.1 v h.2.1 h.2.2, h.1, h.2.1⟩

/-- **C72** `subgraph_stat` on different nodes of a digraph without self loops: if some ordered pair is
not an edge it raises `KeyError`; otherwise it reports the sum of the weights of all ordered pairs over
the number of nodes (NaN for no nodes), and `is_clique = True`. So `is_clique` is never reported as
false. -/
theorem C72_subgraph_stat (g : DiG) (hu : (g.edges.map Prod.fst).Nodup) (hg : g.Simple)
    (nodes : List ℕ) (hn : nodes.Nodup) :
    ((∃ u ∈ nodes, ∃ v ∈ nodes, u ≠ v ∧ g.hasEdge u v = false) →
      subgraphStat g nodes = .error .keyError) ∧
    ((∀ u ∈ nodes, ∀ v ∈ nodes, u ≠ v → g.hasEdge u v = true) →
      subgraphStat g nodes = .ok (nodes.length, if nodes = [] then none else
        some ((∑ e ∈ nodes.toFinset.offDiag, (g.weight e.1 e.2).getD 0) / nodes.length), true)) := by
  constructor
  · rintro ⟨u, hu', v, hv', hne, hno⟩
    have hin := (mem_orderedPairs hn).mpr ⟨hu', hv', hne⟩
    have hnone : g.weight u v = none := by
      rw [DiG.hasEdge, Option.isSome_eq_false_iff, Option.isNone_iff_eq_none] at hno
      exact hno
    rcases hm : (orderedPairs nodes).mapM (pairProba g) with er | ps
    · obtain ⟨e, -, her⟩ := mapM_error hm
      have : er = .keyError := by
        unfold pairProba at her
        split at her
        · cases her
        · cases her; rfl
      subst this
      unfold subgraphStat
      rw [hm]; rfl
    · rw [mapM_eq_ok_iff] at hm
      obtain ⟨o, -, ho⟩ := forall₂_mem_left hm hin
      simp only [pairProba, hnone] at ho
      cases ho
  · intro hall
    have hm : (orderedPairs nodes).mapM (pairProba g) =
        .ok ((orderedPairs nodes).map fun e => (g.weight e.1 e.2).getD 0) := by
      rw [mapM_eq_ok_iff, List.forall₂_map_right_iff, List.forall₂_same]
      rintro ⟨u, v⟩ he
      obtain ⟨h1, h2, h3⟩ := (mem_orderedPairs hn).mp he
      have := hall u h1 v h2 h3
      rw [DiG.hasEdge, Option.isSome_iff_exists] at this
      obtain ⟨p, hp⟩ := this
      simp [pairProba, hp]
    unfold subgraphStat
    rw [hm, (subgraphIsClique_iff g hu hg nodes hn).mpr hall]
    simp only [bind, Except.bind, pure, Except.pure, orderedPairs_sum hn, List.length_eq_zero_iff]

/-- **C72** For one node the density is 0. -/
theorem C72_single_node (g : DiG) (u : ℕ) (hg : g.Simple) :
    subgraphStat g [u] = .ok (1, some 0, true) := by
  have hno := hg.noLoop u
  have hes : (g.edges.filter fun e => decide (e.1.1 ∈ [u] ∧ e.1.2 ∈ [u])) = [] := by
    rw [List.filter_eq_nil_iff]
    rintro ⟨⟨a, b⟩, w⟩ he h
    simp only [List.mem_singleton, decide_eq_true_eq] at h
    obtain ⟨rfl, rfl⟩ := h
    obtain ⟨c, hc⟩ := lookup_isSome_of_mem (l := g.edges) he
    rw [DiG.hasEdge, DiG.weight, hc] at hno
    cases hno
  have hp : orderedPairs [u] = [] := by rfl
  unfold subgraphStat subgraphIsClique
  rw [hp, hes]
  simp [bind, Except.bind, pure, Except.pure]

end Verif
