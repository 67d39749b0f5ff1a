/-
C121: the compiled back end of `enumerate_probable_cliques` on graphs with any nodes.
-/
import Verif.Props.Graph

namespace Verif

open UGraph

namespace UGraph

/-- The node at a position of the graph's list of nodes. -/
def nodeAt {K : Type} (g : UGraph K) (t : ℕ) : ℕ := g.nodes.getD t 0

/-- The graph with its weights in another precision. -/
def castWeights {K K' : Type} (cast : K → K') (g : UGraph K) : UGraph K' :=
  { nodes := g.nodes, edges := g.edges.map fun e => (e.1, cast e.2) }

variable {K K' : Type}

theorem idxOf_lt {g : UGraph K} {x : ℕ} (h : x ∈ g.nodes) : g.nodes.idxOf x < g.nodes.length :=
  List.idxOf_lt_length_iff.mpr h

theorem nodeAt_idxOf {g : UGraph K} {x : ℕ} (h : x ∈ g.nodes) : g.nodeAt (g.nodes.idxOf x) = x := by
  unfold nodeAt
  rw [getD_lt (idxOf_lt h)]
  exact List.getElem_idxOf (idxOf_lt h)

theorem nodeAt_mem {g : UGraph K} {t : ℕ} (h : t < g.nodes.length) : g.nodeAt t ∈ g.nodes := by
  unfold nodeAt
  rw [getD_lt h]
  exact List.getElem_mem h

theorem idxOf_nodeAt {g : UGraph K} (hwf : g.WF) {t : ℕ} (h : t < g.nodes.length) :
    g.nodes.idxOf (g.nodeAt t) = t := by
  unfold nodeAt
  rw [getD_lt h]
  exact List.Nodup.idxOf_getElem hwf.nodup t h

theorem nodeAt_inj {g : UGraph K} (hwf : g.WF) {s t : ℕ} (hs : s < g.nodes.length) (ht : t < g.nodes.length)
    (h : g.nodeAt s = g.nodeAt t) : s = t := by
  rw [← idxOf_nodeAt hwf hs, h, idxOf_nodeAt hwf ht]

theorem find_map {α β : Type} (f : α → β) (p : β → Bool) (q : α → Bool) (l : List α)
    (h : ∀ a ∈ l, p (f a) = q a) : (l.map f).find? p = (l.find? q).map f := by
  induction l with
  | nil => rfl
  | cons a l ih =>
    rw [List.map_cons, List.find?_cons, List.find?_cons, h a (by simp)]
    split
    · rfl
    · exact ih fun b hb => h b (by simp [hb])

/-- The wrapped graph. -/
def wrapped (cast : K → K') (g : UGraph K) : UGraph K' :=
  { nodes := List.range g.nodes.length
    edges := g.edges.map fun e => ((g.nodes.idxOf e.1.1, g.nodes.idxOf e.1.2), cast e.2) }

theorem wrapGraph_ok (cast : K → K') {g : UGraph K} (hne : g.nodes ≠ []) :
    wrapGraph cast g = .ok (g.wrapped cast) := by
  unfold wrapGraph
  rw [if_neg hne]
  rfl

theorem weight_cast (cast : K → K') (g : UGraph K) (u v : ℕ) :
    (g.castWeights cast).weight u v = (g.weight u v).map cast := by
  unfold weight castWeights
  rw [find_map (fun e : (ℕ × ℕ) × K => (e.1, cast e.2)) (joins u v) (joins u v) _ (fun e _ => rfl),
    Option.map_map, Option.map_map]
  rfl

theorem weight_wrapped (cast : K → K') {g : UGraph K} (hwf : g.WF) {s t : ℕ} (hs : s < g.nodes.length)
    (ht : t < g.nodes.length) :
    (g.wrapped cast).weight s t = (g.weight (g.nodeAt s) (g.nodeAt t)).map cast := by
  unfold weight wrapped
  rw [find_map (fun e : (ℕ × ℕ) × K => ((g.nodes.idxOf e.1.1, g.nodes.idxOf e.1.2), cast e.2)) (joins s t)
    (joins (g.nodeAt s) (g.nodeAt t)), Option.map_map, Option.map_map]
  · rfl
  · rintro ⟨⟨a, b⟩, w⟩ he
    obtain ⟨ha, hb⟩ := hwf.ends _ he
    simp only at ha hb
    have key : ∀ {x r : ℕ}, x ∈ g.nodes → r < g.nodes.length → (g.nodes.idxOf x = r ↔ x = g.nodeAt r) := by
      intro x r hx hr
      constructor
      · rintro rfl
        exact (nodeAt_idxOf hx).symm
      · rintro rfl
        exact idxOf_nodeAt hwf hr
    rw [Bool.eq_iff_iff]
    simp only [joins, Bool.or_eq_true, beq_iff_eq, Prod.mk.injEq]
    rw [key ha hs, key hb ht, key ha ht, key hb hs]

theorem wrapped_wf (cast : K → K') {g : UGraph K} (hwf : g.WF) : (g.wrapped cast).WF := by
  refine ⟨List.nodup_range, ?_, ?_⟩
  · intro e he
    obtain ⟨d, hd, rfl⟩ := List.mem_map.mp he
    obtain ⟨h1, h2⟩ := hwf.ends d hd
    exact ⟨List.mem_range.mpr (idxOf_lt h1), List.mem_range.mpr (idxOf_lt h2)⟩
  · intro e he
    obtain ⟨d, hd, rfl⟩ := List.mem_map.mp he
    obtain ⟨h1, h2⟩ := hwf.ends d hd
    simp only
    rw [weight_wrapped cast hwf (idxOf_lt h1) (idxOf_lt h2), nodeAt_idxOf h1, nodeAt_idxOf h2,
      hwf.simple d hd]
    rfl

theorem adj_wrapped (cast : K → K') {g : UGraph K} (hwf : g.WF) {s t : ℕ} (hs : s < g.nodes.length)
    (ht : t < g.nodes.length) : (g.wrapped cast).Adj s t ↔ g.Adj (g.nodeAt s) (g.nodeAt t) := by
  unfold Adj
  rw [weight_wrapped cast hwf hs ht]
  simp only [Option.map_eq_some_iff]
  constructor
  · rintro ⟨w, a, ha, -⟩
    exact ⟨a, ha⟩
  · rintro ⟨a, ha⟩
    exact ⟨_, a, ha, rfl⟩

theorem isClique_wrapped (cast : K → K') {g : UGraph K} (hwf : g.WF) (T : List ℕ) :
    (g.wrapped cast).IsClique T.toFinset ↔
      (∀ t ∈ T, t < g.nodes.length) ∧ g.IsClique (T.map g.nodeAt).toFinset := by
  simp only [IsClique, List.mem_toFinset, List.mem_map]
  constructor
  · rintro ⟨h1, h2⟩
    have hlt : ∀ t ∈ T, t < g.nodes.length := fun t ht => List.mem_range.mp (h1 t ht)
    refine ⟨hlt, ?_, ?_⟩
    · rintro x ⟨t, ht, rfl⟩
      exact nodeAt_mem (hlt t ht)
    · rintro x ⟨s, hs, rfl⟩ y ⟨t, ht, rfl⟩ hne
      exact (adj_wrapped cast hwf (hlt s hs) (hlt t ht)).mp (h2 s hs t ht fun h => hne (by rw [h]))
  · rintro ⟨hlt, -, h2⟩
    refine ⟨fun t ht => List.mem_range.mpr (hlt t ht), ?_⟩
    intro s hs t ht hne
    exact (adj_wrapped cast hwf (hlt s hs) (hlt t ht)).mpr
      (h2 _ ⟨s, hs, rfl⟩ _ ⟨t, ht, rfl⟩ fun h => hne (nodeAt_inj hwf (hlt s hs) (hlt t ht) h))

theorem extendAll_wrapped (cast : K → K') (ops : ProbOps K') {g : UGraph K} (hwf : g.WF) {u : ℕ}
    (hu : u < g.nodes.length) : ∀ (vs : List ℕ) (_ : ∀ v ∈ vs, v < g.nodes.length) (p : K'),
    extendAll ops (g.wrapped cast) u vs p =
      extendAll ops (g.castWeights cast) (g.nodeAt u) (vs.map g.nodeAt) p
  | [], _, _ => rfl
  | v :: vs, h, p => by
    have ih := extendAll_wrapped cast ops hwf hu vs (fun x hx => h x (by simp [hx]))
    unfold extendAll at ih ⊢
    rw [List.map_cons, List.foldl_cons, List.foldl_cons, weight_wrapped cast hwf hu (h v (by simp)),
      weight_cast]
    exact ih _

theorem orderedProbAux_wrapped (cast : K → K') (ops : ProbOps K') {g : UGraph K} (hwf : g.WF) :
    ∀ (us pre : List ℕ) (_ : ∀ v ∈ pre, v < g.nodes.length) (_ : ∀ v ∈ us, v < g.nodes.length) (p : K'),
    orderedProbAux ops (g.wrapped cast) pre us p =
      orderedProbAux ops (g.castWeights cast) (pre.map g.nodeAt) (us.map g.nodeAt) p
  | [], _, _, _, _ => rfl
  | u :: us, pre, h1, h2, p => by
    have hu := h2 u (by simp)
    rw [List.map_cons, orderedProbAux, orderedProbAux, extendAll_wrapped cast ops hwf hu pre h1,
      orderedProbAux_wrapped cast ops hwf us (pre ++ [u]) _ (fun v hv => h2 v (by simp [hv]))]
    · rw [List.map_append]
      rfl
    · intro v hv
      rcases List.mem_append.mp hv with h | h
      · exact h1 v h
      · simp at h; subst h; exact hu

end UGraph

/-- **C121** The compiled back end on a graph with any nodes, in any precision: the returned tuples are
increasing lists of *positions* in the graph's list of nodes. They are, each once, the single positions and
the lists of positions whose nodes form a clique with a product of edge probabilities, computed in that
precision and in the order of the positions, of at least the threshold in that precision. -/
theorem C121_positions {K K' : Type} [LinearOrder K'] (cast : K → K') (ops : ProbOps K') (Valid : K' → Prop)
    (hl : ops.Lawful Valid) (g : UGraph K) (hwf : g.WF) (hne : g.nodes ≠ [])
    (hg : g.AllWeights fun w => Valid (cast w)) (alpha : K) (order : Finset ℕ → List ℕ)
    (ho : Traverses order) (depth : ℕ) (hd : g.nodes.length < depth) :
    ∃ L, enumerateCliquesV2 cast ops g alpha order depth = .ok L ∧ (L.map Prod.fst).Nodup ∧
      ∀ T p, (T, p) ∈ L ↔ T ≠ [] ∧ T.Pairwise (· < ·) ∧ (∀ t ∈ T, t < g.nodes.length) ∧
        g.IsClique (T.map g.nodeAt).toFinset ∧
        p = orderedProb ops (g.castWeights cast) (T.map g.nodeAt) ∧ (T.length = 1 ∨ cast alpha ≤ p) := by
  have hval : (g.wrapped cast).AllWeights Valid := by
    intro e he
    obtain ⟨d, hd, rfl⟩ := List.mem_map.mp he
    exact hg d hd
  obtain ⟨L, h1, h2, h3⟩ := C49_any_arithmetic ops Valid hl (g.wrapped cast) (wrapped_wf cast hwf) hval
    (cast alpha) order ho depth (by simpa [wrapped] using hd)
  refine ⟨L, ?_, h2, fun T p => ?_⟩
  · rw [enumerateV2_wrap cast (wrapGraph_ok cast hne) alpha ho depth, h1]
  · rw [h3, isClique_wrapped cast hwf]
    constructor
    · rintro ⟨a, b, ⟨c, d⟩, e, f⟩
      exact ⟨a, b, c, d, by rw [e]; exact orderedProbAux_wrapped cast ops hwf T [] (by simp) c _, f⟩
    · rintro ⟨a, b, c, d, e, f⟩
      exact ⟨a, b, ⟨c, d⟩, by rw [e]; exact (orderedProbAux_wrapped cast ops hwf T [] (by simp) c _).symm, f⟩

/-! ### Exact arithmetic -/

theorem cliqueProb_insert_any (g : UGraph ℚ) {S : Finset ℕ} {u : ℕ} (hu : u ∉ S) :
    g.cliqueProb (insert u S) = g.cliqueProb S * ∏ v ∈ S, (g.weight u v).getD 1 := by
  unfold cliqueProb
  rw [Finset.prod_insert hu]
  have h1 : (insert u S).filter (· < u) = S.filter (· < u) := by
    rw [Finset.filter_insert, if_neg (lt_irrefl u)]
  have h2 : ∀ x ∈ S, ∏ v ∈ (insert u S).filter (· < x), (g.weight x v).getD 1 =
      (∏ v ∈ S.filter (· < x), (g.weight x v).getD 1) * if u < x then (g.weight u x).getD 1 else 1 := by
    intro x _
    rw [Finset.filter_insert]
    by_cases h : u < x
    · rw [if_pos h, if_pos h, Finset.prod_insert (fun hm => hu (Finset.mem_filter.mp hm).1), mul_comm,
        weight_comm]
    · rw [if_neg h, if_neg h, mul_one]
  rw [h1, Finset.prod_congr rfl h2, Finset.prod_mul_distrib, ← Finset.prod_filter]
  have h3 : ∏ v ∈ S, (g.weight u v).getD 1 =
      (∏ v ∈ S.filter (· < u), (g.weight u v).getD 1) * ∏ v ∈ S.filter (u < ·), (g.weight u v).getD 1 := by
    rw [← Finset.prod_filter_mul_prod_filter_not S (· < u)]
    congr 1
    apply Finset.prod_congr _ fun _ _ => rfl
    ext v
    simp only [Finset.mem_filter, not_lt]
    constructor
    · rintro ⟨h, h'⟩
      exact ⟨h, lt_of_le_of_ne h' fun e => hu (e ▸ h)⟩
    · rintro ⟨h, h'⟩
      exact ⟨h, h'.le⟩
  rw [h3]
  ring

theorem orderedProb_nodup (g : UGraph ℚ) (T : List ℕ) (hT : T.Nodup) :
    orderedProb ratOps g T = g.cliqueProb T.toFinset := by
  induction T using List.reverseRecOn with
  | nil => rfl
  | append_singleton S u ih =>
    obtain ⟨h1, -, h2⟩ := List.nodup_append.mp hT
    have hu : u ∉ S := fun h => h2 u h u (by simp) rfl
    rw [orderedProb_snoc, ih h1]
    have hset : (S ++ [u]).toFinset = insert u S.toFinset := by
      ext x; simp [or_comm]
    rw [hset, cliqueProb_insert_any g (by simpa using hu), List.prod_toFinset _ h1]
    have : ∀ (vs : List ℕ) (p : ℚ), extendAll ratOps g u vs p =
        p * (vs.map fun v => (g.weight u v).getD 1).prod := by
      intro vs
      induction vs with
      | nil => intro p; simp [extendAll]
      | cons v vs ihv =>
        intro p
        unfold extendAll at ihv ⊢
        rw [List.foldl_cons, ihv, List.map_cons, List.prod_cons, ← mul_assoc]
        rfl
    rw [this]

theorem castWeights_id (g : UGraph ℚ) : g.castWeights id = g := by
  unfold castWeights
  simp

/-- **C121** In exact arithmetic the two back ends find the same cliques with the same probabilities on
every graph that has a node, whatever its nodes are called: reading each position of a `dfs_v2` tuple as the
node at that position gives the sets that `dfs` returns. -/
theorem C121_same_cliques (g : UGraph ℚ) (hwf : g.WF) (hne : g.nodes ≠ [])
    (hg : g.AllWeights fun p => 0 ≤ p ∧ p ≤ 1) (alpha : ℚ) (order order' : Finset ℕ → List ℕ)
    (ho : Traverses order) (ho' : Traverses order') (depth depth' : ℕ) (hd : g.nodes.length < depth)
    (hd' : g.nodes.length < depth') :
    ∃ L L', enumerateProbableCliques ratOps g alpha .dfs order depth = .ok L ∧
      enumerateProbableCliques ratOps g alpha .dfsV2 order' depth' = .ok L' ∧
      (L'.map fun e => ((e.1.map g.nodeAt).toFinset, e.2)).Perm (L.map fun e => (e.1.toFinset, e.2)) := by
  obtain ⟨L, h1, h2, h3⟩ := C49_enumeration g hwf hg alpha order ho depth hd
  obtain ⟨L', k1, k2, k3⟩ := C121_positions id ratOps _ ratOps_lawful g hwf hne hg alpha order' ho' depth' hd'
  rw [castWeights_id] at k3
  refine ⟨L, L', h1, k1, ?_⟩
  have hnd : ∀ T : List ℕ, T.Pairwise (· < ·) → (∀ t ∈ T, t < g.nodes.length) → (T.map g.nodeAt).Nodup := by
    intro T hs hlt
    refine List.Nodup.map_on ?_ (hs.imp ne_of_lt)
    intro a ha b hb h
    exact nodeAt_inj hwf (hlt a ha) (hlt b hb) h
  have heq : ∀ S T : List ℕ, S.Pairwise (· < ·) → T.Pairwise (· < ·) → (∀ x, x ∈ S ↔ x ∈ T) → S = T := by
    intro S T hS hT h
    have hp : S.Perm T := (List.perm_ext_iff_of_nodup (hS.imp ne_of_lt) (hT.imp ne_of_lt)).mpr h
    exact hp.eq_of_pairwise (fun x y _ _ h1 h2 => absurd h1 (not_lt.mpr h2.le)) hS hT
  rw [List.perm_ext_iff_of_nodup]
  · rintro ⟨U, p⟩
    simp only [List.mem_map, Prod.mk.injEq, Prod.exists]
    constructor
    · rintro ⟨T, q, hT, rfl, rfl⟩
      obtain ⟨a, b, c, d, e, f⟩ := (k3 T q).mp hT
      have hn := hnd T b c
      rw [orderedProb_nodup g _ hn] at e
      refine ⟨(T.map g.nodeAt).toFinset.sort (· ≤ ·), q, (h3 _ _).mpr ⟨sort_lt _, ?_, ?_⟩, ?_, rfl⟩
      · rw [Finset.sort_toFinset]
        refine ⟨by simpa using a, d, ?_⟩
        rw [List.toFinset_card_of_nodup hn, List.length_map, ← e]
        exact f
      · rw [Finset.sort_toFinset, e]
      · exact Finset.sort_toFinset _ _
    · rintro ⟨S, q, hS, rfl, rfl⟩
      obtain ⟨a, ⟨b, c, d⟩, e⟩ := (h3 S q).mp hS
      set P := (S.map g.nodes.idxOf).toFinset.sort (· ≤ ·) with hP
      have hPm : ∀ t, t ∈ P ↔ ∃ x ∈ S, g.nodes.idxOf x = t := by
        intro t
        rw [hP, Finset.mem_sort]
        simp
      have hlt : ∀ t ∈ P, t < g.nodes.length := by
        intro t ht
        obtain ⟨x, hx, rfl⟩ := (hPm t).mp ht
        exact idxOf_lt (c.1 x (List.mem_toFinset.mpr hx))
      have hset : (P.map g.nodeAt).toFinset = S.toFinset := by
        ext x
        simp only [List.mem_toFinset, List.mem_map]
        constructor
        · rintro ⟨t, ht, rfl⟩
          obtain ⟨y, hy, rfl⟩ := (hPm t).mp ht
          rwa [nodeAt_idxOf (c.1 y (List.mem_toFinset.mpr hy))]
        · intro hx
          exact ⟨_, (hPm _).mpr ⟨x, hx, rfl⟩, nodeAt_idxOf (c.1 x (List.mem_toFinset.mpr hx))⟩
      have hsort : P.Pairwise (· < ·) := sort_lt _
      have hn := hnd P hsort hlt
      refine ⟨P, q, (k3 P q).mpr ⟨?_, hsort, hlt, by rw [hset]; exact c, ?_, ?_⟩, hset, rfl⟩
      · rintro h0
        rw [h0] at hset
        exact b hset.symm
      · rw [orderedProb_nodup g _ hn, hset, e]
      · have : P.length = S.toFinset.card := by
          rw [← hset, List.toFinset_card_of_nodup hn, List.length_map]
        rw [this, e]
        exact d
  · have : ((L'.map Prod.fst).map fun T => (T.map g.nodeAt).toFinset).Nodup := by
      refine List.Nodup.map_on ?_ k2
      intro S hS T hT h
      obtain ⟨⟨S', p⟩, hS', rfl⟩ := List.mem_map.mp hS
      obtain ⟨⟨T', q⟩, hT', rfl⟩ := List.mem_map.mp hT
      obtain ⟨-, sS, lS, -⟩ := (k3 _ _).mp hS'
      obtain ⟨-, sT, lT, -⟩ := (k3 _ _).mp hT'
      have hsub : ∀ A B : List ℕ, (∀ t ∈ A, t < g.nodes.length) → (∀ t ∈ B, t < g.nodes.length) →
          (A.map g.nodeAt).toFinset = (B.map g.nodeAt).toFinset → ∀ x ∈ A, x ∈ B := by
        intro A B hA hB e x hx
        have : g.nodeAt x ∈ (B.map g.nodeAt).toFinset := by
          rw [← e]; exact List.mem_toFinset.mpr (List.mem_map_of_mem hx)
        rw [List.mem_toFinset, List.mem_map] at this
        obtain ⟨y, hy, e'⟩ := this
        rwa [← nodeAt_inj hwf (hB y hy) (hA x hx) e']
      exact heq S' T' sS sT fun x => ⟨hsub S' T' lS lT h x, hsub T' S' lT lS h.symm x⟩
    rw [List.map_map] at this
    refine List.Nodup.of_map Prod.fst ?_
    rw [List.map_map]
    exact this
  · have : ((L.map Prod.fst).map List.toFinset).Nodup := by
      refine List.Nodup.map_on ?_ h2
      intro S hS T hT h
      obtain ⟨⟨S', p⟩, hS', rfl⟩ := List.mem_map.mp hS
      obtain ⟨⟨T', q⟩, hT', rfl⟩ := List.mem_map.mp hT
      refine heq S' T' ((h3 _ _).mp hS').1 ((h3 _ _).mp hT').1 fun x => ?_
      have := Finset.ext_iff.mp h x
      simpa using this
    rw [List.map_map] at this
    refine List.Nodup.of_map Prod.fst ?_
    rw [List.map_map]
    exact this

/-- **C121** Taken as they are, the tuples of the two back ends agree only on graphs whose nodes are, in
some order, `0 .. n-1`. -/
theorem C121_agree_only_if (g : UGraph ℚ) (hwf : g.WF) (hne : g.nodes ≠ [])
    (hg : g.AllWeights fun p => 0 ≤ p ∧ p ≤ 1) (alpha : ℚ) (order order' : Finset ℕ → List ℕ)
    (ho : Traverses order) (ho' : Traverses order') (depth depth' : ℕ) (hd : g.nodes.length < depth)
    (hd' : g.nodes.length < depth') (L L' : List (List ℕ × ℚ))
    (h1 : enumerateProbableCliques ratOps g alpha .dfs order depth = .ok L)
    (h2 : enumerateProbableCliques ratOps g alpha .dfsV2 order' depth' = .ok L') (h : ∀ e, e ∈ L ↔ e ∈ L') :
    g.nodes.Perm (List.range g.nodes.length) := by
  obtain ⟨L₁, a1, -, a3⟩ := C49_enumeration g hwf hg alpha order ho depth hd
  obtain ⟨L₂, b1, -, b3⟩ := C121_positions id ratOps _ ratOps_lawful g hwf hne hg alpha order' ho' depth' hd'
  rw [show enumerateProbableCliques ratOps g alpha .dfs order depth =
    enumerateCliques ratOps g alpha order depth from rfl, a1] at h1
  rw [show enumerateProbableCliques ratOps g alpha .dfsV2 order' depth' =
    enumerateCliquesV2 id ratOps g alpha order' depth' from rfl, b1] at h2
  cases h1
  cases h2
  have hsub : g.nodes ⊆ List.range g.nodes.length := by
    intro x hx
    have hm : (([x] : List ℕ), g.cliqueProb {x}) ∈ L := by
      refine (a3 _ _).mpr ⟨by simp, ⟨by simp, ⟨?_, ?_⟩, Or.inl (by simp)⟩, rfl⟩
      · intro y hy; simp at hy; subst hy; exact hx
      · intro y hy z hz hyz; simp at hy hz; subst hy hz; exact absurd rfl hyz
    obtain ⟨-, -, hlt, -⟩ := (b3 _ _).mp ((h _).mp hm)
    exact List.mem_range.mpr (hlt x (by simp))
  exact (List.subperm_of_subset hwf.nodup hsub).perm_of_length_le (by simp)

/-- Two nodes called 5 and 7, joined by an edge. -/
def farGraph : UGraph ℚ := { nodes := [5, 7], edges := [((5, 7), 1 / 2)] }

theorem farGraph_wf : farGraph.WF ∧ farGraph.AllWeights fun p => 0 ≤ p ∧ p ≤ 1 :=
  ⟨⟨by decide, by decide, by decide +kernel⟩, by
    intro e he
    simp only [farGraph, List.mem_singleton] at he
    subst he
    norm_num⟩

/-- The hypotheses are met, and the two back ends return different tuples. -/
example : enumerateProbableCliques ratOps farGraph (1 / 4) .dfs Finset.toList 5 ≠
    enumerateProbableCliques ratOps farGraph (1 / 4) .dfsV2 Finset.toList 5 := by
  intro h
  obtain ⟨L, L', h1, h2, -⟩ := C121_same_cliques farGraph farGraph_wf.1 (by decide) farGraph_wf.2 (1 / 4)
    Finset.toList Finset.toList traverses_toList traverses_toList 5 5 (by decide) (by decide)
  rw [h1, h2] at h
  cases h
  have := C121_agree_only_if farGraph farGraph_wf.1 (by decide) farGraph_wf.2 (1 / 4) Finset.toList
    Finset.toList traverses_toList traverses_toList 5 5 (by decide) (by decide) L L h1 h2 fun e => Iff.rfl
  have h5 : (5 : ℕ) ∈ List.range 2 := this.mem_iff.mp (by simp [farGraph])
  simp at h5

/-- An arithmetic that rounds, for `C121_positions`: weights and products rounded down to thousandths. -/
example : ∃ L, enumerateCliquesV2 (fun w : ℚ => (⌊w * 1000⌋ : ℚ) / 1000) roundedOps farGraph (1 / 3) Finset.toList
    5 = .ok L ∧ ([0, 1], 1 / 2) ∈ L := by
  have hhalf : (⌊(1 / 2 : ℚ) * 1000⌋ : ℚ) / 1000 = 1 / 2 := by norm_num
  obtain ⟨L, h1, -, h3⟩ := C121_positions (fun w : ℚ => (⌊w * 1000⌋ : ℚ) / 1000) roundedOps _ roundedOps_lawful
    farGraph farGraph_wf.1 (by decide) (by
      intro e he
      simp only [farGraph, List.mem_singleton] at he
      subst he
      show 0 ≤ (⌊(1 / 2 : ℚ) * 1000⌋ : ℚ) / 1000 ∧ (⌊(1 / 2 : ℚ) * 1000⌋ : ℚ) / 1000 ≤ 1
      rw [hhalf]
      norm_num) (1 / 3) Finset.toList traverses_toList 5 (by decide)
  refine ⟨L, h1, (h3 _ _).mpr ⟨by simp, by simp, by simp [farGraph], ?_, ?_, Or.inr ?_⟩⟩
  · refine ⟨by decide, ?_⟩
    have : ∀ x ∈ ({5, 7} : Finset ℕ), ∀ y ∈ ({5, 7} : Finset ℕ), x ≠ y →
        (farGraph.weight x y).isSome = true := by decide +kernel
    exact fun x hx y hy hne => Option.isSome_iff_exists.mp (this x hx y hy hne)
  · decide +kernel
  · have : (⌊(1 / 3 : ℚ) * 1000⌋ : ℚ) ≤ (1 / 3 : ℚ) * 1000 := Int.floor_le _
    show (⌊(1 / 3 : ℚ) * 1000⌋ : ℚ) / 1000 ≤ 1 / 2
    linarith

end Verif
