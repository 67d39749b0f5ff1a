/-
C142: the figure drawn by the bicluster viewer.
-/
import Verif.Spec.Plot
import Verif.Props.Biclus

namespace Verif

namespace Biclus

theorem paired_iff {left right : List (List ℕ)} :
    Paired left right ↔ ¬ ∃ i < left.length, left.getD i [] ≠ [] ∧ right.length ≤ i := by
  rw [Paired]
  push Not
  rfl

theorem new_paired {left right : List (List ℕ)} (h : Paired left right) (A : Dense ℚ) (lp rp : List ℕ) :
    BlockMatrix.new left right A lp rp = .ok
      { original := A, leftClusters := (shownPairs left right).map Prod.fst,
        rightClusters := (shownPairs left right).map Prod.snd,
        leftBlocks := createBlocks ((shownPairs left right).map Prod.fst),
        rightBlocks := createBlocks ((shownPairs left right).map Prod.snd),
        leftPerm := lp, rightPerm := rp } := by
  rw [BlockMatrix.new, keepClusters_ok h]
  rfl

/-- The object with the identity for both shuffles. -/
def baseObject (A : Dense ℚ) (left right : List (List ℕ)) : BlockMatrix where
  original := A
  leftClusters := (shownPairs left right).map Prod.fst
  rightClusters := (shownPairs left right).map Prod.snd
  leftBlocks := createBlocks ((shownPairs left right).map Prod.fst)
  rightBlocks := createBlocks ((shownPairs left right).map Prod.snd)
  leftPerm := List.range (createBlocks ((shownPairs left right).map Prod.fst)).length
  rightPerm := List.range (createBlocks ((shownPairs left right).map Prod.snd)).length

theorem base_constructed {left right : List (List ℕ)} (h : Paired left right) (A : Dense ℚ) :
    Constructed left right A (baseObject A left right) :=
  ⟨_, _, new_paired h A _ _, ⟨List.nodup_range, fun _ => List.mem_range⟩,
    ⟨List.nodup_range, fun _ => List.mem_range⟩⟩

/-- The object after `order()`. -/
theorem base_order {left right : List (List ℕ)} (h : Paired left right) (A : Dense ℚ) :
    ∃ m, (∀ lp rp, order { baseObject A left right with leftPerm := lp, rightPerm := rp } = .ok m) ∧
      m.original = A ∧ Viewer left right A m ∧ m.leftClusters = (shownPairs left right).map Prod.fst ∧
      m.rightClusters = (shownPairs left right).map Prod.snd := by
  have hc := base_constructed h A
  have ho := order_ok (constructed_wf hc)
  exact ⟨_, fun _ _ => ho, rfl, Or.inr ⟨_, hc, ho⟩, rfl, rfl⟩

theorem fits_iff {A : Dense ℚ} {left right : List (List ℕ)} {m : BlockMatrix} (ho : m.original = A)
    (h1 : m.leftClusters = (shownPairs left right).map Prod.fst)
    (h2 : m.rightClusters = (shownPairs left right).map Prod.snd) : Fits A left right ↔ InRange m := by
  rw [Fits, InRange, h1, h2, ho]
  constructor
  · intro h
    constructor
    · rintro x ⟨c, hc, hx⟩
      obtain ⟨p, hp, rfl⟩ := List.mem_map.mp hc
      exact (h p hp).1 x hx
    · rintro x ⟨c, hc, hx⟩
      obtain ⟨p, hp, rfl⟩ := List.mem_map.mp hc
      exact (h p hp).2 x hx
  · intro h c hc
    exact ⟨fun x hx => h.1 x ⟨_, List.mem_map_of_mem hc, hx⟩,
      fun y hy => h.2 y ⟨_, List.mem_map_of_mem hc, hy⟩⟩

theorem covers_iff {left right : List (List ℕ)} {m : BlockMatrix}
    (h1 : m.leftClusters = (shownPairs left right).map Prod.fst)
    (h2 : m.rightClusters = (shownPairs left right).map Prod.snd) (j x y : ℕ) :
    InCluster m j x y ↔ Covers (shownPairs left right) j x y := by
  rw [InCluster, Covers, h1, h2, List.length_map]
  refine and_congr_right fun hj => ?_
  rw [getD_lt (by simpa using hj), getD_lt (by simpa using hj), getD_lt hj, List.getElem_map, List.getElem_map]

theorem paint_error : ∀ (cs : List (List ℕ × List ℕ)) (i : ℕ) (M : Dense ℕ) (e : PyErr),
    paint cs i M = .error e → e = .indexError
  | [], _, _, _, h => by cases h
  | c :: cs, i, M, e, h => by
    rw [paint, setBlock] at h
    split at h
    · exact paint_error cs _ _ e h
    · cases h; rfl

theorem clusterMatrix_error {A : Dense ℚ} {m : BlockMatrix} (hw : Wf A m) {e : PyErr}
    (h : clusterMatrix m = .error e) : e = .indexError := by
  obtain ⟨p1, p2⟩ := perms_ok hw
  obtain ⟨b1, b2⟩ := blocks_listed hw
  have c1 : ∀ c ∈ m.leftClusters, ∀ x ∈ c, x ∈ nodes m.original.rows m.leftBlocks m.leftPerm := by
    intro c hc x hx
    refine nodes_block hw.leftPerm ?_
    rw [hw.left, mem_blocks]
    exact ⟨c, hc, hx⟩
  have c2 : ∀ c ∈ m.rightClusters, ∀ x ∈ c, x ∈ nodes m.original.cols m.rightBlocks m.rightPerm := by
    intro c hc x hx
    refine nodes_block hw.rightPerm ?_
    rw [hw.right, mem_blocks]
    exact ⟨c, hc, hx⟩
  simp only [clusterMatrix, p1, p2, bind, Except.bind, indices_ok b1, indices_ok b2, indices_ok c1, indices_ok c2] at h
  exact paint_error _ _ _ _ h

/-- The constructed object for given shuffles. -/
theorem plot_paired {left right : List (List ℕ)} (h : Paired left right) (o : PlotOptions)
    (ht : o.transpose = false) (A : Dense ℚ) (lp rp : List ℕ) (s : Screen) :
    plotClusteredMatrix o A left right lp rp s =
      match draw o { baseObject A left right with leftPerm := lp, rightPerm := rp } with
      | .error (e, fig) => (.error e, { s with opened := s.opened ++ [fig] })
      | .ok fig => (.ok fig, finished o fig s) := by
  rw [plotClusteredMatrix, ht, new_paired h]
  change (match draw o { baseObject A left right with leftPerm := lp, rightPerm := rp } with
    | .error (e, fig) => _
    | .ok fig => _) = _
  cases draw o { baseObject A left right with leftPerm := lp, rightPerm := rp } with
  | error e => rfl
  | ok fig =>
    simp only [Prod.mk.injEq, true_and]
    rw [finished]
    congr 1
    · cases ho : o.output with
      | none => simp
      | some f =>
        funext g
        simp only [Function.update_apply, Option.some.injEq, eq_comm (a := g)]
    · rw [List.append_assoc]

theorem draw_ok {o : PlotOptions} {A M : Dense ℚ} {C : Dense ℕ} {X m : BlockMatrix} (hX : X.original = A)
    (hm : order X = .ok m) (hA : m.original = A) (hM : orderedOriginal m = .ok M) (hC : clusterMatrix m = .ok C)
    (hsome : o.unordered = true ∨ o.ordered = true ∨ o.clusters = true) :
    draw o X = .ok (panels o A M C) := by
  obtain ⟨u, od, c, t, out, sh⟩ := o
  cases u <;> cases od <;> cases c <;>
    simp [draw, drawStep, panels, hm, plotOriginalMatrix, plotMatrix, hM, hC, addLayer, hA, hX, bind,
      Except.bind, pure, Except.pure, List.replicate] at hsome ⊢

/-- C142. The figure, when the biclusters fit the matrix and at least one panel is requested: the requested
panels in the fixed order, all with the same order of rows and columns, whatever the constructor's shuffles. -/
theorem C142_figure (A : Dense ℚ) (left right : List (List ℕ)) (hp : Paired left right)
    (hf : Fits A left right) :
    ∃ rows cols M C, Lists A.rows rows ∧ Lists A.cols cols ∧ Rearranged A rows cols M ∧
      Coloured A (shownPairs left right) rows cols C ∧
      ∀ (o : PlotOptions) (lp rp : List ℕ) (s : Screen), o.transpose = false →
        (o.unordered = true ∨ o.ordered = true ∨ o.clusters = true) →
        plotClusteredMatrix o A left right lp rp s =
          (.ok (panels o A M C), finished o (panels o A M C) s) := by
  obtain ⟨m, hm, hA, hv, h1, h2⟩ := base_order hp A
  have hr := (fits_iff hA h1 h2).mp hf
  obtain ⟨rows, cols, M, e1, e2, l1, l2, hM, r1, r2, r3⟩ := C84_shown_matrix left right A m hv hr
  obtain ⟨rows', cols', C, e1', e2', hC, k1, k2, k3⟩ := C86_cluster_picture left right A m hv hr
  rw [e1] at e1'
  rw [e2] at e2'
  cases e1'
  cases e2'
  refine ⟨rows, cols, M, C, l1, l2, ⟨r1, r2, r3⟩, ⟨k1, k2, ?_⟩, ?_⟩
  · intro a ha b hb
    simp only [← covers_iff h1 h2]
    exact k3 a ha b hb
  · intro o lp rp s ht hsome
    have : draw o { baseObject A left right with leftPerm := lp, rightPerm := rp } = .ok (panels o A M C) :=
      draw_ok rfl (hm lp rp) hA hM hC hsome
    rw [plot_paired hp o ht, this]

/-- C142. The matrix alone, unordered, can be drawn whatever the biclusters are, as long as they are paired. -/
theorem C142_unordered_only (A : Dense ℚ) (left right : List (List ℕ)) (hp : Paired left right)
    (o : PlotOptions) (lp rp : List ℕ) (s : Screen) (ht : o.transpose = false)
    (h : o.unordered = true ∧ o.ordered = false ∧ o.clusters = false) :
    plotClusteredMatrix o A left right lp rp s = (.ok [[.values A]], finished o [[.values A]] s) := by
  rw [plot_paired hp o ht]
  have : draw o { baseObject A left right with leftPerm := lp, rightPerm := rp } = .ok [[.values A]] := by
    obtain ⟨u, od, c, t, out, sh⟩ := o
    obtain ⟨rfl, rfl, rfl⟩ := h
    rfl
  rw [this]

theorem draw_error {o : PlotOptions} {A : Dense ℚ} {X m : BlockMatrix}
    (hm : order X = .ok m) (hw : Wf A m) (hM : orderedOriginal m = .error .indexError)
    (hsome : o.ordered = true ∨ o.clusters = true) :
    ∃ fig, draw o X = .error (.indexError, fig) := by
  have hC : ∃ e, (∀ fig idx, plotMatrix m fig idx = .error e) ∧ e = .indexError := by
    cases hC : clusterMatrix m with
    | error e =>
      exact ⟨e, fun fig idx => by simp [plotMatrix, hC, bind, Except.bind], clusterMatrix_error hw hC⟩
    | ok C =>
      exact ⟨.indexError, fun fig idx => by simp [plotMatrix, plotOriginalMatrix, hC, hM, bind, Except.bind], rfl⟩
  obtain ⟨e, hC, rfl⟩ := hC
  obtain ⟨u, od, c, t, out, sh⟩ := o
  cases u <;> cases od <;> cases c <;>
    simp [draw, drawStep, hm, plotOriginalMatrix, hC, hM, bind, Except.bind] at hsome ⊢

/-- C142. If a bicluster does not fit the matrix, a request for an ordered panel raises `IndexError`; no file is
written, nothing is shown, and a figure is left open. -/
theorem C142_does_not_fit (A : Dense ℚ) (left right : List (List ℕ)) (hp : Paired left right)
    (hf : ¬ Fits A left right) (o : PlotOptions) (lp rp : List ℕ) (s : Screen) (ht : o.transpose = false)
    (h : o.ordered = true ∨ o.clusters = true) :
    ∃ fig, plotClusteredMatrix o A left right lp rp s =
      (.error .indexError, { s with opened := s.opened ++ [fig] }) := by
  obtain ⟨m, hm, hA, hv, h1, h2⟩ := base_order hp A
  have hr := mt (fits_iff hA h1 h2).mpr hf
  obtain ⟨fig, hfig⟩ := draw_error (o := o) (hm lp rp) (viewer_wf hv) (C84_out_of_range left right A m hv hr) h
  exact ⟨fig, by rw [plot_paired hp o ht, hfig]⟩

/-- C142. A left cluster without a right counterpart is an `IndexError` and nothing has happened. -/
theorem C142_unpaired (A : Dense ℚ) (left right : List (List ℕ)) (hp : ¬ Paired left right)
    (o : PlotOptions) (lp rp : List ℕ) (s : Screen) (ht : o.transpose = false) :
    plotClusteredMatrix o A left right lp rp s = (.error .indexError, s) := by
  have := (C84_constructor_raises_iff left right A lp rp .indexError).mpr
    ⟨rfl, not_not.mp (mt paired_iff.mpr hp)⟩
  rw [plotClusteredMatrix, ht, this]
  rfl

/-- C142. Without a panel the call raises `ValueError` and leaves an empty figure open. -/
theorem C142_no_panel (A : Dense ℚ) (left right : List (List ℕ)) (hp : Paired left right)
    (o : PlotOptions) (lp rp : List ℕ) (s : Screen) (ht : o.transpose = false)
    (h : o.unordered = false ∧ o.ordered = false ∧ o.clusters = false) :
    plotClusteredMatrix o A left right lp rp s = (.error .valueError, { s with opened := s.opened ++ [[]] }) := by
  rw [plot_paired hp o ht]
  have : draw o { baseObject A left right with leftPerm := lp, rightPerm := rp } = .error (.valueError, []) := by
    obtain ⟨u, od, c, t, out, sh⟩ := o
    obtain ⟨rfl, rfl, rfl⟩ := h
    rfl
  rw [this]

/-- C142. `transpose=True` always raises `NameError` and nothing has happened. -/
theorem C142_transpose (A : Dense ℚ) (left right : List (List ℕ)) (o : PlotOptions) (lp rp : List ℕ)
    (s : Screen) (ht : o.transpose = true) :
    plotClusteredMatrix o A left right lp rp s = (.error .nameError, s) := by
  rw [plotClusteredMatrix, if_pos ht]

/-- C142. A call that raises has written no file and shown nothing; the figures that were open still are. A call
that returns has changed at most the named file. -/
theorem C142_no_trace (A : Dense ℚ) (left right : List (List ℕ)) (o : PlotOptions) (lp rp : List ℕ)
    (s : Screen) :
    (∀ e, (plotClusteredMatrix o A left right lp rp s).1 = .error e →
      (plotClusteredMatrix o A left right lp rp s).2.files = s.files ∧
      (plotClusteredMatrix o A left right lp rp s).2.shown = s.shown ∧
      s.opened <+: (plotClusteredMatrix o A left right lp rp s).2.opened) ∧
    ∀ f, o.output ≠ some f → (plotClusteredMatrix o A left right lp rp s).2.files f = s.files f := by
  rcases ht : o.transpose with - | -
  · by_cases hp : Paired left right
    · rw [plot_paired hp o ht]
      cases draw o { baseObject A left right with leftPerm := lp, rightPerm := rp } with
      | error e => exact ⟨fun _ _ => ⟨rfl, rfl, List.prefix_append ..⟩, fun _ _ => rfl⟩
      | ok fig => exact ⟨fun e he => (by cases he), fun f hf => if_neg hf⟩
    · rw [C142_unpaired A left right hp o lp rp s ht]
      exact ⟨fun _ _ => ⟨rfl, rfl, List.prefix_rfl⟩, fun _ _ => rfl⟩
  · rw [C142_transpose A left right o lp rp s ht]
    exact ⟨fun _ _ => ⟨rfl, rfl, List.prefix_rfl⟩, fun _ _ => rfl⟩

/-- The example of C84 with two overlapping biclusters is paired and fits. -/
example : Paired [[0, 1], [1, 3], []] [[0, 2], [2]] ∧ Fits exMatrix [[0, 1], [1, 3], []] [[0, 2], [2]] := by
  constructor
  · unfold Paired; decide
  · intro c hc
    have : ∀ c ∈ ([([0, 1], [0, 2]), ([1, 3], [2])] : List (List ℕ × List ℕ)),
        (∀ x ∈ c.1, x < 4) ∧ ∀ y ∈ c.2, y < 3 := by decide
    exact this c hc

/-- A bicluster with a row outside the matrix is paired and does not fit; a missing counterpart is not paired. -/
example : Paired [[0, 4]] [[1]] ∧ ¬ Fits exMatrix [[0, 4]] [[1]] ∧ ¬ Paired [[0], [1]] [[1]] := by
  refine ⟨by unfold Paired; decide, fun h => ?_, by unfold Paired; decide⟩
  have := (h ([0, 4], [1]) (by decide)).1 4 (by decide)
  exact absurd this (by decide)

end Biclus

end Verif
