/-
Lemmas about ordering and painting in the bicluster viewer.
-/
import Verif.Lemmas.Biclus

namespace Verif

namespace Biclus

/-! ### Lists of the first numbers -/

theorem lists_iff_perm {n : ℕ} {l : List ℕ} : Lists n l ↔ l.Perm (List.range n) := by
  constructor
  · rintro ⟨h1, h2⟩
    rw [List.perm_ext_iff_of_nodup h1 List.nodup_range]
    intro a
    rw [h2, List.mem_range]
  · intro h
    exact ⟨h.nodup_iff.mpr List.nodup_range, fun x => by rw [h.mem_iff, List.mem_range]⟩

theorem Lists.length {n : ℕ} {l : List ℕ} (h : Lists n l) : l.length = n := by
  rw [(lists_iff_perm.mp h).length_eq, List.length_range]

theorem range_map_getD {α : Type} (l : List α) (d : α) : (List.range l.length).map (fun i => l.getD i d) = l := by
  apply List.ext_getElem
  · simp
  · intro i h1 h2
    rw [List.getElem_map, List.getElem_range, getD_lt h2]

theorem Lists.map_getD {α : Type} {l : List α} {p : List ℕ} (h : Lists l.length p) (d : α) :
    (p.map fun i => l.getD i d).Perm l := by
  have := (lists_iff_perm.mp h).map (fun i => l.getD i d)
  rwa [range_map_getD] at this

/-! ### The constructor -/

theorem keepClusters_ok : ∀ {ls rs : List (List ℕ)}, (∀ i < ls.length, ls.getD i [] ≠ [] → i < rs.length) →
    keepClusters ls rs = .ok ((ls.zip rs).filter fun c => decide (c.1 ≠ [] ∧ c.2 ≠ []))
  | [], rs, _ => by simp [keepClusters]
  | [] :: ls, rs, h => by
    rw [keepClusters, keepClusters_ok (rs := rs.tail)]
    · cases rs with
      | nil => simp
      | cons r rs => simp
    · intro i hi hne
      have := h (i + 1) (by simpa using hi) (by simpa using hne)
      rw [List.length_tail]; omega
  | (x :: l) :: ls, [], h => by
    have := h 0 (by simp) (by simp)
    simp at this
  | (x :: l) :: ls, r :: rs, h => by
    rw [keepClusters, keepClusters_ok (rs := rs)]
    · simp only [bind, Except.bind, pure, Except.pure, List.zip_cons_cons, List.filter_cons]
      by_cases hr : r = [] <;> simp [hr]
    · intro i hi hne
      have := h (i + 1) (by simpa using hi) (by simpa using hne)
      simpa using this

theorem keepClusters_error : ∀ {ls rs : List (List ℕ)}, (∃ i < ls.length, ls.getD i [] ≠ [] ∧ rs.length ≤ i) →
    keepClusters ls rs = .error .indexError
  | [], rs, h => by simp at h
  | [] :: ls, rs, h => by
    rw [keepClusters]
    apply keepClusters_error
    obtain ⟨i, hi, hne, hl⟩ := h
    cases i with
    | zero => simp at hne
    | succ i => exact ⟨i, by simpa using hi, by simpa using hne, by rw [List.length_tail]; omega⟩
  | (x :: l) :: ls, [], _ => rfl
  | (x :: l) :: ls, r :: rs, h => by
    rw [keepClusters, keepClusters_error]
    · rfl
    · obtain ⟨i, hi, hne, hl⟩ := h
      cases i with
      | zero => simp at hl
      | succ i => exact ⟨i, by simpa using hi, by simpa using hne, by simpa using hl⟩

/-- The facts about an object that the constructor establishes and `order()` keeps. -/
structure Wf (A : Dense ℚ) (m : BlockMatrix) : Prop where
  original : m.original = A
  left : m.leftBlocks = createBlocks m.leftClusters
  right : m.rightBlocks = createBlocks m.rightClusters
  same : m.leftClusters.length = m.rightClusters.length
  leftPerm : Lists m.leftBlocks.length m.leftPerm
  rightPerm : Lists m.rightBlocks.length m.rightPerm

theorem new_eq {left right : List (List ℕ)} {A : Dense ℚ} {lp rp : List ℕ} {m : BlockMatrix}
    (h : BlockMatrix.new left right A lp rp = .ok m) :
    ∃ kept, keepClusters left right = .ok kept ∧
      m = { original := A, leftClusters := kept.map Prod.fst, rightClusters := kept.map Prod.snd,
            leftBlocks := createBlocks (kept.map Prod.fst), rightBlocks := createBlocks (kept.map Prod.snd),
            leftPerm := lp, rightPerm := rp } := by
  rw [BlockMatrix.new] at h
  cases hk : keepClusters left right with
  | error e => rw [hk] at h; cases h
  | ok kept =>
    rw [hk] at h
    exact ⟨kept, rfl, (Except.ok.inj h).symm⟩

theorem constructed_wf {left right : List (List ℕ)} {A : Dense ℚ} {m : BlockMatrix}
    (h : Constructed left right A m) : Wf A m := by
  obtain ⟨lp, rp, hm, h1, h2⟩ := h
  obtain ⟨kept, hk, rfl⟩ := new_eq hm
  exact ⟨rfl, rfl, rfl, by simp, h1, h2⟩

/-! ### Ordering -/

theorem gapStep_le (jac : ℕ → ℕ → ℚ) (sigma : List ℕ) (I i : ℕ) (pj : ℕ × ℚ) (hp : pj.1 ≤ sigma.length)
    (hi : i ≤ sigma.length) : (gapStep jac sigma I pj i).1 ≤ sigma.length := by
  rw [gapStep]
  split
  · exact hi
  · exact hp

theorem insertPosition_spec (jac : ℕ → ℕ → ℚ) (sigma : List ℕ) (I : ℕ) :
    insertPosition jac sigma I = 0 ∨ insertPosition jac sigma I = sigma.length ∨
      (2 ≤ insertPosition jac sigma I ∧ insertPosition jac sigma I < sigma.length) := by
  rw [insertPosition]
  have key : ∀ (l : List ℕ) (pj : ℕ × ℚ), (∀ i ∈ l, 2 ≤ i ∧ i < sigma.length) →
      (pj.1 = 0 ∨ pj.1 = sigma.length ∨ (2 ≤ pj.1 ∧ pj.1 < sigma.length)) →
      ((l.foldl (gapStep jac sigma I) pj).1 = 0 ∨ (l.foldl (gapStep jac sigma I) pj).1 = sigma.length ∨
        (2 ≤ (l.foldl (gapStep jac sigma I) pj).1 ∧ (l.foldl (gapStep jac sigma I) pj).1 < sigma.length)) := by
    intro l
    induction l with
    | nil => intro pj _ h; exact h
    | cons i l ih =>
      intro pj hl h
      rw [List.foldl_cons]
      refine ih _ (fun j hj => hl j (List.mem_cons_of_mem _ hj)) ?_
      rw [gapStep]
      split
      · exact Or.inr (Or.inr (hl i (List.mem_cons_self ..)))
      · exact h
  apply key
  · intro i hi
    obtain ⟨j, hj, rfl⟩ := List.mem_map.mp hi
    have := List.mem_range.mp hj
    omega
  · split
    · exact Or.inl rfl
    · exact Or.inr (Or.inl rfl)

theorem sortSet_perm (m : BlockMatrix) (IA IAbar : List Assoc) (items : List ℕ) :
    (sortSet m IA IAbar items).Perm items := by
  rw [sortSet]
  have key : ∀ (l sigma : List ℕ),
      (l.foldl (fun sigma I => if sigma.length < 2 then sigma ++ [I]
        else sigma.insertIdx (insertPosition (jacc IA IAbar) sigma I) I) sigma).Perm (sigma ++ l) := by
    intro l
    induction l with
    | nil => intro sigma; simp
    | cons I l ih =>
      intro sigma
      rw [List.foldl_cons]
      refine (ih _).trans ?_
      split
      · simp
      · have hle : insertPosition (jacc IA IAbar) sigma I ≤ sigma.length := by
          have := insertPosition_spec (jacc IA IAbar) sigma I
          omega
        refine ((List.perm_insertIdx I sigma hle).append_right l).trans ?_
        exact (List.perm_middle (a := I) (l₁ := sigma) (l₂ := l)).symm
  have := key (items.mergeSort fun a b =>
    decide (-(importanceScore m IA a : ℤ) ≤ -(importanceScore m IA b : ℤ))) []
  rw [List.nil_append] at this
  exact this.trans (List.mergeSort_perm _ _)

/-- The associations of non-empty blocks. -/
def assocs (clusters blocks : List (List ℕ)) : List Assoc :=
  (blocks.zipIdx.map fun bi =>
    ((List.range clusters.length).filter fun r => decide (bi.1.headD 0 ∈ clusters.getD r [])).map
      fun r => { item := bi.2, block := bi.1, role := r }).flatten

theorem associations_ok (clusters blocks : List (List ℕ)) (h : ∀ B ∈ blocks, B ≠ []) :
    associations clusters blocks = .ok (assocs clusters blocks) := by
  rw [associations]
  have : blocks.zipIdx.mapM (fun bi => assocOf clusters bi.2 bi.1) = .ok (blocks.zipIdx.map fun bi =>
      ((List.range clusters.length).filter fun r => decide (bi.1.headD 0 ∈ clusters.getD r [])).map
        fun r => { item := bi.2, block := bi.1, role := r }) := by
    apply mapM_ok_of_forall
    rintro ⟨B, b⟩ hb
    have hB := h B (List.mem_zipIdx_iff_getElem?.mp hb |> List.mem_of_getElem?)
    cases B with
    | nil => exact absurd rfl hB
    | cons x B =>
      have h0 : pyGet (x :: B) 0 = .ok x := pyGet_getD (i := 0) (by simp) 0
      rw [assocOf, h0]
      rfl
  rw [this]
  rfl

/-- What `order()` returns. -/
theorem order_ok {A : Dense ℚ} {m : BlockMatrix} (h : Wf A m) :
    order m = .ok { m with
      leftPerm := sortSet m (assocs m.leftClusters m.leftBlocks) (assocs m.rightClusters m.rightBlocks)
        (List.range m.leftBlocks.length),
      rightPerm := sortSet m (assocs m.rightClusters m.rightBlocks) (assocs m.leftClusters m.leftBlocks)
        (List.range m.rightBlocks.length) } := by
  have hl : ∀ B ∈ m.leftBlocks, B ≠ [] := fun B hB => block_ne_nil (by rw [h.left] at hB; exact hB)
  have hr : ∀ B ∈ m.rightBlocks, B ≠ [] := fun B hB => block_ne_nil (by rw [h.right] at hB; exact hB)
  rw [order, associations_ok _ _ hl, associations_ok _ _ hr]
  rfl

theorem order_wf {A : Dense ℚ} {m m' : BlockMatrix} (h : Wf A m) (hm : order m = .ok m') : Wf A m' := by
  rw [order_ok h] at hm
  cases hm
  exact ⟨h.original, h.left, h.right, h.same, lists_iff_perm.mpr (sortSet_perm _ _ _ _),
    lists_iff_perm.mpr (sortSet_perm _ _ _ _)⟩

theorem viewer_wf {left right : List (List ℕ)} {A : Dense ℚ} {m : BlockMatrix} (h : Viewer left right A m) :
    Wf A m := by
  rcases h with h | ⟨m0, h, ho⟩
  · exact constructed_wf h
  · exact order_wf (constructed_wf h) ho

theorem viewer_clusters {left right : List (List ℕ)} {A : Dense ℚ} {m : BlockMatrix}
    (h : Viewer left right A m) :
    ∃ kept, keepClusters left right = .ok kept ∧ m.leftClusters = kept.map Prod.fst ∧
      m.rightClusters = kept.map Prod.snd := by
  rcases h with h | ⟨m0, h, ho⟩
  · obtain ⟨lp, rp, hm, -, -⟩ := h
    obtain ⟨kept, hk, rfl⟩ := new_eq hm
    exact ⟨kept, hk, rfl, rfl⟩
  · rw [order_ok (constructed_wf h)] at ho
    cases ho
    obtain ⟨lp, rp, hm, -, -⟩ := h
    obtain ⟨kept, hk, rfl⟩ := new_eq hm
    exact ⟨kept, hk, rfl, rfl⟩

/-! ### Permutations of rows and columns -/

/-- The blocks in the order of `perm`, then the remaining indices. -/
def nodes (n : ℕ) (blocks : List (List ℕ)) (perm : List ℕ) : List ℕ :=
  (perm.map fun i => blocks.getD i []).flatten ++
    (List.range n).filter fun x => decide (x ∉ (perm.map fun i => blocks.getD i []).flatten)

theorem foldl_missing (base : List ℕ) : ∀ (l acc : List ℕ), l.Nodup → (∀ x ∈ l, x ∈ acc ↔ x ∈ base) →
    l.foldl (fun acc node => if node ∈ acc then acc else acc ++ [node]) acc =
      acc ++ l.filter fun x => decide (x ∉ base)
  | [], acc, _, _ => by simp
  | x :: l, acc, hn, h => by
    rw [List.nodup_cons] at hn
    rw [List.foldl_cons, List.filter_cons]
    by_cases hx : x ∈ base
    · rw [if_pos ((h x (List.mem_cons_self ..)).mpr hx)]
      simp only [hx, not_true_eq_false, decide_false, Bool.false_eq_true, if_false]
      exact foldl_missing base l acc hn.2 fun y hy => h y (List.mem_cons_of_mem _ hy)
    · rw [if_neg (fun hh => hx ((h x (List.mem_cons_self ..)).mp hh))]
      simp only [hx, not_false_eq_true, decide_true, if_true]
      rw [foldl_missing base l (acc ++ [x]) hn.2, List.append_assoc, List.singleton_append]
      intro y hy
      rw [List.mem_append, List.mem_singleton, h y (List.mem_cons_of_mem _ hy)]
      refine ⟨?_, Or.inl⟩
      rintro (h' | rfl)
      · exact h'
      · exact absurd hy hn.1

theorem nodePermutation_ok {n : ℕ} {blocks : List (List ℕ)} {perm : List ℕ} (h : Lists blocks.length perm) :
    nodePermutation n blocks perm = .ok (nodes n blocks perm) := by
  rw [nodePermutation]
  rw [mapM_ok_of_forall (g := fun i => blocks.getD i [])]
  · simp only [bind, Except.bind, pure, Except.pure]
    rw [foldl_missing _ _ _ List.nodup_range fun x _ => Iff.rfl]
    rfl
  · intro i hi
    exact pyGet_getD ((h.2 i).mp hi) []

theorem nodes_perm {blocks : List (List ℕ)} {perm : List ℕ} (h : Lists blocks.length perm) :
    (perm.map fun i => blocks.getD i []).flatten.Perm blocks.flatten := (h.map_getD []).flatten

theorem nodes_lists_iff {n : ℕ} {blocks : List (List ℕ)} {perm : List ℕ} (h : Lists blocks.length perm)
    (hb : blocks.flatten.Nodup) : Lists n (nodes n blocks perm) ↔ ∀ x ∈ blocks.flatten, x < n := by
  have hp := nodes_perm h
  constructor
  · intro hl x hx
    exact (hl.2 x).mp (List.mem_append_left _ (hp.mem_iff.mpr hx))
  · intro hx
    refine ⟨?_, ?_⟩
    · rw [nodes, List.nodup_append]
      refine ⟨hp.nodup_iff.mpr hb, List.nodup_range.filter _, ?_⟩
      rintro a ha b hb' rfl
      have := (List.mem_filter.mp hb').2
      simp only [decide_eq_true_eq] at this
      exact this ha
    · intro x
      rw [nodes, List.mem_append, List.mem_filter, List.mem_range, decide_eq_true_eq]
      constructor
      · rintro (h' | h')
        · exact hx x (hp.mem_iff.mp h')
        · exact h'.1
      · intro hlt
        by_cases hm : x ∈ (perm.map fun i => blocks.getD i []).flatten
        · exact Or.inl hm
        · exact Or.inr ⟨hlt, hm⟩

theorem nodes_cover {n x : ℕ} {blocks : List (List ℕ)} {perm : List ℕ} (hx : x < n) :
    x ∈ nodes n blocks perm := by
  rw [nodes, List.mem_append, List.mem_filter, List.mem_range, decide_eq_true_eq]
  by_cases hm : x ∈ (perm.map fun i => blocks.getD i []).flatten
  · exact Or.inl hm
  · exact Or.inr ⟨hx, hm⟩

theorem nodes_block {n x : ℕ} {blocks : List (List ℕ)} {perm : List ℕ} (h : Lists blocks.length perm)
    (hx : x ∈ blocks.flatten) : x ∈ nodes n blocks perm :=
  List.mem_append_left _ ((nodes_perm h).mem_iff.mpr hx)

theorem nodes_nodup {n : ℕ} {blocks : List (List ℕ)} {perm : List ℕ} (h : Lists blocks.length perm)
    (hb : blocks.flatten.Nodup) : (nodes n blocks perm).Nodup := by
  rw [nodes, List.nodup_append]
  refine ⟨(nodes_perm h).nodup_iff.mpr hb, List.nodup_range.filter _, ?_⟩
  rintro a ha b hb' rfl
  have := (List.mem_filter.mp hb').2
  simp only [decide_eq_true_eq] at this
  exact this ha

/-! ### Painting -/

theorem listIndex_ok {l : List ℕ} {x : ℕ} (h : x ∈ l) : listIndex l x = .ok (l.idxOf x) := if_pos h

theorem indices_ok {l : List ℕ} {cs : List (List ℕ)} (h : ∀ c ∈ cs, ∀ x ∈ c, x ∈ l) :
    (cs.mapM fun c => c.mapM (listIndex l)) = .ok (cs.map fun c => c.map l.idxOf) :=
  mapM_ok_of_forall fun c hc => mapM_ok_of_forall fun x hx => listIndex_ok (h c hc x hx)

/-- A position is in the image of a set of entries iff its entry is in the set. -/
theorem mem_map_idxOf {l c : List ℕ} (hl : l.Nodup) (hc : ∀ x ∈ c, x ∈ l) {a : ℕ} (ha : a < l.length) :
    a ∈ c.map l.idxOf ↔ l.getD a 0 ∈ c := by
  rw [List.mem_map, getD_lt ha]
  constructor
  · rintro ⟨x, hx, rfl⟩
    rw [List.getElem_idxOf]
    exact hx
  · intro h
    exact ⟨_, h, hl.idxOf_getElem a ha⟩

theorem paint_spec : ∀ (cs : List (List ℕ × List ℕ)) (i : ℕ) (M : Dense ℕ),
    (∀ c ∈ cs, (∀ a ∈ c.1, a < M.rows) ∧ ∀ b ∈ c.2, b < M.cols) →
    ∃ M', paint cs i M = .ok M' ∧ M'.rows = M.rows ∧ M'.cols = M.cols ∧
      ∀ a b, ((∀ j < cs.length, ¬ (a ∈ (cs.getD j ([], [])).1 ∧ b ∈ (cs.getD j ([], [])).2)) ∧
          M'.at_ a b = M.at_ a b) ∨
        ∃ j < cs.length, a ∈ (cs.getD j ([], [])).1 ∧ b ∈ (cs.getD j ([], [])).2 ∧ M'.at_ a b = i + j + 1 ∧
          ∀ k < cs.length, j < k → ¬ (a ∈ (cs.getD k ([], [])).1 ∧ b ∈ (cs.getD k ([], [])).2)
  | [], i, M, _ => ⟨M, rfl, rfl, rfl, fun a b => Or.inl ⟨fun j hj => absurd hj (by simp), rfl⟩⟩
  | c :: cs, i, M, h => by
    have h0 := h c (List.mem_cons_self ..)
    obtain ⟨M', hM', hr, hc, hs⟩ := paint_spec cs (i + 1)
      { M with at_ := fun a b => if a ∈ c.1 ∧ b ∈ c.2 then i + 1 else M.at_ a b }
      (fun d hd => h d (List.mem_cons_of_mem _ hd))
    refine ⟨M', ?_, hr, hc, ?_⟩
    · rw [paint, setBlock, if_pos h0]
      exact hM'
    · intro a b
      rcases hs a b with ⟨hno, hv⟩ | ⟨j, hj, ha, hb, hv, hlast⟩
      · by_cases hab : a ∈ c.1 ∧ b ∈ c.2
        · right
          refine ⟨0, by simp, by simpa using hab.1, by simpa using hab.2, ?_, ?_⟩
          · rw [hv]; simp [hab]
          · intro k hk hk0
            obtain ⟨k, rfl⟩ := Nat.exists_eq_succ_of_ne_zero (Nat.pos_iff_ne_zero.mp hk0)
            simpa using hno k (by simpa using hk)
        · left
          refine ⟨?_, by rw [hv]; simp [hab]⟩
          intro j hj
          cases j with
          | zero => simpa using hab
          | succ j => simpa using hno j (by simpa using hj)
      · right
        refine ⟨j + 1, by simpa using hj, by simpa using ha, by simpa using hb, by rw [hv]; omega, ?_⟩
        intro k hk hjk
        obtain ⟨k, rfl⟩ := Nat.exists_eq_succ_of_ne_zero (show k ≠ 0 by omega)
        simpa using hlast k (by simpa using hk) (by omega)

theorem listIndex_perm {n : ℕ} {p : List ℕ} (h : Lists n p) {i : ℕ} (hi : i < n) :
    listIndex p i = .ok (p.idxOf i) := listIndex_ok ((h.2 i).mpr hi)

/-- Painting blocks: a cell keeps its value unless some adjacent pair contains it, else it gets the colour of
such a pair. -/
theorem paintBlocks_spec {A : Dense ℚ} {m : BlockMatrix} (hm : Wf A m) (lb rb : List (List ℕ)) :
    ∀ (ps : List (ℕ × ℕ)) (M : Dense ℕ),
    (∀ ik ∈ ps, ik.1 < m.leftBlocks.length ∧ ik.2 < m.rightBlocks.length) →
    (∀ i, ∀ a ∈ lb.getD i [], a < M.rows) → (∀ k, ∀ b ∈ rb.getD k [], b < M.cols) →
    ∃ M', paintBlocks m lb rb ps M = .ok M' ∧ M'.rows = M.rows ∧ M'.cols = M.cols ∧
      ∀ a b, ((∀ ik ∈ ps, blockAdj m ik.1 ik.2 ≠ 0 → ¬ (a ∈ lb.getD ik.1 [] ∧ b ∈ rb.getD ik.2 [])) ∧
          M'.at_ a b = M.at_ a b) ∨
        ∃ ik ∈ ps, blockAdj m ik.1 ik.2 ≠ 0 ∧ a ∈ lb.getD ik.1 [] ∧ b ∈ rb.getD ik.2 [] ∧
          M'.at_ a b = if m.leftPerm.idxOf ik.1 % 2 = 0 then 1 + m.rightPerm.idxOf ik.2 % 2
            else 3 + m.rightPerm.idxOf ik.2 % 2
  | [], M, _, _, _ => ⟨M, rfl, rfl, rfl, fun a b => Or.inl ⟨fun ik h => absurd h (by simp), rfl⟩⟩
  | ik :: ps, M, h, hl, hr => by
    have h' : ∀ ik ∈ ps, ik.1 < m.leftBlocks.length ∧ ik.2 < m.rightBlocks.length :=
      fun x hx => h x (List.mem_cons_of_mem _ hx)
    rw [paintBlocks]
    by_cases hadj : blockAdj m ik.1 ik.2 ≠ 0
    · rw [if_pos hadj]
      have hi := h ik (List.mem_cons_self ..)
      have hcol : blockColour m ik.1 ik.2 = .ok (if m.leftPerm.idxOf ik.1 % 2 = 0 then
          1 + m.rightPerm.idxOf ik.2 % 2 else 3 + m.rightPerm.idxOf ik.2 % 2) := by
        rw [blockColour, listIndex_perm hm.leftPerm hi.1, listIndex_perm hm.rightPerm hi.2]
        rfl
      obtain ⟨M', hM', hrows, hcols, hs⟩ := paintBlocks_spec hm lb rb ps
        { M with at_ := fun a b => if a ∈ lb.getD ik.1 [] ∧ b ∈ rb.getD ik.2 [] then
            (if m.leftPerm.idxOf ik.1 % 2 = 0 then
              1 + m.rightPerm.idxOf ik.2 % 2 else 3 + m.rightPerm.idxOf ik.2 % 2) else M.at_ a b } h' hl hr
      refine ⟨M', ?_, hrows, hcols, ?_⟩
      · rw [hcol]
        change (do let M' ← setBlock M _ _ _; paintBlocks m lb rb ps M') = _
        rw [setBlock, if_pos ⟨hl _, hr _⟩]
        exact hM'
      · intro a b
        rcases hs a b with ⟨hno, hv⟩ | ⟨jk, hjk, h1, h2, h3, h4⟩
        · by_cases hab : a ∈ lb.getD ik.1 [] ∧ b ∈ rb.getD ik.2 []
          · refine Or.inr ⟨ik, List.mem_cons_self .., hadj, hab.1, hab.2, ?_⟩
            rw [hv]
            exact if_pos hab
          · refine Or.inl ⟨?_, ?_⟩
            · intro jk hjk
              rcases List.mem_cons.mp hjk with rfl | hjk
              · exact fun _ => hab
              · exact hno jk hjk
            · rw [hv]
              exact if_neg hab
        · exact Or.inr ⟨jk, List.mem_cons_of_mem _ hjk, h1, h2, h3, h4⟩
    · rw [if_neg hadj]
      obtain ⟨M', hM', hrows, hcols, hs⟩ := paintBlocks_spec hm lb rb ps M h' hl hr
      refine ⟨M', hM', hrows, hcols, ?_⟩
      intro a b
      rcases hs a b with ⟨hno, hv⟩ | ⟨jk, hjk, h1⟩
      · refine Or.inl ⟨?_, hv⟩
        intro jk hjk
        rcases List.mem_cons.mp hjk with rfl | hjk
        · exact fun h => absurd h hadj
        · exact hno jk hjk
      · exact Or.inr ⟨jk, List.mem_cons_of_mem _ hjk, h1⟩

end Biclus

end Verif
