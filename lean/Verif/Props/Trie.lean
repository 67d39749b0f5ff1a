/-
Properties C40-C46: sample assignment, set trie, PRETTI trie, binary search.
-/
import Verif.Lemmas.Assign
import Verif.Props.Uncovered

namespace Verif
open TNode

/-! ### Examples used below -/

/-- A 3-row label matrix with rows {0,1}, {0,1,2}, {2} over 4 columns (CSR). -/
def exampleRows : Cmp :=
  { nMajor := 3, nMinor := 4, indptr := [0, 2, 5, 6], indices := [0, 1, 0, 1, 2, 2],
    data := [1, 1, 1, 1, 1, 1] }

theorem exampleRows_binary : exampleRows.Binary :=
  { len_indptr := by decide, ptr_zero := by decide, ptr_mono := by decide, ptr_last := by decide,
    len_data := by decide, idx_lt := by decide, data_one := by decide, nodup := by decide }

/-- A sample space over these columns. -/
def exampleSpace : List (Finset ℤ) := [{0, 1}, {2}, {0, 2}]

theorem exampleOrdering : IsOrdering exampleSpace [0, 2, 1] := by
  refine ⟨by decide, ?_, by decide⟩
  intro x
  simp only [exampleSpace, List.mem_cons, List.not_mem_nil, or_false, exists_eq_or_imp,
    exists_eq_left, Finset.mem_insert, Finset.mem_singleton]
  tauto

theorem traverses_toList {α : Type} : Traverses (Finset.toList (α := α)) :=
  fun S => ⟨S.nodup_toList, fun _ => Finset.mem_toList⟩

/-- A history with inserts and batches, an empty set and a repetition. -/
def exampleHistory : List TrieOp := [.insert {1, 2}, .insertBatch [{3}, ∅], .insert {1, 2}]

/-! ### C40, C41 -/

theorem rowContains_iff_subset (Y : Cmp) (i : ℕ) (hi : i < Y.nMajor) (s : Finset ℤ) :
    s ⊆ intSet ((convertMatrixToSetsV2 Y).getD i ∅) ↔ RowContains Y i s := by
  have hl : i < (convertMatrixToSetsV2 Y).length := by simp [convertMatrixToSetsV2, hi]
  rw [getD_lt hl]
  simp only [convertMatrixToSetsV2, List.getElem_map, List.getElem_range]
  exact subset_row_iff Y i s

open Classical in
/-- **C40**, the naive assignment lists for each row, in increasing order, the ids of the samples all of
whose labels are in the row. -/
theorem C40_naive_exact (Y : Cmp) (space : List (Finset ℤ)) :
    (naiveNewRows Y space).length = Y.nMajor ∧ ∀ i < Y.nMajor, (naiveNewRows Y space)[i]? =
      some ((List.range space.length).filter fun id => decide (RowContains Y i (space.getD id ∅))) := by
  refine ⟨by simp [naiveNewRows, convertMatrixToSetsV2], ?_⟩
  intro i hi
  simp only [naiveNewRows, convertMatrixToSetsV2, List.map_map, List.getElem?_map, hi,
    List.getElem?_range, Option.map_some, Function.comp]
  congr 1
  apply List.filter_congr
  intro id _
  simp only [subset_row_iff]

/-- **C40**, in full generality (repeated and empty samples allowed, any order of set traversal): the
Trie-based assignment succeeds and gives each row, without repetition, exactly the ids of the non-empty
samples contained in the row; of several equal samples only the last id is used. -/
theorem C40_trie_assignment_general (Y : Cmp) (space : List (Finset ℤ))
    (f : Finset (Option (List ℤ)) → List (Option (List ℤ))) (hf : Traverses f) :
    ∃ newRows, trieNewRows f Y space = .ok newRows ∧ newRows.length = Y.nMajor ∧
      ∀ i < Y.nMajor, (newRows.getD i []).Nodup ∧ ∀ id, id ∈ newRows.getD i [] ↔
        id < space.length ∧ space.getD id ∅ ≠ ∅ ∧ RowContains Y i (space.getD id ∅) ∧
          ∀ id', id < id' → id' < space.length → space.getD id' ∅ ≠ space.getD id ∅ := by
  obtain ⟨t, h1, h2, h3⟩ := holds_batch holds_empty space
  rw [List.nil_append] at h2
  have hrow := fun q => row_ids h2 h3 hf q
  choose g hg using hrow
  refine ⟨(convertMatrixToSetsV2 Y).map fun s => g (intSet s), ?_, ?_, ?_⟩
  · unfold trieNewRows
    rw [h1]
    simp only [bind, Except.bind]
    rw [mapM_eq_ok_iff, List.forall₂_map_right_iff, List.forall₂_same]
    intro s _
    exact (hg (intSet s)).1
  · simp [convertMatrixToSetsV2]
  · intro i hi
    have hl : i < ((convertMatrixToSetsV2 Y).map fun s => g (intSet s)).length := by
      simp [convertMatrixToSetsV2, hi]
    rw [getD_lt hl]
    simp only [convertMatrixToSetsV2, List.map_map, List.getElem_map, List.getElem_range,
      Function.comp]
    obtain ⟨-, k2, k3⟩ := hg (intSet (pySlice Y.indices (Y.ptr i) (Y.ptr (i + 1))).toFinset)
    refine ⟨k2, fun id => ?_⟩
    rw [k3, subset_row_iff, LastId]
    tauto

/-- **C40.** For distinct non-empty samples the Trie-based assignment succeeds and gives each row the
same ids as the naive assignment, each once (possibly in another order). -/
theorem C40_trie_assignment (Y : Cmp) (space : List (Finset ℤ)) (hnd : space.Nodup)
    (hne : ∀ s ∈ space, s ≠ ∅)
    (f : Finset (Option (List ℤ)) → List (Option (List ℤ))) (hf : Traverses f) :
    ∃ newRows, trieNewRows f Y space = .ok newRows ∧ newRows.length = (naiveNewRows Y space).length ∧
      ∀ i, (newRows.getD i []).Perm ((naiveNewRows Y space).getD i []) := by
  classical
  obtain ⟨newRows, h1, h2, h3⟩ := C40_trie_assignment_general Y space f hf
  obtain ⟨h4, h5⟩ := C40_naive_exact Y space
  refine ⟨newRows, h1, by rw [h2, h4], ?_⟩
  intro i
  by_cases hi : i < Y.nMajor
  · obtain ⟨k1, k2⟩ := h3 i hi
    have hn : (naiveNewRows Y space).getD i [] =
        (List.range space.length).filter fun id => decide (RowContains Y i (space.getD id ∅)) := by
      rw [List.getD_eq_getElem?_getD, h5 i hi]; rfl
    rw [hn, List.perm_ext_iff_of_nodup k1 (List.nodup_range.filter _)]
    intro id
    rw [k2]
    simp only [List.mem_filter, List.mem_range, decide_eq_true_eq]
    constructor
    · rintro ⟨a, -, b, -⟩; exact ⟨a, b⟩
    · rintro ⟨a, b⟩
      have hm : space.getD id ∅ ∈ space := by rw [getD_lt a]; exact List.getElem_mem _
      refine ⟨a, hne _ hm, b, ?_⟩
      intro id' hlt hl' hc
      rw [getD_lt hl', getD_lt a] at hc
      have := (List.Nodup.getElem_inj_iff hnd).mp hc
      omega
  · have e1 : newRows.getD i [] = [] := by
      rw [List.getD_eq_getElem?_getD, List.getElem?_eq_none (by omega)]; rfl
    have e2 : (naiveNewRows Y space).getD i [] = [] := by
      rw [List.getD_eq_getElem?_getD, List.getElem?_eq_none (by omega)]; rfl
    rw [e1, e2]

example : ∃ newRows, trieNewRows Finset.toList exampleRows exampleSpace = .ok newRows ∧
    newRows.length = (naiveNewRows exampleRows exampleSpace).length ∧
    ∀ i, (newRows.getD i []).Perm ((naiveNewRows exampleRows exampleSpace).getD i []) :=
  C40_trie_assignment exampleRows exampleSpace (by decide) (by decide) _ traverses_toList

example : naiveNewRows exampleRows exampleSpace = [[0], [0, 1, 2], [1]] := by decide

/-- **C40**, why the samples must be non-empty: in every space the naive assignment gives an empty sample to
every row, the Trie-based one to none. -/
theorem C40_empty_sample_differs (Y : Cmp) (space : List (Finset ℤ)) (id : ℕ) (hid : id < space.length)
    (he : space.getD id ∅ = ∅) (f : Finset (Option (List ℤ)) → List (Option (List ℤ)))
    (hf : Traverses f) :
    (∀ i < Y.nMajor, id ∈ (naiveNewRows Y space).getD i []) ∧
    ∃ newRows, trieNewRows f Y space = .ok newRows ∧ ∀ i < Y.nMajor, id ∉ newRows.getD i [] := by
  obtain ⟨h4, h5⟩ := C40_naive_exact Y space
  refine ⟨?_, ?_⟩
  · intro i hi
    have h6 := h5 i hi
    rw [List.getD_eq_getElem?_getD, h6, Option.getD_some, List.mem_filter, List.mem_range]
    refine ⟨hid, ?_⟩
    simp only [he, decide_eq_true_eq]
    intro x hx
    simp at hx
  · obtain ⟨newRows, h1, h2, h3⟩ := C40_trie_assignment_general Y space f hf
    refine ⟨newRows, h1, fun i hi hm => ?_⟩
    exact (((h3 i hi).2 id).mp hm).2.1 he

example : naiveNewRows exampleRows [∅] = [[0], [0], [0]] := by decide

/-- **C41.** For any samples over valid columns (repeated and empty ones included), any matrix without
stored zeros and any frequency order, the PRETTI assignment returns exactly the naive assignment. -/
theorem C41_pretti_assignment (Y : Cmp) (h : Y.WF) (hz : Y.NoStoredZero) (space : List (Finset ℤ))
    (hv : ∀ s ∈ space, ∀ x ∈ s, 0 ≤ x ∧ x < Y.nMinor) (ordering : List ℤ)
    (ho : IsOrdering space ordering) :
    prettiNewRows Y space ordering = .ok (naiveNewRows Y space) := by
  classical
  have hlen : (buildIndex Y).length = Y.nMinor := by simp [buildIndex]
  obtain ⟨t, h1, h2⟩ := processAll_spec (buildIndex Y) ordering Y.nMajor space (PTrie.init Y.nMajor) 0
    (.mk (by simp) (by simp)) rfl (by simp [PTrie.init]) (by
      intro s hs x hx
      exact ⟨(ho.2.1 x).mpr ⟨s, hs, hx⟩, by rw [hlen]; exact hv s hs x hx⟩)
  unfold prettiNewRows
  rw [h1]
  simp only [bind, Except.bind, pure, Except.pure]
  congr 1
  obtain ⟨h4, h5⟩ := C40_naive_exact Y space
  rw [h2]
  apply List.ext_getElem
  · simp [PTrie.init, h4]
  · intro i hi1 hi2
    rw [h4] at hi2
    have h6 := h5 i hi2
    rw [List.getElem?_eq_getElem (by rw [h4]; exact hi2)] at h6
    rw [Option.some.inj h6]
    simp only [PTrie.init, List.getElem_mapIdx, List.getElem_replicate, List.nil_append, add_zero,
      List.map_id']
    apply List.filter_congr
    intro id hid
    rw [List.mem_range] at hid
    rw [decide_eq_decide]
    have hm : space.getD id ∅ ∈ space := by rw [getD_lt hid]; exact List.getElem_mem _
    constructor
    · intro hall x hx
      obtain ⟨a, b⟩ := hv _ hm x hx
      exact ⟨x.toNat, by omega, (mem_buildIndex h hz (by omega)).mp (hall x hx)⟩
    · intro hall x hx
      obtain ⟨a, b⟩ := hv _ hm x hx
      obtain ⟨j, hj, hst⟩ := hall x hx
      have : x.toNat = j := by omega
      rw [this, mem_buildIndex h hz (by omega)]
      exact hst

example : prettiNewRows exampleRows exampleSpace [0, 2, 1] = .ok [[0], [0, 1, 2], [1]] :=
  C41_pretti_assignment exampleRows exampleRows_binary.toWF exampleRows_binary.noStoredZero exampleSpace
    (by decide) _ exampleOrdering

/-- The column a sample's item stands for when it indexes the list of columns: negative items count from the
end. -/
def columnNamed (n : ℕ) (x : ℤ) : ℤ := if x < 0 then x + n else x

theorem pyGet_buildIndex (Y : Cmp) (x : ℤ) (i : ℕ) (hi : i < Y.nMajor) :
    (∃ rows, pyGet (buildIndex Y) x = .ok rows ∧ i ∈ rows) ↔
      (-(Y.nMinor : ℤ) ≤ x ∧ x < Y.nMinor) ∧ ∃ e ∈ Y.entries i, (e.1 : ℤ) = columnNamed Y.nMinor x ∧ e.2 ≠ 0 := by
  have hlen : (buildIndex Y).length = Y.nMinor := by simp [buildIndex]
  have hk : ∀ k : ℕ, k < Y.nMinor → (buildIndex Y)[k]? = some
      ((Finset.range Y.nMajor).filter fun i => ∃ e ∈ Y.entries i, e.1 = k ∧ e.2 ≠ 0) := by
    intro k hk
    simp only [buildIndex, List.getElem?_map, List.getElem?_range hk, Option.map_some]
  have hm : ∀ k : ℕ, i ∈ (Finset.range Y.nMajor).filter (fun i => ∃ e ∈ Y.entries i, e.1 = k ∧ e.2 ≠ 0) ↔
      ∃ e ∈ Y.entries i, e.1 = k ∧ e.2 ≠ 0 := by
    intro k; rw [Finset.mem_filter, Finset.mem_range]; exact ⟨fun h => h.2, fun h => ⟨hi, h⟩⟩
  unfold pyGet pyIndex
  rw [hlen]
  by_cases h0 : 0 ≤ x
  · have hc : columnNamed Y.nMinor x = x := if_neg (by omega)
    rw [if_pos h0, hc]
    by_cases h1 : x < Y.nMinor
    · rw [if_pos h1, Option.bind_some, hk _ (by omega)]
      simp only [Except.ok.injEq, exists_eq_left']
      rw [hm]
      constructor
      · rintro ⟨e, he, h2, h3⟩; exact ⟨⟨by omega, h1⟩, e, he, by omega, h3⟩
      · rintro ⟨-, e, he, h2, h3⟩; exact ⟨e, he, by omega, h3⟩
    · rw [if_neg h1]
      simp [h1]
  · have hc : columnNamed Y.nMinor x = x + Y.nMinor := if_pos (by omega)
    rw [if_neg h0, hc]
    by_cases h1 : 0 ≤ (Y.nMinor : ℤ) + x
    · rw [if_pos h1, Option.bind_some, hk _ (by omega)]
      simp only [Except.ok.injEq, exists_eq_left']
      rw [hm]
      constructor
      · rintro ⟨e, he, h2, h3⟩; exact ⟨⟨by omega, by omega⟩, e, he, by omega, h3⟩
      · rintro ⟨-, e, he, h2, h3⟩; exact ⟨e, he, by omega, h3⟩
    · rw [if_neg h1]
      simp only [Option.bind_none, reduceCtorEq, false_and, exists_false, false_iff]
      rintro ⟨⟨h2, -⟩, -⟩
      omega

/-- **C41**, for arbitrary samples and matrices. The PRETTI assignment raises `IndexError` exactly when an item
of a sample lies outside `-L, ..., L-1` (`L` columns). Otherwise each row lists, in increasing order, the ids of
the samples all of whose items stand for a column with a non-zero value stored in the row; a negative item
stands for a column counted from the end, and stored zeros do not count. -/
theorem C41_pretti_any_samples (Y : Cmp) (space : List (Finset ℤ)) (ordering : List ℤ)
    (ho : IsOrdering space ordering) :
    ((∃ s ∈ space, ∃ x ∈ s, ¬ (-(Y.nMinor : ℤ) ≤ x ∧ x < Y.nMinor)) →
      prettiNewRows Y space ordering = .error .indexError) ∧
    ((∀ s ∈ space, ∀ x ∈ s, -(Y.nMinor : ℤ) ≤ x ∧ x < Y.nMinor) →
      ∃ newRows, prettiNewRows Y space ordering = .ok newRows ∧ newRows.length = Y.nMajor ∧
        ∀ i < Y.nMajor, (newRows.getD i []).Pairwise (· < ·) ∧ ∀ id, id ∈ newRows.getD i [] ↔
          ∃ s, space[id]? = some s ∧
            ∀ x ∈ s, ∃ e ∈ Y.entries i, (e.1 : ℤ) = columnNamed Y.nMinor x ∧ e.2 ≠ 0) := by
  have hlen : (buildIndex Y).length = Y.nMinor := by simp [buildIndex]
  constructor
  · rintro ⟨s, hs, x, hx, hb⟩
    unfold prettiNewRows
    rw [processAll_error (buildIndex Y) ordering Y.nMajor space (PTrie.init Y.nMajor) 0
      (.mk (by simp) (by simp)) rfl (by simp [PTrie.init])
      (fun s hs x hx => (ho.2.1 x).mpr ⟨s, hs, hx⟩) ⟨s, hs, x, hx, ?_⟩]
    · rfl
    · rcases PNode.pyGet_cases (buildIndex Y) x with ⟨_, -, h⟩ | ⟨h, -⟩
      · rw [hlen] at h; exact absurd h hb
      · exact h
  · intro hv
    obtain ⟨t, h1, h2, h3⟩ := processAll_general (buildIndex Y) ordering Y.nMajor space
      (PTrie.init Y.nMajor) 0 (.mk (by simp) (by simp)) rfl (by simp [PTrie.init]) (by
        intro s hs x hx
        refine ⟨(ho.2.1 x).mpr ⟨s, hs, hx⟩, ?_⟩
        rcases PNode.pyGet_cases (buildIndex Y) x with ⟨rows, h, -⟩ | ⟨-, h⟩
        · exact ⟨rows, h⟩
        · rw [hlen] at h; exact absurd (hv s hs x hx) h)
    refine ⟨t.newRows, by unfold prettiNewRows; rw [h1]; rfl, h2, fun i hi => ?_⟩
    obtain ⟨l, hl1, hl2, hl3⟩ := h3 i hi
    have : (PTrie.init Y.nMajor).newRows.getD i [] = [] := by
      rw [getD_lt (by simpa [PTrie.init] using hi)]; simp [PTrie.init]
    rw [hl1, this, List.nil_append]
    refine ⟨hl2, fun id => ?_⟩
    rw [hl3]
    constructor
    · rintro ⟨j, rfl, s, hs, hx⟩
      exact ⟨s, hs, fun x hxm => ((pyGet_buildIndex Y x i hi).mp (hx x hxm)).2⟩
    · rintro ⟨s, hs, hx⟩
      refine ⟨id, rfl, s, hs, fun x hxm => (pyGet_buildIndex Y x i hi).mpr ⟨?_, hx x hxm⟩⟩
      exact hv s (List.mem_of_getElem? hs) x hxm

/-- The label `9` does not exist; the label `-1` stands for the last one. -/
example : prettiNewRows exampleRows [{9}] [9] = .error .indexError :=
  (C41_pretti_any_samples exampleRows [{9}] [9] ⟨by decide, by simp, by simp⟩).1
    ⟨{9}, by simp, 9, by simp, by decide⟩

example : prettiNewRows exampleRows [{-1}] [-1] = prettiNewRows exampleRows [{(exampleRows.nMinor : ℤ) - 1}]
    [(exampleRows.nMinor : ℤ) - 1] := by rfl

/-! ### C42-C45 -/

/-- **C42.** After any history of `insert` and `insert_batch` calls (none of which raises), `search(q)`
is true exactly when `q` is non-empty and was inserted. -/
theorem C42_search (ops : List TrieOp) : ∃ t, runTrie ops = .ok t ∧
    ∀ q : Finset ℤ, trieSearch t q = true ↔ q ≠ ∅ ∧ q ∈ inserted ops := by
  obtain ⟨t, h1, h2⟩ := holds_run ops holds_empty
  rw [List.nil_append] at h2
  refine ⟨t, h1, ?_⟩
  intro q
  unfold trieSearch
  split
  · rename_i hq
    rw [Finset.card_eq_zero] at hq
    simp [hq]
  · rename_i hq
    rw [Finset.card_eq_zero] at hq
    rw [search_spec _ _ _ h2.inv, h2.has, ne_eq, sort_eq_nil]
    constructor
    · rintro ⟨-, s, hs, hne, heq⟩
      rw [sort_inj heq]
      exact ⟨hne, hs⟩
    · rintro ⟨hne, hs⟩
      exact ⟨hne, q, hs, hne, rfl⟩

example : ∃ t, runTrie exampleHistory = .ok t ∧ trieSearch t {1, 2} = true ∧
    trieSearch t {1} = false ∧ trieSearch t ∅ = false ∧ trieSearch t {3} = true := by
  obtain ⟨t, h1, h2⟩ := C42_search exampleHistory
  refine ⟨t, h1, (h2 _).mpr (by decide), ?_, ?_, (h2 _).mpr (by decide)⟩
  · rw [← Bool.not_eq_true, h2]; decide
  · rw [← Bool.not_eq_true, h2]; decide

/-- **C43.** After any history that ends with an `insert_batch`, `search_subsets(q)` returns exactly
the inserted non-empty sets contained in `q`, as sorted tuples. -/
theorem C43_search_subsets (ops : List TrieOp) (sets : List (Finset ℤ)) :
    ∃ t, runTrie (ops ++ [.insertBatch sets]) = .ok t ∧ ∀ (q : Finset ℤ) (x : Option (List ℤ)),
      x ∈ trieSearchSubsets t q ↔
        ∃ s ∈ inserted (ops ++ [.insertBatch sets]), s ≠ ∅ ∧ s ⊆ q ∧ x = tupleOf s := by
  obtain ⟨t, h1, h2⟩ := C42_search (ops ++ [.insertBatch sets])
  exact ⟨t, h1, fun q x => holds_subsets (run_holds h1) (run_batch_full h1) q x⟩

example : ∃ t, runTrie (exampleHistory ++ [.insertBatch [{2, 5}]]) = .ok t ∧
    tupleOf {1, 2} ∈ trieSearchSubsets t {1, 2, 3} ∧ tupleOf {2, 5} ∉ trieSearchSubsets t {1, 2, 3} := by
  obtain ⟨t, h1, h2⟩ := C43_search_subsets exampleHistory [{2, 5}]
  refine ⟨t, h1, (h2 _ _).mpr ⟨{1, 2}, by decide, by decide, by decide, rfl⟩, ?_⟩
  rw [h2]
  rintro ⟨s, -, -, h3, h4⟩
  have : ({2, 5} : Finset ℤ) = s := sort_inj (Option.some.inj h4)
  subst this
  exact absurd h3 (by decide)

/-- **C43**, why `insert_batch` is needed: after plain inserts only, `search_subsets(q)` says whether
there is a subset but not which: it is `{None}` if some non-empty inserted set is contained in `q` and
empty otherwise. -/
theorem C43_without_batch (sets : List (Finset ℤ)) :
    ∃ t, runTrie (sets.map .insert) = .ok t ∧ ∀ (q : Finset ℤ) (x : Option (List ℤ)),
      x ∈ trieSearchSubsets t q ↔ x = none ∧ ∃ s ∈ sets, s ≠ ∅ ∧ s ⊆ q := by
  obtain ⟨t, h1, -⟩ := C42_search (sets.map .insert)
  have hh := run_holds h1
  have hb := run_inserts_bare h1
  have hins : inserted (sets.map .insert) = sets := by
    simp [inserted, List.flatMap_map, TrieOp.sets]
  rw [hins] at hh
  refine ⟨t, h1, fun q x => ?_⟩
  have key : x ∈ t.searchSubsetsList (q.sort (· ≤ ·)) ↔ x = none ∧ ∃ s ∈ sets, s ≠ ∅ ∧ s ⊆ q := by
    rw [subsets_bare _ _ _ hh.inv hb]
    simp only [hh.has]
    constructor
    · rintro ⟨h0, p, -, ⟨s, hs, hne, rfl⟩, hsub⟩
      exact ⟨h0, s, hs, hne, sort_sublist.mp hsub⟩
    · rintro ⟨h0, s, hs, hne, hsub⟩
      exact ⟨h0, _, by rw [ne_eq, sort_eq_nil]; exact hne, ⟨s, hs, hne, rfl⟩, sort_sublist.mpr hsub⟩
  unfold trieSearchSubsets
  split
  · exact key
  · rename_i hq
    have : q = ∅ := by rw [← Finset.card_eq_zero]; omega
    subst this
    simp only [Finset.notMem_empty, Finset.subset_empty, false_iff]
    rintro ⟨-, s, -, h1, h2⟩
    exact h1 h2

/-- **C44.** After any history that ends with an `insert_batch`, `search_supersets(q)` for a non-empty
`q` returns exactly the inserted sets that contain `q`; on an empty query it raises `ValueError`. -/
theorem C44_search_supersets (ops : List TrieOp) (sets : List (Finset ℤ)) :
    ∃ t, runTrie (ops ++ [.insertBatch sets]) = .ok t ∧
      (∀ q : Finset ℤ, q ≠ ∅ → ∃ r, trieSearchSupersets t q = .ok r ∧
        ∀ x, x ∈ r ↔ ∃ s ∈ inserted (ops ++ [.insertBatch sets]), q ⊆ s ∧ x = tupleOf s) ∧
      trieSearchSupersets t ∅ = .error .valueError := by
  obtain ⟨t, h1, h2⟩ := C42_search (ops ++ [.insertBatch sets])
  have hh := run_holds h1
  have hfull := run_batch_full h1
  refine ⟨t, h1, ?_, by simp [trieSearchSupersets]⟩
  intro q hq
  unfold trieSearchSupersets
  have hne : q.sort (· ≤ ·) ≠ [] := by rw [ne_eq, sort_eq_nil]; exact hq
  have hpw := sort_lt q
  have hsubq := fun s : Finset ℤ => sort_sublist (s := q) (t := s)
  rcases hsq : q.sort (· ≤ ·) with _ | ⟨a, as⟩
  · exact absurd hsq hne
  · rw [hsq] at hpw hsubq
    refine ⟨_, rfl, ?_⟩
    intro x
    rw [supersets_spec hh.inv hfull a as x hpw]
    simp only [hh.has, List.nil_append]
    constructor
    · rintro ⟨p, ⟨s, hs, -, rfl⟩, hsub, rfl⟩
      exact ⟨s, hs, (hsubq s).mp hsub, rfl⟩
    · rintro ⟨s, hs, hsub, rfl⟩
      refine ⟨_, ⟨s, hs, ?_, rfl⟩, (hsubq s).mpr hsub, rfl⟩
      rintro rfl
      exact hq (Finset.subset_empty.mp hsub)

example : ∃ t r, runTrie (exampleHistory ++ [.insertBatch [{2, 5}]]) = .ok t ∧
    trieSearchSupersets t {2} = .ok r ∧ tupleOf {1, 2} ∈ r ∧ tupleOf {2, 5} ∈ r := by
  obtain ⟨t, h1, h2, -⟩ := C44_search_supersets exampleHistory [{2, 5}]
  obtain ⟨r, h3, h4⟩ := h2 {2} (by decide)
  exact ⟨t, r, h1, h3, (h4 _).mpr ⟨{1, 2}, by decide, by decide, rfl⟩,
    (h4 _).mpr ⟨{2, 5}, by decide, by decide, rfl⟩⟩

/-- **C45.** No insertion raises, and two tries compare equal exactly when the same non-empty sets
were inserted, whatever the order, repetitions and grouping into batches. -/
theorem C45_equality (ops ops' : List TrieOp) : ∃ t t', runTrie ops = .ok t ∧ runTrie ops' = .ok t' ∧
    (t.beq t' = true ↔ ∀ s : Finset ℤ, s ≠ ∅ → (s ∈ inserted ops ↔ s ∈ inserted ops')) := by
  obtain ⟨t, h1, -⟩ := C42_search ops
  obtain ⟨t', h2, -⟩ := C42_search ops'
  refine ⟨t, t', h1, h2, ?_⟩
  have hh := run_holds h1
  have hh' := run_holds h2
  rw [beq_iff hh.inv t' hh'.inv (by rw [hh.root, hh'.root])]
  simp only [hh.has, hh'.has]
  constructor
  · intro h s hs
    constructor
    · intro hm
      obtain ⟨u, hu, -, he⟩ := (h (s.sort (· ≤ ·))).mp ⟨s, hm, hs, rfl⟩
      rw [sort_inj he]; exact hu
    · intro hm
      obtain ⟨u, hu, -, he⟩ := (h (s.sort (· ≤ ·))).mpr ⟨s, hm, hs, rfl⟩
      rw [sort_inj he]; exact hu
  · intro h p
    constructor
    · rintro ⟨s, hs, hne, rfl⟩; exact ⟨s, (h s hne).mp hs, hne, rfl⟩
    · rintro ⟨s, hs, hne, rfl⟩; exact ⟨s, (h s hne).mpr hs, hne, rfl⟩

/-- **C45**, for insertion sequences that are permutations of each other. -/
theorem C45_permutation (sets sets' : List (Finset ℤ)) (h : sets.Perm sets') :
    ∃ t t', runTrie (sets.map .insert) = .ok t ∧ runTrie (sets'.map .insert) = .ok t' ∧
      t.beq t' = true := by
  obtain ⟨t, t', h1, h2, h3⟩ := C45_equality (sets.map .insert) (sets'.map .insert)
  refine ⟨t, t', h1, h2, h3.mpr ?_⟩
  intro s _
  have : ∀ l : List (Finset ℤ), inserted (l.map .insert) = l := fun l => by
    simp [inserted, List.flatMap_map, TrieOp.sets]
  rw [this, this]
  exact h.mem_iff

example : ∃ t t', runTrie ([{1, 2}, {3}, {1}].map .insert) = .ok t ∧
    runTrie ([{1}, {1, 2}, {3}].map .insert) = .ok t' ∧ t.beq t' = true :=
  C45_permutation [{1, 2}, {3}, {1}] [{1}, {1, 2}, {3}] (by decide)

example : ∃ t t', runTrie [.insert {1, 2}] = .ok t ∧ runTrie [.insert {1}] = .ok t' ∧
    t.beq t' = false := by
  obtain ⟨t, t', h1, h2, h3⟩ := C45_equality [.insert {1, 2}] [.insert {1}]
  refine ⟨t, t', h1, h2, ?_⟩
  rw [← Bool.not_eq_true, h3]
  intro h
  exact absurd ((h {1} (by decide)).mpr (by decide)) (by decide)

/-! ### C46 -/

/-- **C46.** On a strictly increasing list, `binary_search(arr, x)` returns an index holding `x` if `x`
occurs and -1 otherwise; the recursion depth never exceeds `len(arr) + 1`. -/
theorem C46_binary_search (arr : List ℤ) (hs : arr.Pairwise (· < ·)) (x : ℤ) (fuel : ℕ)
    (hf : arr.length < fuel) : ∃ r, binarySearch arr x fuel = some (.ok r) ∧
      (x ∉ arr → r = -1) ∧ (x ∈ arr → 0 ≤ r ∧ arr[r.toNat]? = some x) := by
  obtain ⟨r, h1, h2⟩ := binarySearchAux_spec arr hs x fuel 0 ((arr.length : ℤ) - 1) le_rfl (by omega)
    (by omega) (by omega) (by intro i hi _; omega)
  refine ⟨r, h1, ?_, ?_⟩
  · intro hx
    rcases h2 with ⟨h2, -⟩ | ⟨i, hi, -, h3⟩
    · exact h2
    · exact absurd (h3 ▸ List.getElem_mem hi) hx
  · intro hx
    rcases h2 with ⟨-, h2⟩ | ⟨i, hi, rfl, h3⟩
    · exact absurd hx h2
    · refine ⟨by omega, ?_⟩
      rw [Int.toNat_natCast, List.getElem?_eq_getElem hi, h3]

example : binarySearch [1, 4, 6, 9] 6 5 = some (.ok 2) ∧ binarySearch [1, 4, 6, 9] 5 5 = some (.ok (-1)) ∧
    [1, 4, 6, 9].Pairwise (fun a b : ℤ => a < b) := by decide

/-! ### C36 on the rows of a label matrix -/

/-- **C36**, together with C41: the sampler whose rows were assigned by the PRETTI index returns a
sample of its space with probability proportional to the number of (row, label) pairs such that the
sample is contained in the row, the label is in the sample and is not yet covered for the row. -/
theorem C36_on_label_matrix (Y : Cmp) (h : Y.WF) (hz : Y.NoStoredZero) (space : List (Finset ℤ))
    (hnd : space.Nodup) (hv : ∀ s ∈ space, ∀ x ∈ s, 0 ≤ x ∧ x < Y.nMinor) (ordering : List ℤ)
    (ho : IsOrdering space ordering) (newRows : List (List ℕ))
    (hnew : prettiNewRows Y space ordering = .ok newRows)
    (us : List (List ℕ × List ℤ)) (st : UState)
    (hst : applyUpdates (freshSampler space newRows) us = .ok st)
    (hpos : 0 < totalArea space newRows us) (s : Finset ℤ) (hs : s ∈ space) :
    (sampleOnce st).prob (.ok s) =
      (∑ i ∈ Finset.range Y.nMajor, if s ⊆ intSet ((convertMatrixToSetsV2 Y).getD i ∅) then
        ((uncoveredPart us i s).card : ℚ) else 0) / totalArea space newRows us := by
  classical
  have hn : newRows = naiveNewRows Y space :=
    Except.ok.inj (hnew.symm.trans (C41_pretti_assignment Y h hz space hv ordering ho))
  obtain ⟨h4, h5⟩ := C40_naive_exact Y space
  have hrows : ∀ i < Y.nMajor, newRows.getD i [] =
      (List.range space.length).filter fun id => decide (RowContains Y i (space.getD id ∅)) := by
    intro i hi
    rw [hn, List.getD_eq_getElem?_getD, h5 i hi]; rfl
  have hout : ∀ i, ¬ i < Y.nMajor → newRows.getD i [] = [] := by
    intro i hi
    rw [hn, List.getD_eq_getElem?_getD, List.getElem?_eq_none (by rw [h4]; omega)]; rfl
  have hgr : ∀ i < Y.nMajor, ((convertMatrixToSetsV2 Y).map intSet).getD i ∅ =
      intSet ((convertMatrixToSetsV2 Y).getD i ∅) := by
    intro i hi
    have hl : i < (convertMatrixToSetsV2 Y).length := by simp [convertMatrixToSetsV2, hi]
    rw [getD_lt hl, getD_lt (by simpa using hl), List.getElem_map]
  have hlen : ((convertMatrixToSetsV2 Y).map intSet).length = Y.nMajor := by
    simp [convertMatrixToSetsV2]
  have := C36_in_terms_of_rows space ((convertMatrixToSetsV2 Y).map intSet) newRows
    (by rw [hlen, hn, h4]) hnd
    (by
      intro i
      by_cases hi : i < Y.nMajor
      · rw [hrows i hi]; exact List.nodup_range.filter _
      · rw [hout i hi]; exact List.nodup_nil)
    (by
      intro i hi id hid
      rw [hlen] at hi
      rw [hrows i hi, hgr i hi, rowContains_iff_subset Y i hi]
      simp [hid])
    (by
      intro i id hid
      by_cases hi : i < Y.nMajor
      · rw [hrows i hi, List.mem_filter, List.mem_range] at hid; exact hid.1
      · rw [hout i hi] at hid; simp at hid)
    us st hst hpos s hs
  rw [this, hlen]
  congr 1
  apply Finset.sum_congr rfl
  intro i hi
  rw [Finset.mem_range] at hi
  rw [hgr i hi]

/-- On the example matrix, once label 0 is covered for row 1, {0, 1} has probability 3/6. -/
example : ∃ st, applyUpdates (freshSampler exampleSpace [[0], [0, 1, 2], [1]]) [([1], [0])] = .ok st ∧
    (sampleOnce st).prob (.ok {0, 1}) = 3 / 6 := by
  obtain ⟨st, h⟩ := (C32_updates_succeed_iff exampleSpace [[0], [0, 1, 2], [1]] [([1], [0])]).mpr
    (by decide)
  refine ⟨st, h, ?_⟩
  rw [C36_on_label_matrix exampleRows exampleRows_binary.toWF exampleRows_binary.noStoredZero
    exampleSpace (by decide) (by decide) [0, 2, 1] exampleOrdering [[0], [0, 1, 2], [1]]
    (C41_pretti_assignment exampleRows exampleRows_binary.toWF exampleRows_binary.noStoredZero
      exampleSpace (by decide) _ exampleOrdering) [([1], [0])] st h (by decide) {0, 1} (by decide)]
  rw [show totalArea exampleSpace [[0], [0, 1, 2], [1]] [([1], [0])] = 6 by decide]
  have h0 : ({0, 1} : Finset ℤ) ⊆ intSet ((convertMatrixToSetsV2 exampleRows).getD 0 ∅) := by decide
  have h1 : ({0, 1} : Finset ℤ) ⊆ intSet ((convertMatrixToSetsV2 exampleRows).getD 1 ∅) := by decide
  have h2 : ¬ ({0, 1} : Finset ℤ) ⊆ intSet ((convertMatrixToSetsV2 exampleRows).getD 2 ∅) := by decide
  rw [show exampleRows.nMajor = 3 from rfl]
  simp only [Finset.sum_range_succ, Finset.sum_range_zero, h0, h1, h2, if_true, if_false]
  rw [show (uncoveredPart [([1], [0])] 0 {0, 1}).card = 2 by decide,
    show (uncoveredPart [([1], [0])] 1 {0, 1}).card = 1 by decide]
  norm_num

end Verif
