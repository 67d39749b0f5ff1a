/-
Lemmas about the bicluster viewer: grouping with dicts, blocks, insertion order, permutations, painting.
-/
import Verif.Spec.Biclus
import Verif.Lemmas.Py
import Verif.Lemmas.Head
import Mathlib.Data.List.Perm.Basic
import Mathlib.Data.List.Dedup

namespace Verif

namespace Biclus

/-! ### Grouping -/

section Group
variable {κ α : Type} [DecidableEq κ]

/-- All appends to an empty dict. -/
def group (l : List (κ × α)) : List (κ × List α) := l.foldl (fun d e => dictAppend d e.1 e.2) []

theorem dictAppend_keys (d : List (κ × List α)) (k : κ) (a : α) :
    (dictAppend d k a).map Prod.fst =
      if k ∈ d.map Prod.fst then d.map Prod.fst else d.map Prod.fst ++ [k] := by
  induction d with
  | nil => simp [dictAppend]
  | cons e d ih =>
    obtain ⟨k', l⟩ := e
    rw [dictAppend]
    by_cases h : k' = k
    · simp [h]
    · rw [if_neg h, List.map_cons, ih]
      by_cases hk : k ∈ d.map Prod.fst
      · rw [if_pos hk, if_pos (by simpa using Or.inr (by simpa using hk))]; rfl
      · rw [if_neg hk, if_neg]
        · rfl
        · rw [List.map_cons, List.mem_cons]
          rintro (h' | h')
          · exact h h'.symm
          · exact hk h'

theorem dictAppend_nodup {d : List (κ × List α)} (h : (d.map Prod.fst).Nodup) (k : κ) (a : α) :
    ((dictAppend d k a).map Prod.fst).Nodup := by
  rw [dictAppend_keys]
  split
  · exact h
  · rename_i hk
    rw [List.nodup_append]
    refine ⟨h, by simp, ?_⟩
    intro x hx y hy
    rw [List.mem_singleton] at hy
    rintro rfl
    exact hk (hy ▸ hx)

theorem mem_dictAppend {d : List (κ × List α)} (h : (d.map Prod.fst).Nodup) (k : κ) (a : α) (k' : κ)
    (v : List α) :
    (k', v) ∈ dictAppend d k a ↔
      (k' ≠ k ∧ (k', v) ∈ d) ∨
      (k' = k ∧ ((∃ w, (k, w) ∈ d ∧ v = w ++ [a]) ∨ (k ∉ d.map Prod.fst ∧ v = [a]))) := by
  induction d with
  | nil => simp [dictAppend]
  | cons e d ih =>
    obtain ⟨k0, l⟩ := e
    rw [List.map_cons, List.nodup_cons] at h
    have hmem : ∀ w, (k0, w) ∈ d → k0 ∈ d.map Prod.fst := fun w hw => List.mem_map.mpr ⟨_, hw, rfl⟩
    rw [dictAppend]
    by_cases hk : k0 = k
    · subst hk
      rw [if_pos rfl]
      simp only [List.mem_cons, Prod.mk.injEq, List.map_cons, true_or, not_true_eq_false, false_and, or_false,
        true_and]
      constructor
      · rintro (⟨rfl, rfl⟩ | hv)
        · exact Or.inr ⟨rfl, l, Or.inl rfl, rfl⟩
        · refine Or.inl ⟨?_, Or.inr hv⟩
          rintro rfl
          exact h.1 (hmem _ hv)
      · rintro (⟨hne, (⟨rfl, _⟩ | hv)⟩ | ⟨rfl, w, (rfl | hw), rfl⟩)
        · exact absurd rfl hne
        · exact Or.inr hv
        · exact Or.inl ⟨rfl, rfl⟩
        · exact absurd (hmem _ hw) h.1
    · rw [if_neg hk, List.mem_cons, ih h.2]
      simp only [List.mem_cons, Prod.mk.injEq, List.map_cons, not_or]
      constructor
      · rintro (⟨rfl, rfl⟩ | ⟨hne, hv⟩ | ⟨rfl, (⟨w, hw, rfl⟩ | ⟨hn, rfl⟩)⟩)
        · exact Or.inl ⟨hk, Or.inl ⟨rfl, rfl⟩⟩
        · exact Or.inl ⟨hne, Or.inr hv⟩
        · exact Or.inr ⟨rfl, Or.inl ⟨w, Or.inr hw, rfl⟩⟩
        · exact Or.inr ⟨rfl, Or.inr ⟨⟨Ne.symm hk, hn⟩, rfl⟩⟩
      · rintro (⟨hne, (⟨rfl, rfl⟩ | hv)⟩ | ⟨rfl, (⟨w, (⟨rfl, _⟩ | hw), rfl⟩ | ⟨⟨_, hn⟩, rfl⟩)⟩)
        · exact Or.inl ⟨rfl, rfl⟩
        · exact Or.inr (Or.inl ⟨hne, hv⟩)
        · exact absurd rfl hk
        · exact Or.inr (Or.inr ⟨rfl, Or.inl ⟨w, hw, rfl⟩⟩)
        · exact Or.inr (Or.inr ⟨rfl, Or.inr ⟨hn, rfl⟩⟩)

theorem group_concat (l : List (κ × α)) (e : κ × α) :
    group (l ++ [e]) = dictAppend (group l) e.1 e.2 := by
  simp [group, List.foldl_append]

theorem group_spec (l : List (κ × α)) :
    ((group l).map Prod.fst).Nodup ∧ (∀ k, k ∈ (group l).map Prod.fst ↔ k ∈ l.map Prod.fst) ∧
    ∀ k v, (k, v) ∈ group l ↔ k ∈ l.map Prod.fst ∧ v = (l.filter fun e => decide (e.1 = k)).map Prod.snd := by
  induction l using List.reverseRecOn with
  | nil => simp [group]
  | append_singleton l e ih =>
    obtain ⟨h1, h2, h3⟩ := ih
    obtain ⟨k0, a⟩ := e
    rw [group_concat]
    refine ⟨dictAppend_nodup h1 _ _, ?_, ?_⟩
    · intro k
      rw [dictAppend_keys]
      split
      · rename_i hk
        rw [h2, List.map_append, List.mem_append]
        refine ⟨Or.inl, ?_⟩
        rintro (h | h)
        · exact h
        · rw [List.map_singleton, List.mem_singleton] at h
          subst h
          exact (h2 _).mp hk
      · rw [List.mem_append, h2, List.map_append, List.mem_append]; rfl
    · intro k v
      rw [mem_dictAppend h1]
      simp only [List.filter_append, List.map_append, List.mem_append, List.map_singleton,
        List.mem_singleton]
      by_cases hk : k = k0
      · subst hk
        have hf : ([(k, a)] : List (κ × α)).filter (fun e => decide (e.1 = k)) = [(k, a)] := by simp
        rw [hf]
        simp only [ne_eq, not_true_eq_false, false_and, false_or, true_and, or_true, h3, List.map_singleton]
        constructor
        · rintro (⟨w, ⟨_, rfl⟩, rfl⟩ | ⟨hn, rfl⟩)
          · rfl
          · have : l.filter (fun e => decide (e.1 = k)) = [] := by
              rw [List.filter_eq_nil_iff]
              intro e he hek
              exact hn ((h2 _).mpr (List.mem_map.mpr ⟨e, he, by simpa using hek⟩))
            rw [this]; rfl
        · rintro rfl
          by_cases hm : k ∈ l.map Prod.fst
          · exact Or.inl ⟨_, ⟨hm, rfl⟩, rfl⟩
          · refine Or.inr ⟨fun h => hm ((h2 _).mp h), ?_⟩
            have : l.filter (fun e => decide (e.1 = k)) = [] := by
              rw [List.filter_eq_nil_iff]
              intro e he hek
              exact hm (List.mem_map.mpr ⟨e, he, by simpa using hek⟩)
            rw [this]; rfl
      · have hf : ([(k0, a)] : List (κ × α)).filter (fun e => decide (e.1 = k)) = [] := by
          simp [Ne.symm hk]
        rw [hf]
        simp [hk, h3]

theorem group_keys_nodup (l : List (κ × α)) : ((group l).map Prod.fst).Nodup := (group_spec l).1

theorem mem_group {l : List (κ × α)} {k : κ} {v : List α} :
    (k, v) ∈ group l ↔ k ∈ l.map Prod.fst ∧ v = (l.filter fun e => decide (e.1 = k)).map Prod.snd :=
  (group_spec l).2.2 k v

/-- The groups together are a rearrangement of what was appended. -/
theorem dictAppend_perm (d : List (κ × List α)) (k : κ) (a : α) :
    ((dictAppend d k a).map Prod.snd).flatten.Perm ((d.map Prod.snd).flatten ++ [a]) := by
  induction d with
  | nil => simp [dictAppend]
  | cons e d ih =>
    obtain ⟨k', l⟩ := e
    rw [dictAppend]
    by_cases h : k' = k
    · rw [if_pos h]
      simp only [List.map_cons, List.flatten_cons]
      rw [List.append_assoc, List.append_assoc]
      exact List.Perm.append_left _ List.perm_append_comm
    · rw [if_neg h]
      simp only [List.map_cons, List.flatten_cons]
      rw [List.append_assoc]
      exact List.Perm.append_left _ ih

theorem group_perm (l : List (κ × α)) : ((group l).map Prod.snd).flatten.Perm (l.map Prod.snd) := by
  induction l using List.reverseRecOn with
  | nil => simp [group]
  | append_singleton l e ih =>
    rw [group_concat, List.map_append]
    exact (dictAppend_perm _ _ _).trans (List.Perm.append_right _ ih)

end Group

/-! ### Blocks -/

/-- Index and cluster number, for every entry of every cluster. -/
def entries (clusters : List (List ℕ)) : List (ℕ × ℕ) :=
  clusters.zipIdx.flatMap fun ci => ci.1.map fun x => (x, ci.2)

theorem indexToClusters_eq (clusters : List (List ℕ)) :
    indexToClusters clusters = group (entries clusters) := by
  rw [indexToClusters, group, entries, List.foldl_flatMap]
  congr 1
  funext d ci
  rw [List.foldl_map]

/-- The cluster numbers of an index, with multiplicity. -/
def signature (clusters : List (List ℕ)) (x : ℕ) : List ℕ :=
  clusters.zipIdx.flatMap fun ci => List.replicate (ci.1.count x) ci.2

theorem filter_eq_replicate (l : List ℕ) (x i : ℕ) :
    ((l.map fun y => (y, i)).filter fun e => decide (e.1 = x)).map Prod.snd = List.replicate (l.count x) i := by
  induction l with
  | nil => rfl
  | cons y l ih =>
    rw [List.map_cons, List.filter_cons, List.count_cons]
    by_cases h : y = x
    · simp only [h, decide_true, if_true, List.map_cons, beq_self_eq_true]
      rw [ih, List.replicate_succ]
    · simp only [h, decide_false, Bool.false_eq_true, if_false, beq_iff_eq]
      rw [ih]; rfl

theorem signature_eq (clusters : List (List ℕ)) (x : ℕ) :
    ((entries clusters).filter fun e => decide (e.1 = x)).map Prod.snd = signature clusters x := by
  rw [entries, signature, List.filter_flatMap, List.map_flatMap]
  congr 1
  funext ci
  exact filter_eq_replicate _ _ _

theorem mem_entries {clusters : List (List ℕ)} {x : ℕ} :
    x ∈ (entries clusters).map Prod.fst ↔ Clustered clusters x := by
  simp only [entries, List.mem_map, List.mem_flatMap, Clustered, Prod.exists, exists_and_right, exists_eq_right,
    Prod.mk.injEq]
  constructor
  · rintro ⟨i, c, j, hc, y, hy, rfl, rfl⟩
    exact ⟨c, List.mem_zipIdx_iff_getElem?.mp hc |> List.mem_of_getElem?, hy⟩
  · rintro ⟨c, hc, hx⟩
    obtain ⟨i, hi, rfl⟩ := List.getElem_of_mem hc
    exact ⟨i, clusters[i], i, by rw [List.mem_zipIdx_iff_getElem?]; simp [hi], x, hx, rfl, rfl⟩

/-- The pairs that the second loop of `createBlocks` groups. -/
def signed (clusters : List (List ℕ)) : List (List ℕ × ℕ) :=
  (indexToClusters clusters).map fun e => (e.2, e.1)

theorem createBlocks_eq (clusters : List (List ℕ)) :
    createBlocks clusters = (group (signed clusters)).map Prod.snd := by
  rw [createBlocks, group, signed, List.foldl_map]

theorem mem_signed {clusters : List (List ℕ)} {s : List ℕ} {x : ℕ} :
    (s, x) ∈ signed clusters ↔ Clustered clusters x ∧ s = signature clusters x := by
  rw [signed, indexToClusters_eq, List.mem_map]
  constructor
  · rintro ⟨⟨k, v⟩, he, h⟩
    rw [mem_group, mem_entries, signature_eq] at he
    obtain ⟨rfl, rfl⟩ := Prod.mk.inj h
    exact he
  · rintro ⟨h, rfl⟩
    exact ⟨(x, signature clusters x), by rw [mem_group, mem_entries, signature_eq]; exact ⟨h, rfl⟩, rfl⟩

theorem blocks_perm (clusters : List (List ℕ)) :
    (createBlocks clusters).flatten.Perm ((indexToClusters clusters).map Prod.fst) := by
  rw [createBlocks_eq]
  refine (group_perm _).trans ?_
  rw [signed, List.map_map]
  exact List.Perm.refl _

theorem blocks_nodup (clusters : List (List ℕ)) : (createBlocks clusters).flatten.Nodup := by
  rw [(blocks_perm clusters).nodup_iff, indexToClusters_eq]
  exact group_keys_nodup _

theorem mem_blocks {clusters : List (List ℕ)} {x : ℕ} :
    x ∈ (createBlocks clusters).flatten ↔ Clustered clusters x := by
  rw [(blocks_perm clusters).mem_iff, indexToClusters_eq, (group_spec _).2.1, mem_entries]

/-- A block is the set of clustered indices with one signature. -/
theorem block_spec {clusters : List (List ℕ)} {B : List ℕ} :
    B ∈ createBlocks clusters ↔ ∃ x, Clustered clusters x ∧ x ∈ B ∧
      B = ((signed clusters).filter fun e => decide (e.1 = signature clusters x)).map Prod.snd := by
  rw [createBlocks_eq, List.mem_map]
  constructor
  · rintro ⟨⟨s, v⟩, he, rfl⟩
    rw [mem_group] at he
    obtain ⟨⟨s', x⟩, hx, hs⟩ := List.mem_map.mp he.1
    have hs' : s' = s := hs
    subst hs'
    obtain ⟨hc, rfl⟩ := mem_signed.mp hx
    refine ⟨x, hc, ?_, he.2⟩
    change x ∈ v
    rw [he.2]
    exact List.mem_map.mpr ⟨_, List.mem_filter.mpr ⟨hx, by simp⟩, rfl⟩
  · rintro ⟨x, hc, -, hB⟩
    refine ⟨(signature clusters x, B), mem_group.mpr ⟨?_, hB⟩, rfl⟩
    exact List.mem_map.mpr ⟨_, mem_signed.mpr ⟨hc, rfl⟩, rfl⟩

theorem mem_block {clusters : List (List ℕ)} {B : List ℕ} (hB : B ∈ createBlocks clusters) {x : ℕ} (hx : x ∈ B)
    (y : ℕ) : y ∈ B ↔ Clustered clusters y ∧ signature clusters y = signature clusters x := by
  obtain ⟨z, hz, -, rfl⟩ := block_spec.mp hB
  have key : ∀ w, w ∈ ((signed clusters).filter fun e => decide (e.1 = signature clusters z)).map Prod.snd ↔
      Clustered clusters w ∧ signature clusters w = signature clusters z := by
    intro w
    simp only [List.mem_map, List.mem_filter, decide_eq_true_eq, Prod.exists]
    constructor
    · rintro ⟨s, w', ⟨hw, rfl⟩, rfl⟩
      obtain ⟨h1, h2⟩ := mem_signed.mp hw
      exact ⟨h1, h2.symm⟩
    · rintro ⟨h1, h2⟩
      exact ⟨_, w, ⟨mem_signed.mpr ⟨h1, h2.symm⟩, rfl⟩, rfl⟩
  rw [key, ((key x).mp hx).2]

theorem block_ne_nil {clusters : List (List ℕ)} {B : List ℕ} (hB : B ∈ createBlocks clusters) : B ≠ [] := by
  obtain ⟨x, -, hx, -⟩ := block_spec.mp hB
  exact List.ne_nil_of_mem hx

theorem count_replicate_flatMap (l : List (List ℕ)) (n x j : ℕ) :
    (((l.zipIdx n).flatMap fun ci => List.replicate (ci.1.count x) ci.2).count (n + j)) =
      ((l.getD j []).count x) := by
  induction l generalizing n j with
  | nil => simp
  | cons c l ih =>
    rw [List.zipIdx_cons, List.flatMap_cons, List.count_append, List.count_replicate]
    cases j with
    | zero =>
      have : (((l.zipIdx (n + 1)).flatMap fun ci => List.replicate (ci.1.count x) ci.2).count n) = 0 := by
        rw [List.count_eq_zero]
        intro h
        obtain ⟨ci, hci, hn⟩ := List.mem_flatMap.mp h
        have := List.eq_of_mem_replicate hn
        have := List.le_snd_of_mem_zipIdx hci
        omega
      simp [this]
    | succ j =>
      have := ih (n + 1) j
      rw [show n + (j + 1) = n + 1 + j by omega, this]
      have hne : (n == n + 1 + j) = false := by
        rw [beq_eq_false_iff_ne]; omega
      simp [hne]

theorem count_signature (clusters : List (List ℕ)) (x j : ℕ) :
    (signature clusters x).count j = (clusters.getD j []).count x := by
  have := count_replicate_flatMap clusters 0 x j
  rwa [Nat.zero_add] at this

theorem signature_congr {clusters : List (List ℕ)} {x y : ℕ} :
    signature clusters x = signature clusters y ↔ ∀ c ∈ clusters, c.count x = c.count y := by
  constructor
  · intro h c hc
    obtain ⟨j, hj, rfl⟩ := List.getElem_of_mem hc
    have := congrArg (List.count j) h
    rw [count_signature, count_signature, getD_lt hj] at this
    exact this
  · intro h
    rw [signature, signature]
    apply List.flatMap_congr
    intro ci hci
    obtain ⟨c, i⟩ := ci
    rw [h c (List.mem_zipIdx_iff_getElem?.mp hci |> List.mem_of_getElem?)]

theorem same_of_signature {clusters : List (List ℕ)} {x y : ℕ}
    (h : signature clusters x = signature clusters y) : SameClusters clusters x y := by
  intro c hc
  rw [← List.count_pos_iff, ← List.count_pos_iff, signature_congr.mp h c hc]

end Biclus

end Verif
