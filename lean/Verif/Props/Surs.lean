/-
Properties of frequency sampling in a reduced sample space (C76).
-/
import Verif.Spec.Surs
import Verif.Props.Trie
import Verif.Props.Overflow

namespace Verif

open RandR Cftp

/-- Expected value of the frequency sampler: rows by length, then samples of the row uniformly. -/
theorem expect_surs (space : List (Finset ℤ)) (newRows : List (List ℕ))
    (hpos : 0 < (newRows.map List.length).sum) (hlt : (newRows.map List.length).sum < 2 ^ 63)
    (f : Py (Finset ℤ) → ℝ) :
    (sursSampleOnce space newRows (sursProbas newRows)).expect f =
      (∑ i ∈ Finset.range newRows.length,
        ((newRows.getD i []).map fun id : ℕ => f (pyGet space (id : ℤ))).sum) /
        ((newRows.map List.length).sum : ℕ) := by
  have hsum : (newRows.map fun r => (r.length : ℤ)).sum = ((newRows.map List.length).sum : ℕ) := by
    rw [Nat.cast_list_sum, List.map_map]
    rfl
  obtain ⟨a1, a2, a3, a4, a5⟩ := normaliseI64_spec (ws := newRows.map fun r => (r.length : ℤ))
    (by intro x hx; obtain ⟨r, -, rfl⟩ := List.mem_map.mp hx; exact Int.natCast_nonneg _)
    (by rw [hsum]; exact_mod_cast hpos) (by rw [hsum]; exact_mod_cast hlt)
  unfold sursSampleOnce sursProbas
  rw [bind_eq, (law_npChoiceR a1 a2 a3).bind, a4, List.length_map, Finset.sum_div]
  apply Finset.sum_congr rfl
  intro i hi
  rw [Finset.mem_range] at hi
  have hw : (newRows.map fun r => (r.length : ℤ)).getD i 0 = ((newRows.getD i []).length : ℤ) := by
    rw [getD_lt (by simpa using hi), getD_lt hi]
    simp
  rw [a5, hw, hsum]
  set row := newRows.getD i [] with hrow
  by_cases h0 : row.length = 0
  · have : row = [] := List.length_eq_zero_iff.mp h0
    rw [h0, this]
    simp
  · rw [if_neg h0, bind_eq, (law_pyChoiceIdx h0).bind]
    have hl : (row.length : ℝ) ≠ 0 := by exact_mod_cast h0
    have hmap : (row.map fun id : ℕ => f (pyGet space (id : ℤ))).sum =
        ∑ j ∈ Finset.range row.length, f (pyGet space ((row.getD j 0 : ℕ) : ℤ)) := by
      rw [← sum_list_range]
      congr 1
      apply List.ext_getElem (by simp)
      intro j h1 h2
      have hj : j < row.length := by simpa using h1
      rw [List.getElem_map, List.getElem_map, List.getElem_range, getD_lt hj]
    rw [hmap, ← Finset.mul_sum]
    simp only [lift, expect, Int.cast_natCast]
    field_simp

theorem sum_count_rows {space : List (Finset ℤ)} (hnd : space.Nodup) (newRows : List (List ℕ))
    (hr : ∀ r ∈ newRows, r.Nodup ∧ ∀ id ∈ r, id < space.length) {k : ℕ} (hk : k < space.length)
    (g : Py (Finset ℤ) → ℝ) (g1 : g (.ok (space.getD k ∅)) = 1)
    (g0 : ∀ x, x ≠ .ok (space.getD k ∅) → g x = 0) :
    ∑ i ∈ Finset.range newRows.length, ((newRows.getD i []).map fun id : ℕ => g (pyGet space (id : ℤ))).sum =
      (((Finset.range newRows.length).filter fun i => k ∈ newRows.getD i []).card : ℝ) := by
  rw [Finset.card_filter]
  push_cast
  apply Finset.sum_congr rfl
  intro i hi
  rw [Finset.mem_range] at hi
  obtain ⟨h1, h2⟩ := hr (newRows.getD i []) (by rw [getD_lt hi]; exact List.getElem_mem hi)
  have hval : ∀ id ∈ newRows.getD i [], g (pyGet space (id : ℤ)) = if id = k then 1 else 0 := by
    intro id hid
    have hlt := h2 id hid
    rw [pyGet_nat space id hlt]
    split
    · rename_i he
      subst he
      rw [← getD_lt hlt ∅]
      exact g1
    · rename_i hne
      apply g0
      rw [getD_lt hk]
      intro he
      exact hne ((hnd.getElem_inj_iff).mp (Except.ok.inj he))
  rw [List.map_congr_left hval]
  generalize newRows.getD i [] = r at h1
  induction r with
  | nil => simp
  | cons a r ih =>
    rw [List.nodup_cons] at h1
    rw [List.map_cons, List.sum_cons, ih h1.2]
    by_cases ha : a = k
    · subst ha
      simp [h1.1]
    · simp [ha, Ne.symm ha]

/-- The number of assigned samples, counted by rows and by samples. -/
theorem total_assigned {n L : ℕ} {newRows : List (List ℕ)} (hlen : newRows.length = n)
    (hr : ∀ r ∈ newRows, r.Nodup ∧ ∀ id ∈ r, id < L) :
    (newRows.map List.length).sum =
      ∑ k ∈ Finset.range L, ((Finset.range n).filter fun i => k ∈ newRows.getD i []).card := by
  have h1 : (newRows.map List.length).sum = ∑ i ∈ Finset.range n, (newRows.getD i []).length := by
    subst hlen
    have : newRows.map List.length = (List.range newRows.length).map fun i => (newRows.getD i []).length := by
      apply List.ext_getElem (by simp)
      intro j h1 h2
      have hj : j < newRows.length := by simpa using h1
      rw [List.getElem_map, List.getElem_map, List.getElem_range, getD_lt hj]
    rw [this, ← List.sum_toFinset _ List.nodup_range, List.toFinset_range]
  rw [h1]
  simp only [Finset.card_filter]
  rw [Finset.sum_comm]
  apply Finset.sum_congr rfl
  intro i hi
  rw [Finset.mem_range, ← hlen] at hi
  obtain ⟨h2, h3⟩ := hr (newRows.getD i []) (by rw [getD_lt hi]; exact List.getElem_mem hi)
  rw [← Finset.card_filter, ← List.toFinset_card_of_nodup h2]
  congr 1
  ext k
  rw [List.mem_toFinset, Finset.mem_filter, Finset.mem_range]
  exact ⟨fun h => ⟨h3 k h, h⟩, And.right⟩

/-- The rows of the Trie-based assignment. -/
theorem assigned_rows (Y : Cmp) (space : List (Finset ℤ)) (hnd : space.Nodup)
    (hne : ∀ s ∈ space, s ≠ ∅) (f : Finset (Option (List ℤ)) → List (Option (List ℤ))) (hf : Traverses f) :
    ∃ newRows, trieNewRows f Y space = .ok newRows ∧ newRows.length = Y.nMajor ∧
      (∀ i < Y.nMajor, ∀ id, id ∈ newRows.getD i [] ↔ id < space.length ∧ RowContains Y i (space.getD id ∅)) ∧
      (∀ r ∈ newRows, r.Nodup ∧ ∀ id ∈ r, id < space.length) ∧
      (∀ k < space.length, ((Finset.range Y.nMajor).filter fun i => k ∈ newRows.getD i []).card =
        rowsContaining Y (space.getD k ∅)) ∧
      (newRows.map List.length).sum = ∑ s ∈ space.toFinset, rowsContaining Y s := by
  classical
  obtain ⟨newRows, hok, hlen, hmem⟩ := C40_trie_assignment_general Y space f hf
  have hids : ∀ i < Y.nMajor, ∀ id, id ∈ newRows.getD i [] ↔ id < space.length ∧ RowContains Y i (space.getD id ∅) := by
    intro i hi id
    rw [(hmem i hi).2]
    constructor
    · rintro ⟨h1, -, h2, -⟩
      exact ⟨h1, h2⟩
    · rintro ⟨h1, h2⟩
      have hin : space.getD id ∅ ∈ space := by rw [getD_lt h1]; exact List.getElem_mem h1
      refine ⟨h1, hne _ hin, h2, ?_⟩
      intro id' hlt hid' he
      rw [getD_lt hid', getD_lt h1, hnd.getElem_inj_iff] at he
      omega
  have hr : ∀ r ∈ newRows, r.Nodup ∧ ∀ id ∈ r, id < space.length := by
    intro r hrm
    obtain ⟨i, hi, rfl⟩ := List.getElem_of_mem hrm
    have hi' : i < Y.nMajor := by rw [← hlen]; exact hi
    rw [← getD_lt hi []]
    exact ⟨(hmem i hi').1, fun id hid => ((hids i hi' id).mp hid).1⟩
  have hcount : ∀ k < space.length, ((Finset.range Y.nMajor).filter fun i => k ∈ newRows.getD i []).card =
      rowsContaining Y (space.getD k ∅) := by
    intro k hk
    unfold rowsContaining
    congr 1
    ext i
    simp only [Finset.mem_filter, Finset.mem_range, and_congr_right_iff]
    intro hi
    rw [hids i hi]
    exact ⟨And.right, fun h => ⟨hk, h⟩⟩
  have htot : (newRows.map List.length).sum = ∑ s ∈ space.toFinset, rowsContaining Y s := by
    rw [total_assigned hlen hr, List.sum_toFinset _ hnd]
    have : space.map (rowsContaining Y) = (List.range space.length).map fun k => rowsContaining Y (space.getD k ∅) := by
      apply List.ext_getElem (by simp)
      intro j h1 h2
      have hj : j < space.length := by simpa using h1
      rw [List.getElem_map, List.getElem_map, List.getElem_range, getD_lt hj]
    rw [this, ← List.sum_toFinset _ List.nodup_range, List.toFinset_range]
    exact Finset.sum_congr rfl fun k hk => hcount k (Finset.mem_range.mp hk)
  exact ⟨newRows, hok, hlen, hids, hr, hcount, htot⟩

/-- **C76** With the Trie-based assignment, the frequency sampler draws each sample of its space with
probability proportional to the number of rows that contain it, and nothing else; if no row contains a
sample, drawing raises `ValueError`. -/
theorem C76_frequency_exact (Y : Cmp) (space : List (Finset ℤ)) (hnd : space.Nodup)
    (hne : ∀ s ∈ space, s ≠ ∅) (f : Finset (Option (List ℤ)) → List (Option (List ℤ))) (hf : Traverses f) :
    ∃ newRows, trieNewRows f Y space = .ok newRows ∧
      ((∃ s ∈ space, 0 < rowsContaining Y s) → ∑ s ∈ space.toFinset, rowsContaining Y s < 2 ^ 63 →
        (∀ s ∈ space, (sursSampleOnce space newRows (sursProbas newRows)).prob (.ok s) =
          (rowsContaining Y s : ℝ) / ∑ t ∈ space.toFinset, (rowsContaining Y t : ℝ)) ∧
        ∀ x, (sursSampleOnce space newRows (sursProbas newRows)).Outcome x →
          ∃ s ∈ space, 0 < rowsContaining Y s ∧ x = .ok s) ∧
      ((∀ s ∈ space, rowsContaining Y s = 0) →
        sursSampleOnce space newRows (sursProbas newRows) = .raise .valueError) := by
  classical
  obtain ⟨newRows, hok, hlen, hids, hr, hcount, htot⟩ := assigned_rows Y space hnd hne f hf
  refine ⟨newRows, hok, ?_, ?_⟩
  · rintro ⟨s₀, hs₀, hpos₀⟩ hlt
    have hpos : 0 < (newRows.map List.length).sum := by
      rw [htot]
      exact Finset.sum_pos' (fun _ _ => Nat.zero_le _) ⟨s₀, List.mem_toFinset.mpr hs₀, hpos₀⟩
    rw [← htot] at hlt
    constructor
    · intro s hs
      obtain ⟨k, hk, rfl⟩ := List.getElem_of_mem hs
      have key : ∀ g : Py (Finset ℤ) → ℝ, g (.ok (space.getD k ∅)) = 1 →
          (∀ x, x ≠ .ok (space.getD k ∅) → g x = 0) →
          (sursSampleOnce space newRows (sursProbas newRows)).expect g =
            (rowsContaining Y (space.getD k ∅) : ℝ) / ∑ t ∈ space.toFinset, (rowsContaining Y t : ℝ) := by
        intro g g1 g0
        rw [expect_surs space newRows hpos hlt, htot, sum_count_rows hnd newRows hr hk g g1 g0, hlen, hcount k hk]
        push_cast
        rfl
      rw [← getD_lt hk ∅]
      exact key _ (if_pos rfl) fun x hx => if_neg hx
    · intro x hx
      have hsum : (newRows.map fun r => (r.length : ℤ)).sum = ((newRows.map List.length).sum : ℕ) := by
        rw [Nat.cast_list_sum, List.map_map]
        rfl
      unfold sursSampleOnce at hx
      rw [bind_eq, outcome_bind] at hx
      obtain ⟨a1, a2, a3, a4, a5⟩ := normaliseI64_spec (ws := newRows.map fun r => (r.length : ℤ))
        (by intro x hx; obtain ⟨r, -, rfl⟩ := List.mem_map.mp hx; exact Int.natCast_nonneg _)
        (by rw [hsum]; exact_mod_cast hpos) (by rw [hsum]; exact_mod_cast hlt)
      have hdraw : ∀ z, (npChoiceR (sursProbas newRows)).Outcome z →
          ∃ i, z = .ok i ∧ i < newRows.length ∧ (newRows.getD i []).length ≠ 0 := by
        intro z hz
        obtain ⟨i, hi, hp, rfl⟩ := (npChoiceR_outcome a1 a2 a3).mp hz
        have hi' : i < newRows.length := by rw [a4] at hi; simpa using hi
        refine ⟨i, rfl, hi', ?_⟩
        intro h0
        rw [← getD_lt hi 0, a5, getD_lt (by simpa using hi')] at hp
        rw [getD_lt hi'] at h0
        simp [h0] at hp
      rcases hx with ⟨i, hi, hx⟩ | ⟨e, he, -⟩
      · obtain ⟨i', e', hi', h0⟩ := hdraw _ hi
        cases e'
        rw [if_neg h0, bind_eq, outcome_bind] at hx
        have hidx : ∀ z, (pyChoiceIdx (newRows.getD i []).length).Outcome z →
            ∃ j, z = .ok j ∧ j < (newRows.getD i []).length := by
          intro z hz
          unfold pyChoiceIdx at hz
          rw [if_neg h0] at hz
          obtain ⟨j, hj, -, hz⟩ := hz
          exact ⟨j, hz, by simpa using hj⟩
        rcases hx with ⟨j, hj, hx⟩ | ⟨e, he, -⟩
        · obtain ⟨j', e', hj'⟩ := hidx _ hj
          cases e'
          have hin : (newRows.getD i []).getD j 0 ∈ newRows.getD i [] := by
            rw [getD_lt hj']
            exact List.getElem_mem hj'
          have hiY : i < Y.nMajor := by rw [← hlen]; exact hi'
          obtain ⟨h1, h2⟩ := (hids i hiY _).mp hin
          rw [getD_lt h1] at h2
          refine ⟨_, List.getElem_mem h1, ?_, ?_⟩
          · unfold rowsContaining
            rw [Finset.card_pos]
            refine ⟨i, ?_⟩
            simp only [Finset.mem_filter, Finset.mem_range]
            exact ⟨hiY, h2⟩
          · have : x = pyGet space (((newRows.getD i []).getD j 0 : ℕ) : ℤ) := hx
            rw [this, pyGet_nat space _ h1]
        · obtain ⟨j, e', -⟩ := hidx _ he
          cases e'
      · obtain ⟨i, e', -⟩ := hdraw _ he
        cases e'
  · intro h0
    have hz : (newRows.map List.length).sum = 0 := by
      rw [htot]
      exact Finset.sum_eq_zero fun s hs => h0 s (List.mem_toFinset.mp hs)
    have : npChoiceR (sursProbas newRows) = .raise .valueError := by
      apply npChoiceR_bad
      right
      intro a ha
      obtain ⟨r, hrm, rfl⟩ := List.mem_map.mp ha
      have := List.sum_eq_zero_iff.mp hz r.length (List.mem_map_of_mem hrm)
      simp [this]
    unfold sursSampleOnce
    rw [this]
    rfl

/-- The rows of the example contain its samples. -/
example : ∃ s ∈ [({0, 1} : Finset ℤ), {1}], 0 < rowsContaining exampleRows s := by
  classical
  refine ⟨{1}, by simp, ?_⟩
  unfold rowsContaining
  rw [Finset.card_pos]
  refine ⟨0, ?_⟩
  simp only [Finset.mem_filter, Finset.mem_range]
  refine ⟨by decide, ?_⟩
  intro x hx
  rw [Finset.mem_singleton] at hx
  subst hx
  refine ⟨1, rfl, ?_⟩
  rw [← Cmp.mem_segIdx]
  decide

end Verif
