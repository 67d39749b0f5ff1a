/-
Properties C32-C39: the uncovered-area tail sampler.

`freshSampler space newRows` is the sampler right after its first `fit`; a history is a list `us` of
`update_row_weights` calls, each a list of row ids and the labels of a set.
-/
import Verif.Lemmas.Uncovered

namespace Verif
open Rand

/-! ### Concrete sampler used in the examples -/

/-- Samples {0}, {1}, {0,1} (ids 0, 1, 2). -/
def demoSpace : List (Finset ℤ) := [{0}, {1}, {0, 1}]

/-- Row 0 has labels {0, 1}, row 1 has label {1}. -/
def demoRows : List (List ℕ) := [[0, 1, 2], [1]]

/-! ### C32 -/

/-- **C32.** After fitting and any sequence of updates (that did not raise), the weight of row `i` is
its uncovered area; in particular it is not negative. There is one weight per row. -/
theorem C32_row_weights (space : List (Finset ℤ)) (newRows : List (List ℕ))
    (us : List (List ℕ × List ℤ)) (st : UState)
    (h : applyUpdates (freshSampler space newRows) us = .ok st) :
    st.weights.length = newRows.length ∧
    ∀ i < newRows.length, st.weights[i]? = some (rowArea space newRows us i : ℤ) := by
  obtain ⟨-, rfl⟩ := fresh_applyUpdates_inv h
  refine ⟨by simp [stateAfter, wsOf], fun i hi => ?_⟩
  rw [← wOf_eq_rowArea]
  simp [stateAfter, wsOf, hi]

/-- **C32.** Updates whose row ids exist never raise; an update with a non-empty set and a row id out
of range raises `IndexError`. -/
theorem C32_updates_succeed_iff (space : List (Finset ℤ)) (newRows : List (List ℕ))
    (us : List (List ℕ × List ℤ)) :
    (∃ st, applyUpdates (freshSampler space newRows) us = .ok st) ↔
      ∀ u ∈ us, u.2 = [] ∨ ∀ r ∈ u.1, r < newRows.length := by
  constructor
  · rintro ⟨st, h⟩
    exact (fresh_applyUpdates_inv h).1
  · intro h
    exact ⟨_, applyUpdates_closed space newRows us h⟩

example : ∃ st, applyUpdates (freshSampler demoSpace demoRows) [([0], [1]), ([0, 1], [1, 0])] = .ok st :=
  (C32_updates_succeed_iff _ _ _).mpr (by decide)

example : rowArea demoSpace demoRows [([0], [1])] 0 = 2 := by decide

/-! ### C33 -/

/-- **C33.** Two histories that cover the same labels for the same rows lead to the same row weights,
row probabilities and counters, and to the very same sampling program. -/
theorem C33_state_depends_on_coverage_only (space : List (Finset ℤ)) (newRows : List (List ℕ))
    (us vs : List (List ℕ × List ℤ)) (st st' : UState)
    (hu : applyUpdates (freshSampler space newRows) us = .ok st)
    (hv : applyUpdates (freshSampler space newRows) vs = .ok st')
    (hsame : ∀ i el, CoveredBy us i el ↔ CoveredBy vs i el) :
    st.weights = st'.weights ∧ st.probas = st'.probas ∧ st.counters = st'.counters ∧
      sampleOnce st = sampleOnce st' := by
  obtain ⟨-, rfl⟩ := fresh_applyUpdates_inv hu
  obtain ⟨-, rfl⟩ := fresh_applyUpdates_inv hv
  have hc : coveredElems us = coveredElems vs := by
    funext i
    ext el
    rw [mem_coveredElems, mem_coveredElems, hsame]
  have hw : (stateAfter space newRows us).weights = (stateAfter space newRows vs).weights := by
    simp [stateAfter, hc]
  have hp : (stateAfter space newRows us).probas = (stateAfter space newRows vs).probas := by
    simp [stateAfter, hc]
  refine ⟨hw, hp, by simp [stateAfter, hc], ?_⟩
  unfold sampleOnce
  rw [hp]
  have : sampleItemsetFromRow (stateAfter space newRows us) =
      sampleItemsetFromRow (stateAfter space newRows vs) := by
    funext i
    have hsw : sampleWeights (stateAfter space newRows us) i =
        sampleWeights (stateAfter space newRows vs) i := by
      simp [sampleWeights, stateAfter, hc]
    unfold sampleItemsetFromRow
    rw [hsw, hw]
    rfl
  rw [this]

/-- **C33.** The order of the updates is irrelevant. -/
theorem C33_updates_commute (space : List (Finset ℤ)) (newRows : List (List ℕ))
    (us vs : List (List ℕ × List ℤ)) (hperm : us.Perm vs) (st : UState)
    (hu : applyUpdates (freshSampler space newRows) us = .ok st) :
    ∃ st', applyUpdates (freshSampler space newRows) vs = .ok st' ∧
      st.weights = st'.weights ∧ st.probas = st'.probas ∧ st.counters = st'.counters ∧
      sampleOnce st = sampleOnce st' := by
  have hok : ∀ u ∈ vs, UpdateOk newRows u := fun u hu' =>
    (fresh_applyUpdates_inv hu).1 u (hperm.mem_iff.mpr hu')
  have hv := applyUpdates_closed space newRows vs hok
  refine ⟨_, hv, C33_state_depends_on_coverage_only space newRows us vs st _ hu hv ?_⟩
  intro i el
  simp only [CoveredBy, hperm.mem_iff]

/-- **C33.** Repeating an update that has already been made changes nothing. -/
theorem C33_update_idempotent (space : List (Finset ℤ)) (newRows : List (List ℕ))
    (us : List (List ℕ × List ℤ)) (u : List ℕ × List ℤ) (hmem : u ∈ us) (st : UState)
    (hu : applyUpdates (freshSampler space newRows) us = .ok st) :
    ∃ st', updateRowWeights st u.1 u.2 = .ok st' ∧
      st.weights = st'.weights ∧ st.probas = st'.probas ∧ st.counters = st'.counters ∧
      sampleOnce st = sampleOnce st' := by
  obtain ⟨hok, rfl⟩ := fresh_applyUpdates_inv hu
  refine ⟨_, update_closed space newRows us u (hok u hmem), ?_⟩
  have hv := applyUpdates_closed space newRows (us ++ [u]) (by
    intro v hv
    rw [List.mem_append, List.mem_singleton] at hv
    rcases hv with hv | rfl
    · exact hok v hv
    · exact hok v hmem)
  refine C33_state_depends_on_coverage_only space newRows us _ _ _ hu hv ?_
  intro i el
  simp only [CoveredBy, List.mem_append, List.mem_singleton]
  constructor
  · rintro ⟨v, h1, h2⟩; exact ⟨v, Or.inl h1, h2⟩
  · rintro ⟨v, h1 | rfl, h2⟩
    · exact ⟨v, h1, h2⟩
    · exact ⟨v, hmem, h2⟩

example : ∃ st st', applyUpdates (freshSampler demoSpace demoRows) [([0], [1]), ([1], [1])] = .ok st ∧
    applyUpdates (freshSampler demoSpace demoRows) [([1], [1]), ([0], [1])] = .ok st' ∧
    sampleOnce st = sampleOnce st' := by
  obtain ⟨st, h⟩ := (C32_updates_succeed_iff demoSpace demoRows [([0], [1]), ([1], [1])]).mpr (by decide)
  obtain ⟨st', h', -, -, -, h''⟩ := C33_updates_commute _ _ _ [([1], [1]), ([0], [1])]
    (List.Perm.swap _ _ _) st h
  exact ⟨st, st', h, h', h''⟩

/-! ### C37 (used below) -/

theorem ws_eq (space : List (Finset ℤ)) (newRows : List (List ℕ)) (us : List (List ℕ × List ℤ)) :
    wsOf space newRows (coveredElems us) =
      (List.range newRows.length).map fun i => (rowArea space newRows us i : ℤ) := by
  unfold wsOf
  apply List.map_congr_left
  intro i _
  exact wOf_eq_rowArea space newRows us i

theorem ws_sum (space : List (Finset ℤ)) (newRows : List (List ℕ)) (us : List (List ℕ × List ℤ)) :
    (wsOf space newRows (coveredElems us)).sum = (totalArea space newRows us : ℤ) := by
  rw [ws_eq, totalArea]
  push_cast
  rw [Finset.sum_range]
  rw [← List.sum_ofFn]
  congr 1
  apply List.ext_getElem <;> simp

/-- **C37.** After fit and any history, the row probabilities of a sampler with at least one row are
non-negative and sum to 1; they are uniform when everything is covered, and proportional to the
uncovered area of the rows otherwise. -/
theorem C37_row_probabilities (space : List (Finset ℤ)) (newRows : List (List ℕ))
    (us : List (List ℕ × List ℤ)) (st : UState)
    (h : applyUpdates (freshSampler space newRows) us = .ok st) (hne : newRows ≠ []) :
    st.probas.length = newRows.length ∧ (∀ q ∈ st.probas, 0 ≤ q) ∧ st.probas.sum = 1 ∧
    (totalArea space newRows us = 0 → ∀ q ∈ st.probas, q = 1 / newRows.length) ∧
    (totalArea space newRows us ≠ 0 → ∀ i < newRows.length,
      st.probas[i]? = some ((rowArea space newRows us i : ℚ) / totalArea space newRows us)) := by
  obtain ⟨-, rfl⟩ := fresh_applyUpdates_inv h
  have hpos : 0 < newRows.length := List.length_pos_of_ne_nil hne
  simp only [stateAfter]
  have hlen : (wsOf space newRows (coveredElems us)).length = newRows.length := by simp [wsOf]
  unfold rowProbas
  rw [ws_sum, hlen]
  simp only [Int.natCast_eq_zero]
  by_cases h0 : totalArea space newRows us = 0
  · rw [if_pos h0]
    refine ⟨by simp, ?_, ?_, ?_, fun h => absurd h0 h⟩
    · intro q hq
      rw [List.eq_of_mem_replicate hq]
      positivity
    · rw [List.sum_replicate, nsmul_eq_mul]
      field_simp
    · intro _ q hq
      exact List.eq_of_mem_replicate hq
  · rw [if_neg h0]
    have ht : (0 : ℚ) < (totalArea space newRows us : ℚ) := by
      exact_mod_cast Nat.pos_of_ne_zero h0
    refine ⟨by simp [hlen], ?_, ?_, fun h => absurd h h0, ?_⟩
    · intro q hq
      obtain ⟨w, hw, rfl⟩ := List.mem_map.mp hq
      rw [ws_eq] at hw
      obtain ⟨i, -, rfl⟩ := List.mem_map.mp hw
      positivity
    · have : ((wsOf space newRows (coveredElems us)).map fun w : ℤ =>
          (w : ℚ) / (((totalArea space newRows us : ℕ) : ℤ) : ℚ)).sum =
          (((wsOf space newRows (coveredElems us)).sum : ℤ) : ℚ) / (totalArea space newRows us : ℚ) := by
        simp only [div_eq_mul_inv]
        rw [List.sum_map_mul_right]
        push_cast
        rfl
      rw [this, ws_sum]
      push_cast
      exact div_self ht.ne'
    · intro _ i hi
      rw [ws_eq]
      simp [hi]

example : ∃ st, applyUpdates (freshSampler demoSpace demoRows) [([0, 1], [0, 1])] = .ok st ∧
    st.probas.sum = 1 := by
  obtain ⟨st, h⟩ := (C32_updates_succeed_iff demoSpace demoRows [([0, 1], [0, 1])]).mpr (by decide)
  exact ⟨st, h, (C37_row_probabilities _ _ _ _ h (by decide)).2.2.1⟩

/-! ### C34 -/

theorem rowArea_eq_zero_iff (space : List (Finset ℤ)) (newRows : List (List ℕ))
    (us : List (List ℕ × List ℤ)) (i : ℕ) :
    rowArea space newRows us i = 0 ↔
      ∀ id ∈ newRows.getD i [], ∀ el ∈ space.getD id ∅, CoveredBy us i el := by
  unfold rowArea
  rw [List.sum_eq_zero_iff]
  simp only [List.mem_map, forall_exists_index, and_imp, forall_apply_eq_imp_iff₂,
    Finset.card_eq_zero]
  constructor
  · intro h id hid el hel
    by_contra hc
    have : el ∈ uncoveredPart us i (space.getD id ∅) := by
      simp only [uncoveredPart, Finset.mem_filter]; exact ⟨hel, hc⟩
    rw [h id hid] at this
    simp at this
  · intro h id hid
    rw [Finset.eq_empty_iff_forall_notMem]
    intro el hel
    simp only [uncoveredPart, Finset.mem_filter] at hel
    exact hel.2 (h id hid el hel.1)

theorem rowWeights_sum (space : List (Finset ℤ)) (newRows : List (List ℕ))
    (us : List (List ℕ × List ℤ)) (i : ℕ) :
    (((newRows.getD i []).map fun id => ((uncoveredPart us i (space.getD id ∅)).card : ℚ)).sum) =
      (rowArea space newRows us i : ℚ) := by
  rw [rowArea]; push_cast [List.map_map]; rfl

theorem rowWeights_nonneg (space : List (Finset ℤ)) (newRows : List (List ℕ))
    (us : List (List ℕ × List ℤ)) (i : ℕ) :
    ∀ q ∈ ((newRows.getD i []).map fun id => ((uncoveredPart us i (space.getD id ∅)).card : ℚ)),
      0 ≤ q := by
  intro q hq
  obtain ⟨id, -, rfl⟩ := List.mem_map.mp hq
  positivity

theorem outcome_row (space : List (Finset ℤ)) (newRows : List (List ℕ))
    (us : List (List ℕ × List ℤ)) (i : ℕ) (hi : i < newRows.length) (x : Py (Finset ℤ)) :
    (sampleItemsetFromRow (stateAfter space newRows us) i).Outcome x ↔
      if rowArea space newRows us i = 0 then x = .error .noMoreSamples
      else ∃ id ∈ newRows.getD i [], (uncoveredPart us i (space.getD id ∅)).Nonempty ∧
        x = .ok (space.getD id ∅) := by
  rw [sampleRow_closed space newRows us i hi]
  split
  · simp
  · rename_i h0
    have hs : 0 < (((newRows.getD i []).map fun id =>
        ((uncoveredPart us i (space.getD id ∅)).card : ℚ)).sum) := by
      rw [rowWeights_sum]; exact_mod_cast Nat.pos_of_ne_zero h0
    rw [outcome_bind]
    simp only [outcome_normalised (rowWeights_nonneg space newRows us i) hs, outcome_done]
    constructor
    · rintro (⟨j, ⟨k, hk, hpos, hjk⟩, hx⟩ | ⟨e, ⟨k, hk, hpos, hjk⟩, -⟩)
      · simp only [Except.ok.injEq] at hjk
        subst hjk
        simp only [List.length_map] at hk
        refine ⟨(newRows.getD i [])[j], List.getElem_mem hk, ?_, ?_⟩
        · rw [← Finset.card_pos]
          rw [List.getD_eq_getElem?_getD, List.getElem?_eq_getElem (by simpa using hk)] at hpos
          simp only [List.getElem_map, Option.getD_some] at hpos
          exact_mod_cast hpos
        · rw [hx, getD_lt hk]
      · cases hjk
    · rintro ⟨id, hid, hne, rfl⟩
      obtain ⟨j, hj, rfl⟩ := List.getElem_of_mem hid
      left
      refine ⟨j, ⟨j, by simpa using hj, ?_, rfl⟩, ?_⟩
      · rw [List.getD_eq_getElem?_getD, List.getElem?_eq_getElem (by simpa using hj)]
        simp only [List.getElem_map, Option.getD_some]
        exact_mod_cast Finset.card_pos.mpr hne
      · rw [getD_lt hj]

/-- **C34.** After fit and any history, sampling from an existing row: if every label of every sample
of the row is covered, the only outcome is `NoMoreSamples`; otherwise the call always returns. The
consistency exception (or any other) never occurs. -/
theorem C34_sample_from_row (space : List (Finset ℤ)) (newRows : List (List ℕ))
    (us : List (List ℕ × List ℤ)) (st : UState)
    (h : applyUpdates (freshSampler space newRows) us = .ok st) (i : ℕ) (hi : i < newRows.length)
    (x : Py (Finset ℤ)) (hx : (sampleItemsetFromRow st i).Outcome x) :
    ((∀ id ∈ newRows.getD i [], ∀ el ∈ space.getD id ∅, CoveredBy us i el) →
      x = .error .noMoreSamples) ∧
    ((∃ id ∈ newRows.getD i [], ∃ el ∈ space.getD id ∅, ¬ CoveredBy us i el) → ∃ s, x = .ok s) := by
  obtain ⟨-, rfl⟩ := fresh_applyUpdates_inv h
  rw [outcome_row space newRows us i hi] at hx
  constructor
  · intro hall
    rwa [if_pos ((rowArea_eq_zero_iff space newRows us i).mpr hall)] at hx
  · rintro ⟨id, hid, el, hel, hc⟩
    rw [if_neg (fun h0 => hc ((rowArea_eq_zero_iff space newRows us i).mp h0 id hid el hel))] at hx
    obtain ⟨id', -, -, hx⟩ := hx
    exact ⟨_, hx⟩

theorem outcome_probas (space : List (Finset ℤ)) (newRows : List (List ℕ))
    (us : List (List ℕ × List ℤ)) (hne : newRows ≠ []) (x : Py ℕ) :
    (npChoice (stateAfter space newRows us).probas).Outcome x ↔
      ∃ i < newRows.length, x = .ok i ∧
        (totalArea space newRows us = 0 ∨ 0 < rowArea space newRows us i) := by
  have hok : applyUpdates (stateAfter space newRows us) [] = .ok (stateAfter space newRows us) := rfl
  have hpos : 0 < newRows.length := List.length_pos_of_ne_nil hne
  have hprob : (stateAfter space newRows us).probas =
      rowProbas (wsOf space newRows (coveredElems us)) := rfl
  rw [hprob, rowProbas, ws_sum]
  simp only [Int.natCast_eq_zero]
  by_cases h0 : totalArea space newRows us = 0
  · rw [if_pos h0]
    have hlen : (wsOf space newRows (coveredElems us)).length = newRows.length := by simp [wsOf]
    have := outcome_uniformIdx (n := newRows.length) (by omega) x
    rw [uniformIdx, if_neg (by omega)] at this
    rw [hlen, npChoice_ok]
    · rw [this]
      simp [h0]
    · intro h; rw [List.replicate_eq_nil_iff] at h; omega
    · intro q hq
      rw [List.eq_of_mem_replicate hq]
      positivity
    · rw [List.sum_replicate, nsmul_eq_mul]
      field_simp
  · rw [if_neg h0, ws_eq]
    have e : (((List.range newRows.length).map fun i => (rowArea space newRows us i : ℤ)).map fun w : ℤ =>
        (w : ℚ) / (((totalArea space newRows us : ℕ) : ℤ) : ℚ)) =
        (((List.range newRows.length).map fun i => (rowArea space newRows us i : ℚ))).map
          (· / (((List.range newRows.length).map fun i => (rowArea space newRows us i : ℚ))).sum) := by
      have : (((List.range newRows.length).map fun i => (rowArea space newRows us i : ℚ))).sum =
          (totalArea space newRows us : ℚ) := by
        have := congrArg (Int.cast (R := ℚ)) (ws_sum space newRows us)
        rw [ws_eq] at this
        push_cast [List.map_map] at this
        rw [← this]
        rfl
      rw [this, List.map_map, List.map_map]
      rfl
    have hsum : (0 : ℚ) < (((List.range newRows.length).map fun i => (rowArea space newRows us i : ℚ))).sum := by
      have := congrArg (Int.cast (R := ℚ)) (ws_sum space newRows us)
      rw [ws_eq] at this
      push_cast [List.map_map] at this
      have h2 : (0 : ℚ) < (totalArea space newRows us : ℚ) := by exact_mod_cast Nat.pos_of_ne_zero h0
      rw [← this] at h2
      exact h2
    rw [e, outcome_normalised ?_ hsum]
    · simp only [List.length_map, List.length_range]
      constructor
      · rintro ⟨i, hi, hp, rfl⟩
        refine ⟨i, hi, rfl, Or.inr ?_⟩
        rw [List.getD_eq_getElem?_getD, List.getElem?_eq_getElem (by simpa using hi)] at hp
        simpa using hp
      · rintro ⟨i, hi, rfl, hp⟩
        refine ⟨i, hi, ?_, rfl⟩
        rw [List.getD_eq_getElem?_getD, List.getElem?_eq_getElem (by simpa using hi)]
        simpa [h0] using hp
    · intro q hq
      obtain ⟨i, -, rfl⟩ := List.mem_map.mp hq
      positivity

theorem totalArea_eq_zero_iff (space : List (Finset ℤ)) (newRows : List (List ℕ))
    (us : List (List ℕ × List ℤ)) :
    totalArea space newRows us = 0 ↔ ∀ i < newRows.length, rowArea space newRows us i = 0 := by
  unfold totalArea
  rw [Finset.sum_eq_zero_iff]
  simp

/-- The outcomes of `sample_once` after any history. -/
theorem outcome_once (space : List (Finset ℤ)) (newRows : List (List ℕ))
    (us : List (List ℕ × List ℤ)) (hne : newRows ≠ []) (x : Py (Finset ℤ)) :
    (sampleOnce (stateAfter space newRows us)).Outcome x ↔
      if totalArea space newRows us = 0 then x = .error .noMoreSamples
      else ∃ i < newRows.length, ∃ id ∈ newRows.getD i [],
        (uncoveredPart us i (space.getD id ∅)).Nonempty ∧ x = .ok (space.getD id ∅) := by
  have hpos : 0 < newRows.length := List.length_pos_of_ne_nil hne
  unfold sampleOnce
  rw [monad_bind, outcome_bind]
  simp only [outcome_probas space newRows us hne]
  split
  · rename_i h0
    have h0' := (totalArea_eq_zero_iff space newRows us).mp h0
    constructor
    · rintro (⟨j, ⟨i, hi, hij, -⟩, hx⟩ | ⟨e, ⟨i, hi, hij, -⟩, -⟩)
      · simp only [Except.ok.injEq] at hij
        subst hij
        rwa [outcome_row space newRows us j hi, if_pos (h0' j hi)] at hx
      · cases hij
    · rintro rfl
      left
      refine ⟨0, ⟨0, hpos, rfl, Or.inl h0⟩, ?_⟩
      rw [outcome_row space newRows us 0 hpos, if_pos (h0' 0 hpos)]
  · rename_i h0
    constructor
    · rintro (⟨j, ⟨i, hi, hij, hp⟩, hx⟩ | ⟨e, ⟨i, hi, hij, -⟩, -⟩)
      · simp only [Except.ok.injEq] at hij
        subst hij
        have hp' := hp.resolve_left h0
        rw [outcome_row space newRows us j hi, if_neg (by omega)] at hx
        exact ⟨j, hi, hx⟩
      · cases hij
    · rintro ⟨i, hi, id, hid, hne', hx⟩
      have hra : rowArea space newRows us i ≠ 0 := by
        intro hz
        obtain ⟨el, hel⟩ := hne'
        simp only [uncoveredPart, Finset.mem_filter] at hel
        exact hel.2 ((rowArea_eq_zero_iff space newRows us i).mp hz id hid el hel.1)
      left
      refine ⟨i, ⟨i, hi, rfl, Or.inr (Nat.pos_of_ne_zero hra)⟩, ?_⟩
      rw [outcome_row space newRows us i hi, if_neg hra]
      exact ⟨id, hid, hne', hx⟩

/-- **C34.** `sample_once` on a sampler with at least one row raises `NoMoreSamples` with certainty
when every label of every sample is covered for every row, and otherwise always returns; no other
exception is possible. -/
theorem C34_sample_once (space : List (Finset ℤ)) (newRows : List (List ℕ))
    (us : List (List ℕ × List ℤ)) (st : UState)
    (h : applyUpdates (freshSampler space newRows) us = .ok st) (hne : newRows ≠ [])
    (x : Py (Finset ℤ)) (hx : (sampleOnce st).Outcome x) :
    ((∀ i < newRows.length, ∀ id ∈ newRows.getD i [], ∀ el ∈ space.getD id ∅, CoveredBy us i el) →
      x = .error .noMoreSamples) ∧
    ((∃ i < newRows.length, ∃ id ∈ newRows.getD i [], ∃ el ∈ space.getD id ∅, ¬ CoveredBy us i el) →
      ∃ s, x = .ok s) := by
  obtain ⟨-, rfl⟩ := fresh_applyUpdates_inv h
  rw [outcome_once space newRows us hne] at hx
  constructor
  · intro hall
    rwa [if_pos ((totalArea_eq_zero_iff space newRows us).mpr fun i hi =>
      (rowArea_eq_zero_iff space newRows us i).mpr (hall i hi))] at hx
  · rintro ⟨i, hi, id, hid, el, hel, hc⟩
    rw [if_neg] at hx
    · obtain ⟨-, -, id', -, -, hx⟩ := hx
      exact ⟨_, hx⟩
    · intro h0
      exact hc ((rowArea_eq_zero_iff space newRows us i).mp
        ((totalArea_eq_zero_iff space newRows us).mp h0 i hi) id hid el hel)

example : ∃ st, applyUpdates (freshSampler demoSpace demoRows) [([0, 1], [1])] = .ok st ∧
    ∀ x, (sampleOnce st).Outcome x → ∃ s, x = .ok s := by
  obtain ⟨st, h⟩ := (C32_updates_succeed_iff demoSpace demoRows [([0, 1], [1])]).mpr (by decide)
  refine ⟨st, h, fun x hx => (C34_sample_once _ _ _ _ h (by decide) x hx).2 ?_⟩
  exact ⟨0, by decide, 0, by decide, 0, by decide, by decide⟩

/-! ### C35 -/

/-- **C35.** Every tail returned by `sample_once` is a member of the sample space listed for some row
and contains a label not yet covered for that row; and every such sample can be returned. -/
theorem C35_sampled_tail (space : List (Finset ℤ)) (newRows : List (List ℕ))
    (us : List (List ℕ × List ℤ)) (st : UState)
    (h : applyUpdates (freshSampler space newRows) us = .ok st) (hne : newRows ≠ []) (s : Finset ℤ) :
    (sampleOnce st).Outcome (.ok s) ↔
      ∃ i < newRows.length, ∃ id ∈ newRows.getD i [], space[id]? = some s ∧
        ∃ el ∈ s, ¬ CoveredBy us i el := by
  obtain ⟨-, rfl⟩ := fresh_applyUpdates_inv h
  rw [outcome_once space newRows us hne]
  have hget : ∀ id, (space.getD id ∅).Nonempty → space[id]? = some (space.getD id ∅) := by
    intro id hn
    rcases hs : space[id]? with _ | a
    · rw [List.getD_eq_getElem?_getD, hs] at hn; simp at hn
    · rw [List.getD_eq_getElem?_getD, hs]; rfl
  constructor
  · intro hx
    split at hx
    · cases hx
    · obtain ⟨i, hi, id, hid, ⟨el, hel⟩, hx⟩ := hx
      simp only [Except.ok.injEq] at hx
      subst hx
      simp only [uncoveredPart, Finset.mem_filter] at hel
      exact ⟨i, hi, id, hid, hget id ⟨el, hel.1⟩, el, hel.1, hel.2⟩
  · rintro ⟨i, hi, id, hid, hsp, el, hel, hc⟩
    have hs : space.getD id ∅ = s := by rw [List.getD_eq_getElem?_getD, hsp]; rfl
    rw [if_neg]
    · refine ⟨i, hi, id, hid, ⟨el, ?_⟩, by rw [hs]⟩
      simp only [uncoveredPart, Finset.mem_filter, hs]
      exact ⟨hel, hc⟩
    · intro h0
      exact hc ((rowArea_eq_zero_iff space newRows us i).mp
        ((totalArea_eq_zero_iff space newRows us).mp h0 i hi) id hid el (by rw [hs]; exact hel))

example : ∃ st, applyUpdates (freshSampler demoSpace demoRows) [([0, 1], [1])] = .ok st ∧
    (sampleOnce st).Outcome (.ok {0, 1}) ∧ ¬ (sampleOnce st).Outcome (.ok {1}) := by
  obtain ⟨st, h⟩ := (C32_updates_succeed_iff demoSpace demoRows [([0, 1], [1])]).mpr (by decide)
  refine ⟨st, h, (C35_sampled_tail _ _ _ _ h (by decide) _).mpr ?_, fun hc => ?_⟩
  · exact ⟨0, by decide, 2, by decide, rfl, 0, by decide, by decide⟩
  · obtain ⟨i, hi, id, hid, -, el, hel, hcov⟩ := (C35_sampled_tail _ _ _ _ h (by decide) _).mp hc
    rw [Finset.mem_singleton] at hel
    subst hel
    apply hcov
    refine ⟨_, List.mem_singleton_self _, ?_, by simp⟩
    simp only [demoRows, List.length_cons, List.length_nil] at hi
    simp; omega

/-! ### C36 -/

theorem expect_row (space : List (Finset ℤ)) (newRows : List (List ℕ))
    (us : List (List ℕ × List ℤ)) (i : ℕ) (hi : i < newRows.length) (s : Finset ℤ)
    (h0 : rowArea space newRows us i ≠ 0) :
    (sampleItemsetFromRow (stateAfter space newRows us) i).prob (.ok s) * rowArea space newRows us i =
      (((newRows.getD i []).filter fun id => decide (space.getD id ∅ = s)).length *
        (uncoveredPart us i s).card : ℕ) := by
  have hs : 0 < (((newRows.getD i []).map fun id =>
      ((uncoveredPart us i (space.getD id ∅)).card : ℚ)).sum) := by
    rw [rowWeights_sum]; exact_mod_cast Nat.pos_of_ne_zero h0
  rw [sampleRow_closed space newRows us i hi, if_neg h0, prob, expect_bind,
    expect_normalised (rowWeights_nonneg space newRows us i) hs]
  simp only [cont, expect_done]
  have hra := rowWeights_sum space newRows us i
  rw [hra] at hs ⊢
  rw [div_mul_cancel₀ _ hs.ne']
  -- a sum over positions of a list
  have key : ∀ row : List ℕ, (∑ j ∈ Finset.range (row.map fun id =>
        ((uncoveredPart us i (space.getD id ∅)).card : ℚ)).length,
        (row.map fun id => ((uncoveredPart us i (space.getD id ∅)).card : ℚ)).getD j 0 *
          if (Except.ok (space.getD (row.getD j 0) ∅) : Py (Finset ℤ)) = .ok s then (1 : ℚ) else 0) =
      (((row.filter fun id => decide (space.getD id ∅ = s)).length *
        (uncoveredPart us i s).card : ℕ) : ℚ) := by
    intro row
    induction row with
    | nil => simp
    | cons id row ih =>
      rw [List.map_cons, List.length_cons, Finset.sum_range_succ']
      simp only [List.getD_cons_succ, List.getD_cons_zero]
      rw [ih]
      by_cases hid : space.getD id ∅ = s
      · rw [hid, if_pos rfl, List.filter_cons_of_pos (by simpa using hid), List.length_cons]
        push_cast
        ring
      · rw [if_neg (fun h => hid (Except.ok.inj h)), List.filter_cons_of_neg (by simpa using hid)]
        ring
  exact key _

/-- **C36.** The probability that `sample_once` returns `s` is the uncovered area of `s` divided by
the total uncovered area. -/
theorem C36_proportional_to_uncovered_area (space : List (Finset ℤ)) (newRows : List (List ℕ))
    (us : List (List ℕ × List ℤ)) (st : UState)
    (h : applyUpdates (freshSampler space newRows) us = .ok st)
    (hpos : 0 < totalArea space newRows us) (s : Finset ℤ) :
    (sampleOnce st).prob (.ok s) =
      (sampleArea space newRows us s : ℚ) / totalArea space newRows us := by
  obtain ⟨-, rfl⟩ := fresh_applyUpdates_inv h
  have hsumQ : (((List.range newRows.length).map fun i => (rowArea space newRows us i : ℚ))).sum =
      (totalArea space newRows us : ℚ) := by
    have := congrArg (Int.cast (R := ℚ)) (ws_sum space newRows us)
    rw [ws_eq] at this
    push_cast [List.map_map] at this
    rw [← this]
    rfl
  have e : (stateAfter space newRows us).probas =
      (((List.range newRows.length).map fun i => (rowArea space newRows us i : ℚ))).map
        (· / (((List.range newRows.length).map fun i => (rowArea space newRows us i : ℚ))).sum) := by
    show rowProbas (wsOf space newRows (coveredElems us)) = _
    rw [rowProbas, ws_sum, if_neg (by exact_mod_cast hpos.ne'), ws_eq, hsumQ, List.map_map, List.map_map]
    rfl
  have hnn : ∀ q ∈ ((List.range newRows.length).map fun i => (rowArea space newRows us i : ℚ)), 0 ≤ q := by
    intro q hq
    obtain ⟨i, -, rfl⟩ := List.mem_map.mp hq
    positivity
  have hpQ : (0 : ℚ) < (((List.range newRows.length).map fun i => (rowArea space newRows us i : ℚ))).sum := by
    rw [hsumQ]; exact_mod_cast hpos
  unfold sampleOnce
  rw [prob, monad_bind, expect_bind, e, expect_normalised hnn hpQ, hsumQ]
  congr 1
  rw [sampleArea]
  push_cast
  rw [List.length_map, List.length_range]
  apply Finset.sum_congr rfl
  intro i hi
  rw [Finset.mem_range] at hi
  rw [List.getD_eq_getElem?_getD, List.getElem?_eq_getElem (by simpa using hi)]
  simp only [List.getElem_map, List.getElem_range, Option.getD_some, cont]
  by_cases h0 : rowArea space newRows us i = 0
  · rw [h0]
    by_cases hex : ∃ id ∈ newRows.getD i [], space.getD id ∅ = s
    · obtain ⟨id, hid, rfl⟩ := hex
      have : uncoveredPart us i (space.getD id ∅) = ∅ := by
        rw [Finset.eq_empty_iff_forall_notMem]
        intro el hel
        simp only [uncoveredPart, Finset.mem_filter] at hel
        exact hel.2 ((rowArea_eq_zero_iff space newRows us i).mp h0 id hid el hel.1)
      rw [this]; simp
    · have : ((newRows.getD i []).filter fun id => decide (space.getD id ∅ = s)) = [] := by
        rw [List.filter_eq_nil_iff]
        intro id hid hc
        exact hex ⟨id, hid, by simpa using hc⟩
      rw [this]; simp
  · have := expect_row space newRows us i hi s h0
    rw [prob] at this
    rw [mul_comm, this]
    push_cast
    rfl

/-- **C36.** In terms of the data: when the samples are pairwise distinct and each row lists exactly
the samples contained in its label set (without repetition), a sample `s` of the space is returned
with probability proportional to the number of (row, label) pairs with `s` contained in the row and
the label in `s` not yet covered for the row. -/
theorem C36_in_terms_of_rows (space : List (Finset ℤ)) (rows : List (Finset ℤ))
    (newRows : List (List ℕ)) (hlen : newRows.length = rows.length) (hnd : space.Nodup)
    (hrow : ∀ i, (newRows.getD i []).Nodup)
    (hassign : ∀ i < rows.length, ∀ id < space.length,
      id ∈ newRows.getD i [] ↔ space.getD id ∅ ⊆ rows.getD i ∅)
    (hvalid : ∀ i, ∀ id ∈ newRows.getD i [], id < space.length)
    (us : List (List ℕ × List ℤ)) (st : UState)
    (h : applyUpdates (freshSampler space newRows) us = .ok st)
    (hpos : 0 < totalArea space newRows us) (s : Finset ℤ) (hs : s ∈ space) :
    (sampleOnce st).prob (.ok s) =
      (∑ i ∈ Finset.range rows.length, if s ⊆ rows.getD i ∅ then
        ((uncoveredPart us i s).card : ℚ) else 0) / totalArea space newRows us := by
  rw [C36_proportional_to_uncovered_area space newRows us st h hpos, sampleArea, hlen]
  push_cast
  congr 1
  apply Finset.sum_congr rfl
  intro i hi
  rw [Finset.mem_range] at hi
  obtain ⟨j, hj, rfl⟩ := List.getElem_of_mem hs
  have hget : ∀ id (hid : id < space.length), space.getD id ∅ = space[id] := by
    intro id hid; rw [List.getD_eq_getElem?_getD, List.getElem?_eq_getElem hid]; rfl
  have hiff : ∀ id ∈ newRows.getD i [], (space.getD id ∅ = space[j] ↔ id = j) := by
    intro id hid
    have hv := hvalid i id hid
    rw [hget id hv]
    exact ⟨fun h => (List.Nodup.getElem_inj_iff hnd).mp h, fun h => by subst h; rfl⟩
  have hfil : ((newRows.getD i []).filter fun id => decide (space.getD id ∅ = space[j])) =
      (newRows.getD i []).filter fun id => decide (id = j) := by
    apply List.filter_congr
    intro id hid
    simp only [hiff id hid]
  rw [hfil]
  have hcount : ((newRows.getD i []).filter fun id => decide (id = j)).length =
      (newRows.getD i []).count j := by
    rw [List.count, List.countP_eq_length_filter]
    congr 1
  rw [hcount]
  by_cases hm : j ∈ newRows.getD i []
  · rw [List.count_eq_one_of_mem (hrow i) hm, if_pos]
    · simp
    · rw [← hget j hj]; exact (hassign i hi j hj).mp hm
  · rw [List.count_eq_zero_of_not_mem hm, if_neg]
    · simp
    · rw [← hget j hj]; exact fun hc => hm ((hassign i hi j hj).mpr hc)

/-- In the demonstration sampler, once label 1 is covered for row 0, {0} has probability 1/3. -/
example : ∃ st, applyUpdates (freshSampler demoSpace demoRows) [([0], [1])] = .ok st ∧
    (sampleOnce st).prob (.ok {0}) = 1 / 3 := by
  obtain ⟨st, h⟩ := (C32_updates_succeed_iff demoSpace demoRows [([0], [1])]).mpr (by decide)
  refine ⟨st, h, ?_⟩
  rw [C36_proportional_to_uncovered_area _ _ _ _ h (by decide)]
  rw [show sampleArea demoSpace demoRows [([0], [1])] {0} = 1 by decide,
    show totalArea demoSpace demoRows [([0], [1])] = 3 by decide]
  norm_num

/-! ### C38 -/

theorem naiveDecrease_eq (space : List (Finset ℤ)) (row : List ℕ) (newSet : List ℤ)
    (hn : newSet.Nodup) :
    naiveDecrease space row newSet =
      (row.map fun id => ((sampleAt space id ∩ newSet.toFinset).card : ℤ)).sum := by
  unfold naiveDecrease
  congr 1
  apply List.map_congr_left
  intro id _
  have : (newSet.filter fun el => decide (el ∈ sampleAt space id)).toFinset =
      sampleAt space id ∩ newSet.toFinset := by
    ext x; simp [and_comm]
  rw [← this, List.toFinset_card_of_nodup (hn.filter _)]

theorem naiveRows_closed (space : List (Finset ℤ)) (newRows : List (List ℕ)) (newSet : List ℤ) :
    ∀ (rows : List ℕ) (f : ℕ → ℤ), (∀ r ∈ rows, r < newRows.length) →
      naiveRows space newRows newSet rows ((List.range newRows.length).map f) =
        .ok ((List.range newRows.length).map fun i =>
          f i - (rows.count i : ℤ) * naiveDecrease space (newRows.getD i []) newSet)
  | [], f, _ => by simp [naiveRows]
  | r :: rs, f, h => by
    have hr : r < newRows.length := h r (by simp)
    have h1 : ((List.range newRows.length).map f)[r]? = some (f r) := by simp [hr]
    rw [naiveRows, List.getElem?_eq_getElem hr, h1]
    simp only
    rw [range_map_set, naiveRows_closed space newRows newSet rs _ fun x hx => h x (by simp [hx])]
    congr 1
    apply List.map_congr_left
    intro i _
    by_cases hi : i = r
    · subst hi
      rw [if_pos rfl, List.count_cons_self, List.getD_eq_getElem?_getD, List.getElem?_eq_getElem hr]
      push_cast
      simp only [Option.getD_some]
      ring
    · rw [if_neg hi, List.count_cons_of_ne (fun h => hi h.symm)]

/-- **C38.** On a freshly fitted sampler the naive and the fast update give the same weights and
probabilities, for any duplicate-free list of existing rows and any set of labels. -/
theorem C38_naive_agrees_on_first_coverage (space : List (Finset ℤ)) (newRows : List (List ℕ))
    (affected : List ℕ) (newSet : List ℤ) (hr : ∀ r ∈ affected, r < newRows.length)
    (hnd : affected.Nodup) (hns : newSet.Nodup) :
    ∃ st st', updateRowWeights (freshSampler space newRows) affected newSet = .ok st ∧
      updateRowWeightsNaive (freshSampler space newRows) affected newSet = .ok st' ∧
      st.weights = st'.weights ∧ st.probas = st'.probas := by
  have h1 := update_closed space newRows [] (affected, newSet) (Or.inr hr)
  rw [← fresh_closed] at h1
  have hw : (freshSampler space newRows).weights =
      (List.range newRows.length).map fun i => wOf (bagAt space newRows i) ∅ := by
    rw [fresh_closed]; rfl
  have h2 := naiveRows_closed space newRows newSet affected
    (fun i => wOf (bagAt space newRows i) ∅) hr
  rw [← hw] at h2
  have heq : (stateAfter space newRows ([] ++ [(affected, newSet)])).weights =
      (List.range newRows.length).map fun i => wOf (bagAt space newRows i) ∅ -
        (affected.count i : ℤ) * naiveDecrease space (newRows.getD i []) newSet := by
    show wsOf _ _ _ = _
    unfold wsOf
    apply List.map_congr_left
    intro i _
    rw [coveredElems_snoc]
    simp only [bagAt]
    rw [naiveDecrease_eq _ _ _ hns, wOf_bag, wOf_bag]
    by_cases hi : i ∈ affected
    · rw [if_pos hi, List.count_eq_one_of_mem hnd hi]
      simp only [Nat.cast_one, one_mul, coveredElems, List.foldl_nil, Finset.empty_union,
        Finset.sdiff_empty]
      rw [eq_sub_iff_add_eq, ← List.sum_map_add]
      congr 1
      apply List.map_congr_left
      intro id _
      have := Finset.card_sdiff_add_card_inter (sampleAt space id) newSet.toFinset
      exact_mod_cast this
    · rw [if_neg hi, List.count_eq_zero_of_not_mem hi]
      simp [coveredElems]
  refine ⟨_, { freshSampler space newRows with
      weights := (stateAfter space newRows ([] ++ [(affected, newSet)])).weights
      probas := (stateAfter space newRows ([] ++ [(affected, newSet)])).probas }, h1, ?_, rfl, rfl⟩
  · unfold updateRowWeightsNaive
    have hs : (freshSampler space newRows).space = space := rfl
    have hn : (freshSampler space newRows).newRows = newRows := rfl
    rw [hs, hn, h2, ← heq]
    rfl

/-- **C38.** Repeating one update `n + 1` times on a fresh sampler: the fast version has the weights of
a single update, the naive one subtracts the covered incidences again each time, so it eventually goes
negative whenever the update covers anything. -/
theorem C38_naive_keeps_decreasing (space : List (Finset ℤ)) (newRows : List (List ℕ))
    (affected : List ℕ) (newSet : List ℤ) (hr : ∀ r ∈ affected, r < newRows.length)
    (hnd : affected.Nodup) (hns : newSet.Nodup) (n : ℕ) :
    ∃ st st', applyUpdates (freshSampler space newRows) (List.replicate (n + 1) (affected, newSet)) =
        .ok st ∧
      applyUpdatesNaive (freshSampler space newRows) (List.replicate (n + 1) (affected, newSet)) =
        .ok st' ∧
      ∀ i ∈ affected,
        st.weights[i]? = some (((newRows.getD i []).map fun id =>
          ((space.getD id ∅ \ newSet.toFinset).card : ℤ)).sum) ∧
        st'.weights[i]? = some (((newRows.getD i []).map fun id => ((space.getD id ∅).card : ℤ)).sum -
          (n + 1) * ((newRows.getD i []).map fun id =>
            ((space.getD id ∅ ∩ newSet.toFinset).card : ℤ)).sum) := by
  have hok := applyUpdates_closed space newRows (List.replicate (n + 1) (affected, newSet)) (by
    intro u hu; rw [List.eq_of_mem_replicate hu]; exact Or.inr hr)
  have hnaive : ∀ (m : ℕ) (st : UState) (f : ℕ → ℤ), st.space = space → st.newRows = newRows →
      st.weights = (List.range newRows.length).map f →
      ∃ st', applyUpdatesNaive st (List.replicate m (affected, newSet)) = .ok st' ∧
        st'.weights = (List.range newRows.length).map fun i =>
          f i - (m : ℤ) * ((affected.count i : ℤ) * naiveDecrease space (newRows.getD i []) newSet) := by
    intro m
    induction m with
    | zero => intro st f _ _ hw; exact ⟨st, rfl, by simpa using hw⟩
    | succ m ih =>
      intro st f hs hn hw
      have h2 := naiveRows_closed space newRows newSet affected f hr
      have hstep : updateRowWeightsNaive st affected newSet = .ok { st with
          weights := (List.range newRows.length).map fun i =>
            f i - (affected.count i : ℤ) * naiveDecrease space (newRows.getD i []) newSet
          probas := rowProbas ((List.range newRows.length).map fun i =>
            f i - (affected.count i : ℤ) * naiveDecrease space (newRows.getD i []) newSet) } := by
        unfold updateRowWeightsNaive
        rw [hs, hn, hw, h2]
        rfl
      obtain ⟨st', h3, h4⟩ := ih { st with
          weights := (List.range newRows.length).map fun i =>
            f i - (affected.count i : ℤ) * naiveDecrease space (newRows.getD i []) newSet
          probas := rowProbas ((List.range newRows.length).map fun i =>
            f i - (affected.count i : ℤ) * naiveDecrease space (newRows.getD i []) newSet) } (fun i =>
        f i - (affected.count i : ℤ) * naiveDecrease space (newRows.getD i []) newSet) hs hn rfl
      refine ⟨st', ?_, ?_⟩
      · rw [List.replicate_succ, applyUpdatesNaive, hstep]
        exact h3
      · rw [h4]
        apply List.map_congr_left
        intro i _
        push_cast
        ring
  have hw : (freshSampler space newRows).weights =
      (List.range newRows.length).map fun i => wOf (bagAt space newRows i) ∅ := by
    rw [fresh_closed]; rfl
  obtain ⟨st', h3, h4⟩ := hnaive (n + 1) (freshSampler space newRows) _ rfl rfl hw
  refine ⟨_, st', hok, h3, ?_⟩
  intro i hi
  have hil := hr i hi
  constructor
  · rw [show (stateAfter space newRows (List.replicate (n + 1) (affected, newSet))).weights =
      wsOf space newRows (coveredElems (List.replicate (n + 1) (affected, newSet))) from rfl]
    have hcov : coveredElems (List.replicate (n + 1) (affected, newSet)) i = newSet.toFinset := by
      ext el
      rw [mem_coveredElems, List.mem_toFinset]
      constructor
      · rintro ⟨u, hu, -, h⟩; rw [List.eq_of_mem_replicate hu] at h; exact h
      · intro h; exact ⟨(affected, newSet), by simp, hi, h⟩
    simp only [wsOf, List.getElem?_map, List.getElem?_range hil, Option.map_some, hcov, bagAt, wOf_bag]
    rfl
  · rw [h4]
    simp only [List.getElem?_map, List.getElem?_range hil, Option.map_some, bagAt, wOf_bag,
      naiveDecrease_eq _ _ _ hns, List.count_eq_one_of_mem hnd hi, Finset.sdiff_empty]
    push_cast
    rw [one_mul]
    rfl

example : ∃ st', applyUpdatesNaive (freshSampler demoSpace demoRows) [([1], [1]), ([1], [1])] = .ok st' ∧
    st'.weights[1]? = some (-1) := by
  obtain ⟨_, st', -, h, hw⟩ := C38_naive_keeps_decreasing demoSpace demoRows [1] [1] (by decide)
    (by decide) (by decide) 1
  exact ⟨st', h, ((hw 1 (by simp)).2).trans (by decide)⟩

/-! ### C39 -/

/-- **C39.** Fitting a used sampler again (on any data) keeps the old history. Sampling from row `i`
then raises the consistency exception exactly when the (sample, label) incidences of the row that the
old updates had covered exceed the tolerance `1e-8 + 1e-5 * weight` of the check. -/
theorem C39_refit_raises_iff (space space' : List (Finset ℤ)) (newRows newRows' : List (List ℕ))
    (us : List (List ℕ × List ℤ)) (st : UState)
    (h : applyUpdates (freshSampler space newRows) us = .ok st) (i : ℕ) (hi : i < newRows'.length) :
    (sampleItemsetFromRow (refit st space' newRows') i).Outcome (.error .exception) ↔
      (1 / 100000000 + 1 / 100000 * (rowArea space' newRows' [] i : ℚ) <
        (rowArea space' newRows' [] i : ℚ) - rowArea space' newRows' us i) := by
  obtain ⟨-, rfl⟩ := fresh_applyUpdates_inv h
  have hw : (refit (stateAfter space newRows us) space' newRows').weights.getD i 0 =
      (rowArea space' newRows' [] i : ℤ) := by
    rw [← weights_getD space' newRows' [] i hi]
    show (assignRowWeights space' newRows' us).weights.getD i 0 = _
    rw [(assign_closed space' newRows' us).1]
    rfl
  have hsw : sampleWeights (refit (stateAfter space newRows us) space' newRows') i =
      sampleWeights (stateAfter space' newRows' us) i := rfl
  have hle : (rowArea space' newRows' us i : ℚ) ≤ rowArea space' newRows' [] i := by
    have : rowArea space' newRows' us i ≤ rowArea space' newRows' [] i := by
      unfold rowArea
      apply List.sum_le_sum
      intro id _
      apply Finset.card_le_card
      intro el hel
      simp only [uncoveredPart, Finset.mem_filter] at hel ⊢
      exact ⟨hel.1, by simp [CoveredBy]⟩
    exact_mod_cast this
  unfold sampleItemsetFromRow
  simp only
  rw [hsw, hw, sampleWeights_sum]
  have hcl : allclose (((rowArea space' newRows' us i : ℕ) : ℤ) : ℚ)
      (((rowArea space' newRows' [] i : ℕ) : ℤ) : ℚ) = false ↔
      (1 / 100000000 + 1 / 100000 * (rowArea space' newRows' [] i : ℚ) <
        (rowArea space' newRows' [] i : ℚ) - rowArea space' newRows' us i) := by
    have hsub : ((rowArea space' newRows' us i : ℕ) : ℚ) - (rowArea space' newRows' [] i : ℕ) ≤ 0 := by
      linarith
    have hnn : (0 : ℚ) ≤ (rowArea space' newRows' [] i : ℕ) := by positivity
    simp only [allclose, decide_eq_false_iff_not, not_le, Int.cast_natCast, abs_of_nonpos hsub,
      abs_of_nonneg hnn, neg_sub]
  by_cases hc : (1 / 100000000 + 1 / 100000 * (rowArea space' newRows' [] i : ℚ) <
      (rowArea space' newRows' [] i : ℚ) - rowArea space' newRows' us i)
  · rw [if_pos (hcl.mpr hc)]
    simp only [outcome_raise, true_iff]
    exact hc
  · rw [if_neg (fun h => hc (hcl.mp h))]
    simp only [hc, iff_false]
    split
    · simp
    · intro ho
      rw [monad_bind, outcome_bind] at ho
      rcases ho with ⟨a, -, ha⟩ | ⟨e, he, hx⟩
      · cases ha
      · cases hx
        unfold npChoice at he
        split at he
        · obtain ⟨j, -, -, hj⟩ := he
          cases hj
        · cases he

/-- **C39.** In particular, if the old updates covered a label of one of the row's samples and the row's
weight is below 99999, sampling from the row raises the consistency exception with certainty, and
`sample_once` can raise it. -/
theorem C39_refit_breaks_sampler (space space' : List (Finset ℤ)) (newRows newRows' : List (List ℕ))
    (us : List (List ℕ × List ℤ)) (st : UState)
    (h : applyUpdates (freshSampler space newRows) us = .ok st) (i : ℕ) (hi : i < newRows'.length)
    (id : ℕ) (hid : id ∈ newRows'.getD i []) (el : ℤ) (hel : el ∈ space'.getD id ∅)
    (hcov : CoveredBy us i el) (hsmall : rowArea space' newRows' [] i ≤ 99999) :
    sampleItemsetFromRow (refit st space' newRows') i = .raise .exception ∧
    (sampleOnce (refit st space' newRows')).Outcome (.error .exception) := by
  have hlt : rowArea space' newRows' us i < rowArea space' newRows' [] i := by
    unfold rowArea
    apply List.sum_lt_sum
    · intro id _
      apply Finset.card_le_card
      intro x hx
      simp only [uncoveredPart, Finset.mem_filter] at hx ⊢
      exact ⟨hx.1, by simp [CoveredBy]⟩
    · refine ⟨id, hid, Finset.card_lt_card ?_⟩
      rw [Finset.ssubset_iff_of_subset]
      · exact ⟨el, by simpa [uncoveredPart, CoveredBy] using hel, by simp [uncoveredPart, hcov]⟩
      · intro x hx
        simp only [uncoveredPart, Finset.mem_filter] at hx ⊢
        exact ⟨hx.1, by simp [CoveredBy]⟩
  have hout := (C39_refit_raises_iff space space' newRows newRows' us st h i hi).mpr (by
    have h1 : (rowArea space' newRows' us i : ℚ) + 1 ≤ rowArea space' newRows' [] i := by
      exact_mod_cast hlt
    have h2 : (rowArea space' newRows' [] i : ℚ) ≤ 99999 := by exact_mod_cast hsmall
    linarith)
  have hraise : sampleItemsetFromRow (refit st space' newRows') i = .raise .exception := by
    unfold sampleItemsetFromRow at hout ⊢
    simp only at hout ⊢
    split at hout
    · rename_i hc
      rw [if_pos hc]
    · split at hout
      · simp at hout
      · rw [monad_bind, outcome_bind] at hout
        exfalso
        rcases hout with ⟨a, -, ha⟩ | ⟨e, he, hx⟩
        · cases ha
        · cases hx
          unfold npChoice at he
          split at he
          · obtain ⟨j, -, -, hj⟩ := he
            cases hj
          · cases he
  refine ⟨hraise, ?_⟩
  have hne : newRows' ≠ [] := by rintro rfl; simp at hi
  have hpr : (refit st space' newRows').probas = (stateAfter space' newRows' []).probas := by
    show rowProbas (assignRowWeights space' newRows' st.history).weights = _
    rw [(assign_closed space' newRows' st.history).1]
    rfl
  unfold sampleOnce
  rw [monad_bind, outcome_bind, hpr]
  left
  refine ⟨i, (outcome_probas space' newRows' [] hne _).mpr ⟨i, hi, rfl, Or.inr (by omega)⟩, ?_⟩
  rw [hraise]
  simp

example : ∃ st, applyUpdates (freshSampler demoSpace demoRows) [([0], [1])] = .ok st ∧
    (sampleOnce (refit st demoSpace demoRows)).Outcome (.error .exception) := by
  obtain ⟨st, h⟩ := (C32_updates_succeed_iff demoSpace demoRows [([0], [1])]).mpr (by decide)
  exact ⟨st, h, (C39_refit_breaks_sampler demoSpace demoSpace demoRows demoRows _ st h 0 (by decide) 1
    (by decide) 1 (by decide) (by decide) (by decide)).2⟩

end Verif
