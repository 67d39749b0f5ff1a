/-
Lemmas for the uncovered-area sampler: the state after any history in closed form.
-/
import Verif.Spec.Uncovered
import Verif.Lemmas.Rand

namespace Verif

theorem mem_coveredElems (us : List (List ℕ × List ℤ)) (i : ℕ) (el : ℤ) :
    el ∈ coveredElems us i ↔ CoveredBy us i el := by
  have key : ∀ (us : List (List ℕ × List ℤ)) (acc : Finset ℤ),
      el ∈ us.foldl (fun acc u => if i ∈ u.1 then acc ∪ u.2.toFinset else acc) acc ↔
        el ∈ acc ∨ CoveredBy us i el := by
    intro us
    induction us with
    | nil => intro acc; simp [CoveredBy]
    | cons u us ih =>
      intro acc
      rw [List.foldl_cons, ih]
      simp only [CoveredBy, List.mem_cons, exists_eq_or_imp]
      split
      · rename_i h; simp [h, or_assoc]
      · rename_i h; simp [h]
  unfold coveredElems
  rw [key]; simp

theorem coveredElems_snoc (us : List (List ℕ × List ℤ)) (u : List ℕ × List ℤ) (i : ℕ) :
    coveredElems (us ++ [u]) i =
      if i ∈ u.1 then coveredElems us i ∪ u.2.toFinset else coveredElems us i := by
  simp [coveredElems, List.foldl_append]

/-- Weight carried by the elements of a bag outside `D`. -/
def wOf (bag : List ℤ) (D : Finset ℤ) : ℤ := ∑ el ∈ bag.toFinset \ D, (bag.count el : ℤ)

/-- Counter of a bag with the keys of `D` deleted. -/
def cOf (bag : List ℤ) (D : Finset ℤ) : Counter :=
  fun el => if el ∈ bag ∧ el ∉ D then some (bag.count el) else none

theorem coverRow_closed (bag : List ℤ) : ∀ (els : List ℤ) (D : Finset ℤ),
    coverRow (wOf bag D) (cOf bag D) els = (wOf bag (D ∪ els.toFinset), cOf bag (D ∪ els.toFinset))
  | [], D => by simp [coverRow]
  | el :: els, D => by
    have hun : D ∪ (el :: els).toFinset = insert el D ∪ els.toFinset := by
      ext x; simp
    rw [coverRow, hun]
    by_cases h : el ∈ bag ∧ el ∉ D
    · have hc : cOf bag D el = some (bag.count el) := by rw [cOf, if_pos h]
      rw [hc]
      simp only
      have h1 : wOf bag D - (bag.count el : ℤ) = wOf bag (insert el D) := by
        unfold wOf
        have : bag.toFinset \ insert el D = (bag.toFinset \ D).erase el := by
          ext x; simp; tauto
        rw [this, ← Finset.sum_erase_add (a := el)]
        · ring
        · simp [h.1, h.2]
      have h2 : (cOf bag D).del el = cOf bag (insert el D) := by
        funext x
        unfold Counter.del cOf
        by_cases hx : x = el
        · simp [hx]
        · simp [hx]
      rw [h1, h2]
      exact coverRow_closed bag els (insert el D)
    · have hc : cOf bag D el = none := by rw [cOf, if_neg h]
      rw [hc]
      simp only
      have h1 : wOf bag D = wOf bag (insert el D) := by
        unfold wOf
        congr 1
        ext x
        simp only [Finset.mem_sdiff, List.mem_toFinset, Finset.mem_insert, not_or]
        constructor
        · rintro ⟨a, b⟩
          refine ⟨a, ?_, b⟩
          rintro rfl
          exact h ⟨a, b⟩
        · rintro ⟨a, -, b⟩
          exact ⟨a, b⟩
      have h2 : cOf bag D = cOf bag (insert el D) := by
        funext x
        unfold cOf
        by_cases hx : x = el
        · subst hx
          rw [if_neg h, if_neg (by simp)]
        · simp [hx]
      rw [h1, h2]
      exact coverRow_closed bag els (insert el D)

/-- The bag of a row. -/
def bagAt (space : List (Finset ℤ)) (newRows : List (List ℕ)) (i : ℕ) : List ℤ :=
  bagOfElems space (newRows.getD i [])

/-- Weights when row `i` has the elements `D i` covered. -/
def wsOf (space : List (Finset ℤ)) (newRows : List (List ℕ)) (D : ℕ → Finset ℤ) : List ℤ :=
  (List.range newRows.length).map fun i => wOf (bagAt space newRows i) (D i)

/-- Counters when row `i` has the elements `D i` covered. -/
def csOf (space : List (Finset ℤ)) (newRows : List (List ℕ)) (D : ℕ → Finset ℤ) : List Counter :=
  (List.range newRows.length).map fun i => cOf (bagAt space newRows i) (D i)

theorem range_map_set {α : Type} (n r : ℕ) (f : ℕ → α) (a : α) :
    ((List.range n).map f).set r a = (List.range n).map fun i => if i = r then a else f i := by
  apply List.ext_getElem
  · simp
  · intro i h1 h2
    simp only [List.getElem_set, List.getElem_map, List.getElem_range]
    by_cases h : r = i
    · simp [h]
    · simp [h, Ne.symm h]

theorem coverRows_closed (space : List (Finset ℤ)) (newRows : List (List ℕ)) (newSet : List ℤ) :
    ∀ (rows : List ℕ) (D : ℕ → Finset ℤ), (newSet = [] ∨ ∀ r ∈ rows, r < newRows.length) →
      coverRows newSet rows (wsOf space newRows D) (csOf space newRows D) =
        .ok (wsOf space newRows fun i => if i ∈ rows then D i ∪ newSet.toFinset else D i,
          csOf space newRows fun i => if i ∈ rows then D i ∪ newSet.toFinset else D i)
  | [], D, _ => by simp [coverRows]
  | r :: rs, D, h => by
    rw [coverRows]
    by_cases hn : newSet = []
    · rw [if_pos hn, coverRows_closed space newRows newSet rs D (Or.inl hn)]
      subst hn
      simp
    · rw [if_neg hn]
      have hr : ∀ x ∈ r :: rs, x < newRows.length := h.resolve_left hn
      have hr0 : r < newRows.length := hr r (by simp)
      have h1 : (wsOf space newRows D)[r]? = some (wOf (bagAt space newRows r) (D r)) := by
        simp [wsOf, hr0]
      have h2 : (csOf space newRows D)[r]? = some (cOf (bagAt space newRows r) (D r)) := by
        simp [csOf, hr0]
      rw [h1, h2]
      simp only [coverRow_closed]
      have e1 : (wsOf space newRows D).set r (wOf (bagAt space newRows r) (D r ∪ newSet.toFinset)) =
          wsOf space newRows fun i => if i = r then D i ∪ newSet.toFinset else D i := by
        unfold wsOf
        rw [range_map_set]
        apply List.map_congr_left
        intro i _
        by_cases hi : i = r <;> simp [hi]
      have e2 : (csOf space newRows D).set r (cOf (bagAt space newRows r) (D r ∪ newSet.toFinset)) =
          csOf space newRows fun i => if i = r then D i ∪ newSet.toFinset else D i := by
        unfold csOf
        rw [range_map_set]
        apply List.map_congr_left
        intro i _
        by_cases hi : i = r <;> simp [hi]
      rw [e1, e2, coverRows_closed space newRows newSet rs _ (Or.inr fun x hx => hr x (by simp [hx]))]
      have e3 : (fun i => if i ∈ rs then (if i = r then D i ∪ newSet.toFinset else D i) ∪
          newSet.toFinset else if i = r then D i ∪ newSet.toFinset else D i) =
          fun i => if i ∈ r :: rs then D i ∪ newSet.toFinset else D i := by
        funext i
        by_cases hi : i = r
        · by_cases hi' : r ∈ rs <;> simp [hi, hi']
        · by_cases hi' : i ∈ rs <;> simp [hi, hi']
      rw [e3]

theorem coverRows_error (newSet : List ℤ) : ∀ (rows : List ℕ) (ws : List ℤ) (cs : List Counter),
    newSet ≠ [] → ws.length = cs.length → (∃ r ∈ rows, ws.length ≤ r) →
    coverRows newSet rows ws cs = .error .indexError
  | [], ws, cs, _, _, h => by simp at h
  | r :: rs, ws, cs, hn, hl, h => by
    rw [coverRows, if_neg hn]
    by_cases hr : r < ws.length
    · rw [List.getElem?_eq_getElem hr, List.getElem?_eq_getElem (by omega)]
      simp only
      apply coverRows_error newSet rs _ _ hn (by simpa using hl)
      obtain ⟨x, hx, hx'⟩ := h
      rcases List.mem_cons.mp hx with rfl | hx
      · omega
      · exact ⟨x, hx, by simpa using hx'⟩
    · rw [List.getElem?_eq_none (by omega)]

/-- The state reached by the history `us`, in closed form. -/
def stateAfter (space : List (Finset ℤ)) (newRows : List (List ℕ)) (us : List (List ℕ × List ℤ)) :
    UState :=
  { space := space
    newRows := newRows
    weights := wsOf space newRows (coveredElems us)
    probas := rowProbas (wsOf space newRows (coveredElems us))
    counters := csOf space newRows (coveredElems us)
    history := us }

theorem count_bag (space : List (Finset ℤ)) (row : List ℕ) (el : ℤ) :
    (bagOfElems space row).count el = (row.map fun id => if el ∈ sampleAt space id then 1 else 0).sum := by
  induction row with
  | nil => simp [bagOfElems]
  | cons id row ih =>
    have : bagOfElems space (id :: row) = (sampleAt space id).sort (· ≤ ·) ++ bagOfElems space row := rfl
    rw [this, List.count_append, ih, List.map_cons, List.sum_cons]
    congr 1
    by_cases h : el ∈ sampleAt space id
    · rw [if_pos h]
      exact List.count_eq_one_of_mem (Finset.sort_nodup _ _) ((Finset.mem_sort _).mpr h)
    · rw [if_neg h]
      exact List.count_eq_zero_of_not_mem fun hc => h ((Finset.mem_sort _).mp hc)

theorem mem_bag {space : List (Finset ℤ)} {row : List ℕ} {el : ℤ} :
    el ∈ bagOfElems space row ↔ ∃ id ∈ row, el ∈ sampleAt space id := by
  simp [bagOfElems]

theorem wOf_bag (space : List (Finset ℤ)) (row : List ℕ) (D : Finset ℤ) :
    wOf (bagOfElems space row) D = (row.map fun id => ((sampleAt space id \ D).card : ℤ)).sum := by
  have key : ∀ (T : Finset ℤ) (row : List ℕ), (∀ id ∈ row, sampleAt space id ⊆ T) →
      ∑ el ∈ T \ D, ((bagOfElems space row).count el : ℤ) =
        (row.map fun id => ((sampleAt space id \ D).card : ℤ)).sum := by
    intro T row
    induction row with
    | nil => intro _; simp [bagOfElems]
    | cons id row ih =>
      intro hT
      have h2 := ih fun i hi => hT i (by simp [hi])
      simp only [count_bag] at h2 ⊢
      simp only [List.map_cons, List.sum_cons]
      push_cast
      rw [Finset.sum_add_distrib]
      rw [← h2]
      push_cast
      congr 1
      rw [Finset.sum_boole]
      norm_cast
      congr 1
      have := hT id (by simp)
      ext x
      simp only [Finset.mem_filter, Finset.mem_sdiff]
      constructor
      · rintro ⟨⟨-, a⟩, b⟩; exact ⟨b, a⟩
      · rintro ⟨a, b⟩; exact ⟨⟨this a, b⟩, a⟩
  unfold wOf
  apply key
  intro id hid x hx
  rw [List.mem_toFinset, mem_bag]
  exact ⟨id, hid, hx⟩

theorem uncoveredPart_eq (us : List (List ℕ × List ℤ)) (i : ℕ) (s : Finset ℤ) :
    uncoveredPart us i s = s \ coveredElems us i := by
  ext x
  simp [uncoveredPart, mem_coveredElems]

theorem wOf_eq_rowArea (space : List (Finset ℤ)) (newRows : List (List ℕ))
    (us : List (List ℕ × List ℤ)) (i : ℕ) :
    wOf (bagAt space newRows i) (coveredElems us i) = (rowArea space newRows us i : ℤ) := by
  rw [bagAt, wOf_bag, rowArea]
  push_cast [List.map_map]
  congr 1
  apply List.map_congr_left
  intro id _
  simp [uncoveredPart_eq, sampleAt]

theorem assign_closed (space : List (Finset ℤ)) (newRows : List (List ℕ))
    (hist : List (List ℕ × List ℤ)) :
    (assignRowWeights space newRows hist).weights = wsOf space newRows (fun _ => ∅) ∧
    (assignRowWeights space newRows hist).counters = csOf space newRows (fun _ => ∅) := by
  constructor
  · apply List.ext_getElem
    · simp [assignRowWeights, wsOf]
    · intro i h1 h2
      simp only [assignRowWeights, List.length_map] at h1
      simp only [assignRowWeights, wsOf, List.getElem_map, List.getElem_range, bagAt]
      rw [wOf_bag, List.getD_eq_getElem?_getD, List.getElem?_eq_getElem h1]
      simp [initWeight]
  · apply List.ext_getElem
    · simp [assignRowWeights, csOf]
    · intro i h1 h2
      simp only [assignRowWeights, List.length_map] at h1
      simp only [assignRowWeights, csOf, List.getElem_map, List.getElem_range, bagAt]
      rw [List.getD_eq_getElem?_getD, List.getElem?_eq_getElem h1]
      funext el
      simp [counterOf, cOf]

theorem fresh_closed (space : List (Finset ℤ)) (newRows : List (List ℕ)) :
    freshSampler space newRows = stateAfter space newRows [] := by
  obtain ⟨h1, h2⟩ := assign_closed space newRows []
  have hc : coveredElems [] = fun _ => (∅ : Finset ℤ) := by funext i; rfl
  unfold stateAfter
  rw [hc, ← h1, ← h2]
  rfl

theorem update_closed (space : List (Finset ℤ)) (newRows : List (List ℕ))
    (us : List (List ℕ × List ℤ)) (u : List ℕ × List ℤ)
    (hu : u.2 = [] ∨ ∀ r ∈ u.1, r < newRows.length) :
    updateRowWeights (stateAfter space newRows us) u.1 u.2 =
      .ok (stateAfter space newRows (us ++ [u])) := by
  unfold updateRowWeights
  have := coverRows_closed space newRows u.2 u.1 (coveredElems us) hu
  simp only [stateAfter] at this ⊢
  rw [this]
  have e : (fun i => if i ∈ u.1 then coveredElems us i ∪ u.2.toFinset else coveredElems us i) =
      coveredElems (us ++ [u]) := by
    funext i; rw [coveredElems_snoc]
  rw [e]
  rfl

/-- The rows of an update exist (an update with no label touches no row). -/
def UpdateOk (newRows : List (List ℕ)) (u : List ℕ × List ℤ) : Prop :=
  u.2 = [] ∨ ∀ r ∈ u.1, r < newRows.length

theorem update_error (space : List (Finset ℤ)) (newRows : List (List ℕ))
    (us : List (List ℕ × List ℤ)) (u : List ℕ × List ℤ) (hu : ¬ UpdateOk newRows u) :
    updateRowWeights (stateAfter space newRows us) u.1 u.2 = .error .indexError := by
  unfold UpdateOk at hu
  push Not at hu
  unfold updateRowWeights
  have := coverRows_error u.2 u.1 (stateAfter space newRows us).weights
    (stateAfter space newRows us).counters hu.1 (by simp [stateAfter, wsOf, csOf])
    (by obtain ⟨r, h1, h2⟩ := hu.2; exact ⟨r, h1, by simpa [stateAfter, wsOf] using h2⟩)
  rw [this]
  rfl

theorem applyUpdates_from (space : List (Finset ℤ)) (newRows : List (List ℕ)) :
    ∀ (vs us : List (List ℕ × List ℤ)), (∀ u ∈ vs, UpdateOk newRows u) →
      applyUpdates (stateAfter space newRows us) vs = .ok (stateAfter space newRows (us ++ vs))
  | [], us, _ => by simp [applyUpdates]
  | v :: vs, us, h => by
    rw [applyUpdates, update_closed space newRows us v (h v (by simp))]
    have := applyUpdates_from space newRows vs (us ++ [v]) fun u hu => h u (by simp [hu])
    rw [List.append_assoc] at this
    exact this

theorem applyUpdates_closed (space : List (Finset ℤ)) (newRows : List (List ℕ))
    (us : List (List ℕ × List ℤ)) (h : ∀ u ∈ us, UpdateOk newRows u) :
    applyUpdates (freshSampler space newRows) us = .ok (stateAfter space newRows us) := by
  rw [fresh_closed, applyUpdates_from space newRows us [] h]
  rfl

/-- A history that did not raise consisted of valid updates. -/
theorem applyUpdates_ok_inv {space : List (Finset ℤ)} {newRows : List (List ℕ)}
    {vs : List (List ℕ × List ℤ)} : ∀ {us : List (List ℕ × List ℤ)} {st : UState},
      applyUpdates (stateAfter space newRows us) vs = .ok st →
      (∀ u ∈ vs, UpdateOk newRows u) ∧ st = stateAfter space newRows (us ++ vs) := by
  induction vs with
  | nil => intro us st h; simp only [applyUpdates, Except.ok.injEq] at h; simp [h]
  | cons v vs ih =>
    intro us st h
    by_cases hv : UpdateOk newRows v
    · rw [applyUpdates, update_closed space newRows us v hv] at h
      obtain ⟨h1, h2⟩ := ih (us := us ++ [v]) h
      refine ⟨?_, by simpa using h2⟩
      intro u hu
      rcases List.mem_cons.mp hu with rfl | hu
      · exact hv
      · exact h1 u hu
    · rw [applyUpdates, update_error space newRows us v hv] at h
      cases h

theorem fresh_applyUpdates_inv {space : List (Finset ℤ)} {newRows : List (List ℕ)}
    {us : List (List ℕ × List ℤ)} {st : UState}
    (h : applyUpdates (freshSampler space newRows) us = .ok st) :
    (∀ u ∈ us, UpdateOk newRows u) ∧ st = stateAfter space newRows us := by
  rw [fresh_closed] at h
  simpa using applyUpdates_ok_inv h

theorem sampleWeights_eq (space : List (Finset ℤ)) (newRows : List (List ℕ))
    (us : List (List ℕ × List ℤ)) (i : ℕ) :
    sampleWeights (stateAfter space newRows us) i =
      (newRows.getD i []).map fun id => ((uncoveredPart us i (space.getD id ∅)).card : ℤ) := by
  simp only [sampleWeights, stateAfter]
  apply List.map_congr_left
  intro id _
  rw [uncoveredPart_eq, sampleAt, Finset.card_sdiff, Finset.inter_comm (coveredElems us i)]
  have : (space.getD id ∅ ∩ coveredElems us i).card ≤ (space.getD id ∅).card :=
    Finset.card_le_card Finset.inter_subset_left
  omega

theorem sampleWeights_sum (space : List (Finset ℤ)) (newRows : List (List ℕ))
    (us : List (List ℕ × List ℤ)) (i : ℕ) :
    (sampleWeights (stateAfter space newRows us) i).sum = (rowArea space newRows us i : ℤ) := by
  rw [sampleWeights_eq, rowArea]
  push_cast [List.map_map]
  rfl

theorem weights_getD (space : List (Finset ℤ)) (newRows : List (List ℕ))
    (us : List (List ℕ × List ℤ)) (i : ℕ) (hi : i < newRows.length) :
    (stateAfter space newRows us).weights.getD i 0 = (rowArea space newRows us i : ℤ) := by
  rw [← wOf_eq_rowArea]
  simp [stateAfter, wsOf, hi]

theorem allclose_self (a : ℚ) : allclose a a = true := by
  simp [allclose]
  positivity

/-- Sampling from a row after any history. -/
theorem sampleRow_closed (space : List (Finset ℤ)) (newRows : List (List ℕ))
    (us : List (List ℕ × List ℤ)) (i : ℕ) (hi : i < newRows.length) :
    sampleItemsetFromRow (stateAfter space newRows us) i =
      if rowArea space newRows us i = 0 then .raise .noMoreSamples
      else
        (npChoice (((newRows.getD i []).map fun id =>
          ((uncoveredPart us i (space.getD id ∅)).card : ℚ)).map
            (· / (((newRows.getD i []).map fun id =>
              ((uncoveredPart us i (space.getD id ∅)).card : ℚ)).sum)))).bind
          fun idx => .done (.ok (space.getD ((newRows.getD i []).getD idx 0) ∅)) := by
  unfold sampleItemsetFromRow
  simp only
  rw [weights_getD space newRows us i hi, sampleWeights_sum, allclose_self]
  simp only [Bool.true_eq_false, if_false, Int.natCast_eq_zero]
  split
  · rfl
  · rw [sampleWeights_eq]
    simp only [Rand.monad_bind, Rand.monad_pure, List.map_map]
    have e : (((newRows.getD i []).map fun id =>
        ((uncoveredPart us i (space.getD id ∅)).card : ℚ)).sum) = (rowArea space newRows us i : ℚ) := by
      rw [rowArea]; push_cast [List.map_map]; rfl
    rw [e]
    rfl

end Verif
