/-
Property C115: the ground truth functions and the batches of the greedy head samplers.
-/
import Verif.Model.GreedyTruth
import Verif.Spec.GreedyTruth
import Verif.Props.CoupledGreedy
import Verif.Props.GroundTruth

namespace Verif

namespace GreedyHead

theorem separating_ok {X : Cmp} (hX : X.Binary) {pr : ℕ × ℕ} (h1 : pr.1 < X.nMajor) (h2 : pr.2 < X.nMajor) :
    separating (convertMatrixToSetsV2 X) pr = .ok (attrs X pr.1 \ attrs X pr.2) := by
  unfold separating
  rw [pyGet_getD (by rw [rowsV2_length]; exact h1) ∅, pyGet_getD (by rw [rowsV2_length]; exact h2) ∅,
    rows_getD hX h1, rows_getD hX h2]
  rfl

theorem separating_error {X : Cmp} (hX : X.Binary) (pr : ℕ × ℕ) :
    (∃ s, separating (convertMatrixToSetsV2 X) pr = .ok s) ∨
      separating (convertMatrixToSetsV2 X) pr = .error .indexError := by
  have key : ∀ i, (∃ s, pyGet (convertMatrixToSetsV2 X) i = .ok s) ∨
      pyGet (convertMatrixToSetsV2 X) i = .error .indexError := by
    intro i
    unfold pyGet
    split
    · exact Or.inl ⟨_, rfl⟩
    · exact Or.inr rfl
  unfold separating
  rcases key pr.1 with ⟨a, ha⟩ | ha <;> rcases key pr.2 with ⟨b, hb⟩ | hb <;> rw [ha]
  · rw [hb]; exact Or.inl ⟨_, rfl⟩
  · rw [hb]; exact Or.inr rfl
  · exact Or.inr rfl
  · exact Or.inr rfl

theorem separating_beyond {X : Cmp} {pr : ℕ × ℕ} (h : X.nMajor ≤ pr.1 ∨ X.nMajor ≤ pr.2) :
    separating (convertMatrixToSetsV2 X) pr = .error .indexError := by
  have key : ∀ i, X.nMajor ≤ i → pyGet (convertMatrixToSetsV2 X) i = .error .indexError := by
    intro i hi
    have hn : ¬ i < X.nMajor := by omega
    unfold pyGet pyIndex
    rw [rowsV2_length]
    simp [hn]
  unfold separating
  rcases h with h | h
  · rw [key _ h]; rfl
  · rw [key _ h]
    unfold pyGet
    split <;> rfl

/-- The pairs in the order of the loops. -/
def pairList (y : List ℤ) : List (ℕ × ℕ) := (labelled y 1).sort (· ≤ ·) ×ˢ (labelled y 0).sort (· ≤ ·)

theorem pairList_nodup (y : List ℤ) : (pairList y).Nodup := (Finset.sort_nodup _ _).product (Finset.sort_nodup _ _)

theorem pairList_toFinset (y : List ℤ) : (pairList y).toFinset = labelled y 1 ×ˢ labelled y 0 := by
  ext ⟨a, b⟩
  simp [pairList]

theorem mem_pairList {y : List ℤ} {pr : ℕ × ℕ} : pr ∈ pairList y ↔ Opposite y pr := by
  rw [← List.mem_toFinset, pairList_toFinset, Finset.mem_product, mem_labelled, mem_labelled]
  rfl

theorem pairList_lt {X : Cmp} {y : List ℤ} (hl : y.length ≤ X.nMajor) {pr : ℕ × ℕ} (h : pr ∈ pairList y) :
    pr.1 < X.nMajor ∧ pr.2 < X.nMajor := by
  obtain ⟨h1, h2⟩ := mem_pairList.1 h
  exact ⟨lt_of_lt_of_le (List.getElem?_eq_some_iff.1 h1).1 hl, lt_of_lt_of_le (List.getElem?_eq_some_iff.1 h2).1 hl⟩

theorem pairList_ne {y : List ℤ} (hy : y.toFinset = {0, 1}) : pairList y ≠ [] := by
  have hm0 : (0 : ℤ) ∈ y := by rw [← List.mem_toFinset, hy]; simp
  have hm1 : (1 : ℤ) ∈ y := by rw [← List.mem_toFinset, hy]; simp
  obtain ⟨i, hi, e1⟩ := List.getElem_of_mem hm1
  obtain ⟨j, hj, e2⟩ := List.getElem_of_mem hm0
  have : (i, j) ∈ pairList y := mem_pairList.2
    ⟨by rw [List.getElem?_eq_getElem hi, e1], by rw [List.getElem?_eq_getElem hj, e2]⟩
  exact List.ne_nil_of_mem this

/-- A pair whose index lies beyond the records. -/
theorem pairList_beyond {X : Cmp} {y : List ℤ} (hy : y.toFinset = {0, 1}) (hl : X.nMajor < y.length) :
    ∃ pr ∈ pairList y, X.nMajor ≤ pr.1 ∨ X.nMajor ≤ pr.2 := by
  obtain ⟨q, hq⟩ := List.exists_mem_of_ne_nil _ (pairList_ne hy)
  obtain ⟨h1, h2⟩ := mem_pairList.1 hq
  have hm : y[X.nMajor] ∈ y.toFinset := List.mem_toFinset.2 (List.getElem_mem hl)
  rw [hy] at hm
  simp only [Finset.mem_insert, Finset.mem_singleton] at hm
  rcases hm with hm | hm
  · exact ⟨(q.1, X.nMajor), mem_pairList.2 ⟨h1, by rw [List.getElem?_eq_getElem hl, hm]⟩, Or.inr le_rfl⟩
  · exact ⟨(X.nMajor, q.2), mem_pairList.2 ⟨by rw [List.getElem?_eq_getElem hl, hm], h2⟩, Or.inl le_rfl⟩

/-- The function for pairs, on the sorted lists. -/
theorem pairTruth_spec {X : Cmp} (hX : X.Binary) {y : List ℤ} (hy : y.toFinset = {0, 1}) :
    (X.nMajor < y.length → pairTruth (convertMatrixToSetsV2 X) ((labelled y 1).sort (· ≤ ·))
      ((labelled y 0).sort (· ≤ ·)) = .error .indexError) ∧
    (y.length ≤ X.nMajor → separations X y = 0 → pairTruth (convertMatrixToSetsV2 X) ((labelled y 1).sort (· ≤ ·))
      ((labelled y 0).sort (· ≤ ·)) = .error .zeroDivisionError) ∧
    (y.length ≤ X.nMajor → separations X y ≠ 0 → ∃ d, pairTruth (convertMatrixToSetsV2 X)
        ((labelled y 1).sort (· ≤ ·)) ((labelled y 0).sort (· ≤ ·)) = .ok d ∧
      IsDict d (Opposite y) fun pr => (separatingCount X pr : ℚ) / separations X y) := by
  have hok : y.length ≤ X.nMajor → pairTruth (convertMatrixToSetsV2 X) ((labelled y 1).sort (· ≤ ·))
      ((labelled y 0).sort (· ≤ ·)) =
      counter2proba ((pairList y).map fun pr => (pr, (separatingCount X pr : ℚ))) := by
    intro hl
    unfold pairTruth
    rw [show (labelled y 1).sort (· ≤ ·) ×ˢ (labelled y 0).sort (· ≤ ·) = pairList y from rfl]
    rw [mapM_ok_of (g := fun pr => (pr, (separatingCount X pr : ℚ)))]
    · rfl
    · intro pr hpr
      rw [separating_ok hX (pairList_lt hl hpr).1 (pairList_lt hl hpr).2]
      rfl
  have hsum : (((pairList y).map fun pr => (pr, (separatingCount X pr : ℚ))).map Prod.snd).sum = separations X y := by
    rw [List.map_map, ← List.sum_toFinset _ (pairList_nodup y), pairList_toFinset, separations]
    push_cast
    rfl
  refine ⟨fun hl => ?_, fun hl h0 => ?_, fun hl h0 => ?_⟩
  · unfold pairTruth
    rw [show (labelled y 1).sort (· ≤ ·) ×ˢ (labelled y 0).sort (· ≤ ·) = pairList y from rfl]
    rw [mapM_error_of (e := .indexError)]
    · rfl
    · intro pr _
      rcases separating_error hX pr with ⟨s, hs⟩ | hs <;> rw [hs]
      · exact Or.inl ⟨_, rfl⟩
      · exact Or.inr rfl
    · obtain ⟨pr, h1, h2⟩ := pairList_beyond hy hl
      refine ⟨pr, h1, ?_⟩
      rw [separating_beyond h2]
      rfl
  · rw [hok hl]
    refine (C64_degenerate _).2 ?_ (by rw [hsum, h0]; rfl)
    intro h
    exact pairList_ne hy (List.map_eq_nil_iff.1 h)
  · rw [hok hl, C64_proportional _ (by rw [hsum]; exact_mod_cast h0), hsum]
    refine ⟨_, rfl, ?_, ?_⟩
    · simpa [Function.comp_def] using pairList_nodup y
    · intro pr q
      simp only [List.map_map, List.mem_map, Function.comp, Prod.mk.injEq]
      constructor
      · rintro ⟨pr', hm, rfl, rfl⟩
        exact ⟨mem_pairList.1 hm, rfl⟩
      · rintro ⟨hm, rfl⟩
        exact ⟨pr, mem_pairList.2 hm, rfl, rfl⟩

/-- Each pair counts every separating attribute once. -/
theorem count_attributes {X : Cmp} (hX : X.Binary) {y : List ℤ} {order : Finset ℕ → List ℕ}
    (ho : ∀ S, (order S).Nodup ∧ (order S).toFinset = S) (a : ℕ) :
    (((pairList y).map fun pr => order (attrs X pr.1 \ attrs X pr.2)).flatten).count a = pairsSeparatedBy X y a := by
  classical
  rw [← List.flatMap_def, List.count_flatMap]
  have h1 : (pairList y).map (List.count a ∘ fun pr => order (attrs X pr.1 \ attrs X pr.2)) =
      (pairList y).map fun pr => if X.Stored pr.1 a ∧ ¬ X.Stored pr.2 a then 1 else 0 := by
    apply List.map_congr_left
    intro pr _
    simp only [Function.comp]
    obtain ⟨hnd, hm⟩ := ho (attrs X pr.1 \ attrs X pr.2)
    have hiff : a ∈ order (attrs X pr.1 \ attrs X pr.2) ↔ X.Stored pr.1 a ∧ ¬ X.Stored pr.2 a := by
      rw [← List.mem_toFinset, hm, Finset.mem_sdiff, attrs_eq hX, attrs_eq hX, mem_rowSet, mem_rowSet]
    split
    · rename_i h
      exact List.count_eq_one_of_mem hnd (hiff.2 h)
    · rename_i h
      exact List.count_eq_zero_of_not_mem fun hc => h (hiff.1 hc)
  rw [h1, ← List.sum_toFinset _ (pairList_nodup y), pairList_toFinset, pairsSeparatedBy, Finset.card_filter]
  exact Finset.sum_congr rfl fun _ _ => by congr

theorem length_attributes {X : Cmp} {y : List ℤ} {order : Finset ℕ → List ℕ}
    (ho : ∀ S, (order S).Nodup ∧ (order S).toFinset = S) :
    (((pairList y).map fun pr => order (attrs X pr.1 \ attrs X pr.2)).flatten).length = separations X y := by
  rw [List.length_flatten, List.map_map, separations, ← pairList_toFinset, List.sum_toFinset _ (pairList_nodup y)]
  congr 1
  apply List.map_congr_left
  intro pr _
  obtain ⟨hnd, hm⟩ := ho (attrs X pr.1 \ attrs X pr.2)
  simp only [Function.comp, separatingCount]
  rw [← List.toFinset_card_of_nodup hnd, hm]

/-- The function for samples, on the sorted lists. -/
theorem attributeTruth_spec {X : Cmp} (hX : X.Binary) {y : List ℤ} (hy : y.toFinset = {0, 1})
    {order : Finset ℕ → List ℕ} (ho : ∀ S, (order S).Nodup ∧ (order S).toFinset = S) :
    (X.nMajor < y.length → attributeTruth order (convertMatrixToSetsV2 X) ((labelled y 1).sort (· ≤ ·))
      ((labelled y 0).sort (· ≤ ·)) = .error .indexError) ∧
    (y.length ≤ X.nMajor → ∃ d, attributeTruth order (convertMatrixToSetsV2 X)
        ((labelled y 1).sort (· ≤ ·)) ((labelled y 0).sort (· ≤ ·)) = .ok d ∧
      IsDict d (fun a => 0 < pairsSeparatedBy X y a) fun a => (pairsSeparatedBy X y a : ℚ) / separations X y) := by
  refine ⟨fun hl => ?_, fun hl => ?_⟩
  · unfold attributeTruth
    rw [show (labelled y 1).sort (· ≤ ·) ×ˢ (labelled y 0).sort (· ≤ ·) = pairList y from rfl]
    rw [mapM_error_of (e := .indexError)]
    · rfl
    · intro pr _
      rcases separating_error hX pr with ⟨s, hs⟩ | hs <;> rw [hs]
      · exact Or.inl ⟨_, rfl⟩
      · exact Or.inr rfl
    · obtain ⟨pr, h1, h2⟩ := pairList_beyond hy hl
      refine ⟨pr, h1, ?_⟩
      rw [separating_beyond h2]
      rfl
  · set items := ((pairList y).map fun pr => order (attrs X pr.1 \ attrs X pr.2)).flatten with hitems
    have hok : attributeTruth order (convertMatrixToSetsV2 X) ((labelled y 1).sort (· ≤ ·))
        ((labelled y 0).sort (· ≤ ·)) = counter2proba ((tallyOf items).map fun e => (e.1, (e.2 : ℚ))) := by
      unfold attributeTruth
      rw [show (labelled y 1).sort (· ≤ ·) ×ˢ (labelled y 0).sort (· ≤ ·) = pairList y from rfl]
      rw [mapM_ok_of (g := fun pr => order (attrs X pr.1 \ attrs X pr.2))]
      · rfl
      · intro pr hpr
        rw [separating_ok hX (pairList_lt hl hpr).1 (pairList_lt hl hpr).2]
        rfl
    have hcast : ∀ l : List (ℕ × ℕ), ((l.map fun e => (e.1, (e.2 : ℚ))).map Prod.snd).sum =
        (((l.map Prod.snd).sum : ℕ) : ℚ) := by
      intro l
      induction l with
      | nil => simp
      | cons a l ih => simpa using ih
    have hsum : (((tallyOf items).map fun e => (e.1, (e.2 : ℚ))).map Prod.snd).sum = separations X y := by
      rw [hcast, sum_tallyOf, hitems, length_attributes ho]
    have hmem : ∀ a m, (a, m) ∈ tallyOf items ↔ 0 < pairsSeparatedBy X y a ∧ m = pairsSeparatedBy X y a := by
      intro a m
      rw [mem_tallyOf, hitems, count_attributes hX ho, ← List.count_pos_iff, count_attributes hX ho]
    rw [hok]
    by_cases h0 : separations X y = 0
    · have hnil : items = [] := List.length_eq_zero_iff.1 (by rw [hitems, length_attributes ho, h0])
      refine ⟨[], by rw [hnil]; rfl, List.nodup_nil, ?_⟩
      intro a q
      constructor
      · intro h; cases h
      · rintro ⟨h, -⟩
        have := (hmem a _).2 ⟨h, rfl⟩
        rw [hnil] at this
        cases this
    · rw [C64_proportional _ (by rw [hsum]; exact_mod_cast h0), hsum]
      refine ⟨_, rfl, ?_, ?_⟩
      · simpa [Function.comp_def] using (tallyOf_spec items).1
      · intro a q
        simp only [List.map_map, List.mem_map, Function.comp, Prod.exists, Prod.mk.injEq]
        constructor
        · rintro ⟨a', m, hm, rfl, rfl⟩
          obtain ⟨h, rfl⟩ := (hmem _ _).1 hm
          exact ⟨h, rfl⟩
        · rintro ⟨h, rfl⟩
          exact ⟨a, _, (hmem _ _).2 ⟨h, rfl⟩, rfl, rfl⟩

theorem PruneReach.rows_eq {gamma eps : ℚ} {X : Cmp} {s : Prune} (h : PruneReach gamma eps X s) :
    s.rows.getD (convertMatrixToSetsV2 X) = convertMatrixToSetsV2 X := by
  induction h with
  | init => rfl
  | fit s y _ ih =>
    unfold Prune.fit
    cases checkLabels y <;> simpa using ih

theorem prune_lists {gamma eps : ℚ} {X : Cmp} {s : Prune} (h : PruneReach gamma eps X s) {y : List ℤ}
    (hy : y.toFinset = {0, 1}) {α : Type} (f : List (Finset ℕ) → List ℕ → List ℕ → Py α) :
    withLists (s.fit X y).2.rows (s.fit X y).2.labels f =
      f (convertMatrixToSetsV2 X) ((labelled y 1).sort (· ≤ ·)) ((labelled y 0).sort (· ≤ ·)) := by
  have hc : checkLabels y = .ok () := if_pos hy
  unfold Prune.fit
  simp only [hc, h.rows_eq, withLists, pos_eq hy, neg_eq y]

theorem coupled_lists {gamma eps : ℚ} {X : Cmp} {s : Coupled} (h : CoupledReach gamma eps X s) {y : List ℤ}
    (hy : y.toFinset = {0, 1}) {α : Type} (f : List (Finset ℕ) → List ℕ → List ℕ → Py α) :
    withLists (s.fit X y).2.rows (s.fit X y).2.labels f =
      f (convertMatrixToSetsV2 X) ((labelled y 1).sort (· ≤ ·)) ((labelled y 0).sort (· ≤ ·)) := by
  have hc : checkLabels y = .ok () := if_pos hy
  unfold Coupled.fit
  simp only [hc, h.inv.2.2.1]
  split <;> simp only [withLists, pos_eq hy, neg_eq y]

/-- **C115.** The ground truth for pairs, after a fit with labels 0 and 1 that both occur: for every positive record and
every negative record the number of attributes that the first has and the second does not have, over the sum of these
numbers. If no attribute separates any pair, `ZeroDivisionError`; if there are more labels than records, `IndexError`. -/
theorem C115_pairs (gamma eps : ℚ) (X : Cmp) (hX : X.Binary) (y : List ℤ) (hy : y.toFinset = {0, 1})
    (r : Py (List ((ℕ × ℕ) × ℚ)))
    (hr : (∃ s, PruneReach gamma eps X s ∧ r = (s.fit X y).2.pairTruth) ∨
      ∃ s, CoupledReach gamma eps X s ∧ r = (s.fit X y).2.pairTruth) :
    (X.nMajor < y.length → r = .error .indexError) ∧
    (y.length ≤ X.nMajor → separations X y = 0 → r = .error .zeroDivisionError) ∧
    (y.length ≤ X.nMajor → separations X y ≠ 0 → ∃ d, r = .ok d ∧
      IsDict d (Opposite y) fun pr => (separatingCount X pr : ℚ) / separations X y) := by
  rcases hr with ⟨s, hs, rfl⟩ | ⟨s, hs, rfl⟩
  · unfold Prune.pairTruth
    rw [prune_lists hs hy]
    exact pairTruth_spec hX hy
  · unfold Coupled.pairTruth
    rw [coupled_lists hs hy]
    exact pairTruth_spec hX hy

/-- **C115.** The ground truth for samples, after such a fit: exactly the attributes that some positive record has and some
negative record does not have, each with the number of pairs it separates over the sum of these numbers; it never
divides by zero. If there are more labels than records, `IndexError`. -/
theorem C115_attributes (gamma eps : ℚ) (X : Cmp) (hX : X.Binary) (y : List ℤ) (hy : y.toFinset = {0, 1})
    (order : Finset ℕ → List ℕ) (ho : ∀ S, (order S).Nodup ∧ (order S).toFinset = S) (r : Py (List (ℕ × ℚ)))
    (hr : (∃ s, PruneReach gamma eps X s ∧ r = (s.fit X y).2.attributeTruth order) ∨
      ∃ s, CoupledReach gamma eps X s ∧ r = (s.fit X y).2.attributeTruth order) :
    (X.nMajor < y.length → r = .error .indexError) ∧
    (y.length ≤ X.nMajor → ∃ d, r = .ok d ∧
      IsDict d (fun a => 0 < pairsSeparatedBy X y a) fun a => (pairsSeparatedBy X y a : ℚ) / separations X y) := by
  rcases hr with ⟨s, hs, rfl⟩ | ⟨s, hs, rfl⟩
  · unfold Prune.attributeTruth
    rw [prune_lists hs hy]
    exact attributeTruth_spec hX hy ho
  · unfold Coupled.attributeTruth
    rw [coupled_lists hs hy]
    exact attributeTruth_spec hX hy ho

/-- **C115.** Without a fit, and after a single fit whose labels are refused, both functions raise `AttributeError`. -/
theorem C115_unfitted (gamma eps : ℚ) (order : Finset ℕ → List ℕ) (X : Cmp) (y : List ℤ) (hy : y.toFinset ≠ {0, 1}) :
    ((Prune.init gamma eps).pairTruth = .error .attributeError ∧
      (Prune.init gamma eps).attributeTruth order = .error .attributeError) ∧
    ((Coupled.init gamma eps).pairTruth = .error .attributeError ∧
      (Coupled.init gamma eps).attributeTruth order = .error .attributeError) ∧
    (((Prune.init gamma eps).fit X y).2.pairTruth = .error .attributeError ∧
      ((Prune.init gamma eps).fit X y).2.attributeTruth order = .error .attributeError) ∧
    (((Coupled.init gamma eps).fit X y).2.pairTruth = .error .attributeError ∧
      ((Coupled.init gamma eps).fit X y).2.attributeTruth order = .error .attributeError) := by
  have hc : checkLabels y = .error .assertionError := if_neg hy
  refine ⟨⟨rfl, rfl⟩, ⟨rfl, rfl⟩, ?_, ?_⟩
  · unfold Prune.fit
    simp only [hc]
    exact ⟨rfl, rfl⟩
  · unfold Coupled.fit
    simp only [hc]
    exact ⟨rfl, rfl⟩

/-- **C115.** The two ground truths agree: an attribute has the probability of being chosen when a pair is drawn by the ground
truth for pairs and then one of the attributes that separate it, all being equally likely. -/
theorem C115_two_stage (X : Cmp) (hX : X.Binary) (y : List ℤ) (a : ℕ) :
    (pairsSeparatedBy X y a : ℚ) / separations X y =
      ∑ pr ∈ labelled y 1 ×ˢ labelled y 0, (separatingCount X pr : ℚ) / separations X y *
        if a ∈ attrs X pr.1 \ attrs X pr.2 then 1 / (separatingCount X pr : ℚ) else 0 := by
  classical
  rw [pairsSeparatedBy, Finset.card_filter, Nat.cast_sum, Finset.sum_div]
  refine Finset.sum_congr rfl fun pr _ => ?_
  have hiff : a ∈ attrs X pr.1 \ attrs X pr.2 ↔ X.Stored pr.1 a ∧ ¬ X.Stored pr.2 a := by
    rw [Finset.mem_sdiff, attrs_eq hX, attrs_eq hX, mem_rowSet, mem_rowSet]
  by_cases h : X.Stored pr.1 a ∧ ¬ X.Stored pr.2 a
  · rw [if_pos h, if_pos (hiff.2 h)]
    have h0 : (separatingCount X pr : ℚ) ≠ 0 := by
      rw [Nat.cast_ne_zero, separatingCount, Finset.card_ne_zero]
      exact ⟨a, hiff.2 h⟩
    rw [Nat.cast_one]
    field_simp
  · rw [if_neg h, if_neg fun hc => h (hiff.1 hc)]
    simp

theorem separationTotal_eq (X : Cmp) (y : List ℤ) : separationTotal X y = (separations X y : ℝ) := by
  unfold separationTotal separations
  rw [Finset.sum_product]
  push_cast
  rfl

/-- **C115.** `CFTP_Greedy.sample_a_pair` draws from the ground truth for pairs whenever it does not give up: with one and
the same probability `success` of not giving up, every pair is returned with `success` times its ground truth. -/
theorem C115_pair_law (gamma eps : ℚ) (X : Cmp) (hX : X.Binary) (s s' : Coupled) (hs : CoupledReach gamma eps X s)
    (y : List ℤ) (hf : s.fit X y = (.ok (), s')) :
    ∃ success : ℝ,
      success = 1 - (1 - (separations X y : ℝ) /
        ((∑ p ∈ labelled y 1, ((attrs X p).card : ℝ)) * (labelled y 0).card)) ^ 1024 ∧
      s'.samplePair.prob (.ok (none, s')) = 1 - success ∧
      (∀ d, s'.pairTruth = .ok d → ∀ pr q, (pr, q) ∈ d →
        s'.samplePair.prob (.ok (some pr, s')) = success * (q : ℝ)) ∧
      ∀ pr, ¬ Opposite y pr → s'.samplePair.prob (.ok (some pr, s')) = 0 := by
  classical
  have hfit : (s.fit X y).2 = s' := by rw [hf]
  obtain ⟨hy, hl, hs'⟩ := fitted_of hX hs hf
  have hexp : ∀ f : Py (Option (ℕ × ℕ) × Coupled) → ℝ, s'.samplePair.expect f =
      coupledSuccess X y * ((∑ p ∈ labelled y 1, ∑ n ∈ labelled y 0, ((attrs X p \ attrs X n).card : ℝ) *
        f (.ok (some (p, n), s'))) / separationTotal X y) + (1 - coupledSuccess X y) * f (.ok (none, s')) := by
    intro f
    subst hs'
    have h : (fittedCoupled gamma eps X y).samplePair =
      ((coupling X y).sample Cftp.reset).bind fun r => pure (r.1, { fittedCoupled gamma eps X y with lists := r.2 }) := rfl
    rw [h, RandR.expect_bind, coupling_expect hX hy hl]
    rfl
  have hpair : ∀ pr, s'.samplePair.prob (.ok (some pr, s')) =
      coupledSuccess X y * ((if Opposite y pr then (separatingCount X pr : ℝ) else 0) / separations X y) := by
    intro pr
    unfold RandR.prob
    rw [hexp, if_neg (by simp), mul_zero, add_zero, separationTotal_eq]
    congr 2
    rw [← Finset.sum_product']
    by_cases h : Opposite y pr
    · rw [if_pos h, Finset.sum_eq_single pr]
      · simp [separatingCount]
      · intro b _ hb
        rw [if_neg, mul_zero]
        simpa using hb
      · intro hn
        exact absurd (Finset.mem_product.2 ⟨mem_labelled.2 h.1, mem_labelled.2 h.2⟩) hn
    · rw [if_neg h]
      refine Finset.sum_eq_zero fun b hb => ?_
      rw [if_neg, mul_zero]
      intro e
      have : b = pr := by simpa using e
      subst this
      exact h ⟨mem_labelled.1 (Finset.mem_product.1 hb).1, mem_labelled.1 (Finset.mem_product.1 hb).2⟩
  refine ⟨coupledSuccess X y, by rw [coupledSuccess, separationTotal_eq], ?_, ?_, ?_⟩
  · unfold RandR.prob
    rw [hexp]
    simp
  · intro d hd pr q hm
    obtain ⟨-, h2, h3⟩ := C115_pairs gamma eps X hX y hy s'.pairTruth (Or.inr ⟨s, hs, by rw [hfit]⟩)
    by_cases h0 : separations X y = 0
    · rw [h2 hl h0] at hd
      cases hd
    · obtain ⟨d', hd', hdict⟩ := h3 hl h0
      rw [hd] at hd'
      cases hd'
      obtain ⟨hk, rfl⟩ := (hdict.2 pr q).1 hm
      rw [hpair, if_pos hk]
      push_cast
      rfl
  · intro pr h
    rw [hpair, if_neg h]
    simp

/-- **C115.** `CFTP_Greedy.sample(k)` after a fit: the results are independent draws of `sample_once`. -/
theorem C115_batch (gamma eps : ℚ) (X : Cmp) (hX : X.Binary) (s s' : Coupled) (hs : CoupledReach gamma eps X s)
    (y : List ℤ) (hf : s.fit X y = (.ok (), s')) (draws : List ((ℕ → Finset ℕ → List ℕ) × Option (Finset ℕ)))
    (ho : ∀ d ∈ draws, Traverses d.1) :
    (s'.sample (draws.map Prod.fst)).prob (.ok (draws.map Prod.snd, s')) =
      (draws.map fun d => (s'.sampleOnce d.1).prob (.ok (d.2, s'))).prod := by
  classical
  obtain ⟨hy, hl, hs'⟩ := fitted_of hX hs hf
  have congr : ∀ order, Traverses order → ∀ F G : Py (Option (Finset ℕ) × Coupled) → ℝ,
      (∀ t, F (.ok (t, s')) = G (.ok (t, s'))) → (s'.sampleOnce order).expect F = (s'.sampleOnce order).expect G := by
    intro order ho F G h
    obtain ⟨head, -, hexp⟩ := coupled_expect (gamma := gamma) (eps := eps) hX hy hl ho
    subst hs'
    rw [hexp F, hexp G]
    simp only [h]
  induction draws with
  | nil => simp [RandR.prob, Coupled.sample, RandR.pure_eq, RandR.expect]
  | cons d ds ih =>
    obtain ⟨order, t⟩ := d
    rw [List.map_cons, List.map_cons, List.map_cons, List.prod_cons, ← ih fun d hd => ho d (List.mem_cons_of_mem _ hd)]
    unfold RandR.prob
    rw [mul_comm, ← RandR.expect_const_mul, Coupled.sample]
    rw [RandR.bind_eq, RandR.expect_bind]
    apply congr _ (ho _ List.mem_cons_self)
    intro t'
    simp only [RandR.after, RandR.bind_eq, RandR.expect_bind]
    by_cases ht : t' = t
    · subst ht
      rw [if_pos rfl, mul_one]
      congr 1
      funext x
      rcases x with e | r
      · simp [RandR.after]
      · simp only [RandR.after, RandR.pure_eq, RandR.expect]
        obtain ⟨a, b⟩ := r
        simp
    · rw [if_neg (by simp [ht]), mul_zero]
      have : ∀ (m : RandR (List (Option (Finset ℕ)) × Coupled)), m.expect (fun _ => (0 : ℝ)) = 0 := by
        intro m
        simpa using RandR.expect_const_mul m 0 fun _ => 0
      refine Eq.trans ?_ (this (s'.sample (ds.map Prod.fst)))
      congr 1
      funext x
      rcases x with e | r
      · simp [RandR.after]
      · simp [RandR.after, RandR.pure_eq, RandR.expect, ht]

/-! ### Non-triviality -/

/-- The attributes of the example are those one reads off its rows. -/
theorem separatingCount_head (p n : ℕ) : separatingCount headMatrix (p, n) = (rowSet headMatrix p \ rowSet headMatrix n).card := by
  rw [separatingCount, attrs_eq headMatrix_binary, attrs_eq headMatrix_binary]

theorem separations_head : separations headMatrix [1, 0, 0] = 2 := by
  unfold separations
  rw [Finset.sum_product]
  simp only [separatingCount_head]
  decide

example : ∃ d, ((Prune.init (1 / 2) (1 / 10)).fit headMatrix [1, 0, 0]).2.pairTruth = .ok d ∧
    IsDict d (Opposite [1, 0, 0]) fun pr => (separatingCount headMatrix pr : ℚ) / separations headMatrix [1, 0, 0] :=
  (C115_pairs (1 / 2) (1 / 10) headMatrix headMatrix_binary [1, 0, 0] (by decide) _ (Or.inl ⟨_, .init, rfl⟩)).2.2
    (by decide) (by rw [separations_head]; decide)

end GreedyHead

end Verif
