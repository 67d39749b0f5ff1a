/-
C93, C94: the greedy tail sampler.
-/
import Verif.Lemmas.GreedyArea
import Verif.Lemmas.Py
import Mathlib.Algebra.BigOperators.Intervals

namespace Verif

namespace GreedyArea

variable {order : Finset ℕ → List ℕ}

/-- Row counts need as many rows of labels as of attributes: `IndexError` otherwise. -/
theorem C93_frequencies_length (ho : Traverses order) (X Y : List (List ℤ)) :
    (∃ f, computeFrequencies order X Y = .ok f) ↔ X.length ≤ Y.length := by
  constructor
  · rintro ⟨f, hf⟩
    by_contra h
    rw [computeFrequencies, addRows_short X Y _ (not_le.mp h)] at hf
    cases hf
  · intro h
    obtain ⟨acc, e, -⟩ := addRows_ok ho X Y { d := [], allLabels := [], label := [], attributes := [] } h
    rw [computeFrequencies, e]
    exact ⟨_, rfl⟩

theorem C93_frequencies_raises (X Y : List (List ℤ)) (h : Y.length < X.length) :
    computeFrequencies order X Y = .error .indexError := by
  rw [computeFrequencies, addRows_short X Y _ h]; rfl

theorem added_of_ok (ho : Traverses order) {X Y : List (List ℤ)} {f : Freqs}
    (hf : computeFrequencies order X Y = .ok f) : ∃ acc, Added X.length X Y
      { d := [], allLabels := [], label := [], attributes := [] } acc ∧ f =
        { d := acc.d
          formatted := acc.d.map fun e => (e.1, e.2.mergeSort fun a b => decide (a.2 ≤ b.2))
          allLabels := acc.allLabels, label := acc.label, attributes := acc.attributes } := by
  have h := (C93_frequencies_length ho X Y).mp ⟨f, hf⟩
  obtain ⟨acc, e, ha⟩ := addRows_ok ho X Y { d := [], allLabels := [], label := [], attributes := [] } h
  rw [computeFrequencies, e] at hf
  exact ⟨acc, ha, (Except.ok.inj hf).symm⟩

/-- **C93.** What the counting function returns, whatever order Python visits its sets in: for two different
labels (attributes) the number of rows in which they occur together, for a label and an attribute the number
of rows with both, for a label the number of rows with it. -/
theorem C93_frequencies (ho : Traverses order) {X Y : List (List ℤ)} {f : Freqs}
    (hf : computeFrequencies order X Y = .ok f) :
    (∀ a b, a ≠ b → f.label.read a b = together X.length Y Y a b) ∧
    (∀ a b, a ≠ b → f.attributes.read a b = together X.length X X a b) ∧
    (∀ a, f.label.read a a = 0 ∧ f.attributes.read a a = 0) ∧
    (∀ l a, f.d.read l a = together X.length Y X l a) ∧
    (∀ l, f.allLabels.count l = together X.length Y Y l l) := by
  obtain ⟨acc, h, rfl⟩ := added_of_ok ho hf
  refine ⟨?_, ?_, ?_, ?_, ?_⟩
  · intro a b hab
    rw [h.label, if_neg hab]; simp [Table.read]
  · intro a b hab
    rw [h.attributes, if_neg hab]; simp [Table.read]
  · intro a
    rw [h.label, h.attributes, if_pos rfl, if_pos rfl]; simp [Table.read]
  · intro l a
    rw [h.cross]; simp [Table.read]
  · intro l
    rw [h.all]; simp

/-- **C93.** The formatted counts: one entry for each label that occurs together with an attribute, which
lists each of these attributes once, with its count, by increasing count. -/
theorem C93_formatted (ho : Traverses order) {X Y : List (List ℤ)} {f : Freqs}
    (hf : computeFrequencies order X Y = .ok f) :
    (f.formatted.map Prod.fst).Nodup ∧
    (∀ l, l ∈ f.formatted.map Prod.fst ↔ ∃ a, 0 < together X.length Y X l a) ∧
    ∀ l lst, (l, lst) ∈ f.formatted → (lst.map Prod.fst).Nodup ∧
      (∀ a n, (a, n) ∈ lst ↔ n = together X.length Y X l a ∧ 0 < n) ∧
      lst.Pairwise fun e e' => e.2 ≤ e'.2 := by
  obtain ⟨acc, h, rfl⟩ := added_of_ok ho hf
  have hok : TableOk acc.d := h.ok (by simp [TableOk])
  have hread : ∀ l a, acc.d.read l a = together X.length Y X l a := by
    intro l a; rw [h.cross]; simp [Table.read]
  have hkeys : (acc.d.map fun e => (e.1, e.2.mergeSort fun a b => decide (a.2 ≤ b.2))).map Prod.fst =
      acc.d.map Prod.fst := by
    rw [List.map_map]; rfl
  refine ⟨?_, ?_, ?_⟩
  · show (List.map Prod.fst _).Nodup
    rw [hkeys]; exact hok.1
  · intro l
    show l ∈ List.map Prod.fst _ ↔ _
    rw [hkeys]
    constructor
    · intro hl
      obtain ⟨⟨l', d⟩, hm, rfl⟩ := List.mem_map.mp hl
      obtain ⟨hne, hd⟩ := hok.2 _ hm
      obtain ⟨⟨a, n⟩, ha⟩ := List.exists_mem_of_ne_nil _ hne
      refine ⟨a, ?_⟩
      rw [← hread, hok.read hm]
      obtain ⟨h1, h2⟩ := (hd.mem_iff a n).mp ha
      show 0 < read d a
      rw [h1]; exact h2
    · rintro ⟨a, ha⟩
      rw [← hread] at ha
      exact Table.read_pos_key ha
  · intro l lst hl
    obtain ⟨⟨l', d⟩, hm, e⟩ := List.mem_map.mp hl
    cases e
    have hd := (hok.2 _ hm).2
    refine ⟨?_, ?_, ?_⟩
    · exact ((List.mergeSort_perm d _).map Prod.fst).nodup_iff.mpr hd.1
    · intro a n
      rw [List.mem_mergeSort, hd.mem_iff, ← hread, hok.read hm]
      constructor
      · rintro ⟨h1, h2⟩; exact ⟨h1.symm, h2⟩
      · rintro ⟨h1, h2⟩; exact ⟨h1.symm, h2⟩
    · have := List.pairwise_mergeSort (le := fun a b : ℕ × ℕ => decide (a.2 ≤ b.2))
        (by intro a b c; simp only [decide_eq_true_eq]; omega)
        (by intro a b; simp only [Bool.or_eq_true, decide_eq_true_eq]; omega) d
      exact this.imp (by intro a b hab; simpa using hab)

/-! ### The sampler -/

theorem ones_toFinset {Y : List (List ℤ)} {i : ℕ} {row : List ℤ} (h : Y[i]? = some row) :
    (ones row).toFinset = labelsOf Y i := by
  classical
  ext l
  have hr : Y.getD i [] = row := by rw [List.getD_eq_getElem?_getD, h]; rfl
  rw [List.mem_toFinset, mem_ones, labelsOf,
    Finset.mem_filter, Finset.mem_range, hr]
  constructor
  · intro hl
    exact ⟨(List.getElem?_eq_some_iff.mp hl).1, row, h, hl⟩
  · rintro ⟨-, row', h', hl⟩
    rw [h] at h'
    cases h'
    exact hl

theorem ones_length {Y : List (List ℤ)} {i : ℕ} {row : List ℤ} (h : Y[i]? = some row) :
    (ones row).length = (labelsOf Y i).card := by
  rw [← ones_toFinset h, List.toFinset_card_of_nodup (nodup_ones row)]

theorem sum_zeroOne : ∀ {row : List ℤ}, (∀ v ∈ row, v = 0 ∨ v = 1) → row.sum = ((ones row).length : ℤ)
  | [], _ => rfl
  | v :: row, h => by
    have ih := sum_zeroOne fun w hw => h w (List.mem_cons_of_mem _ hw)
    rw [List.sum_cons, ih]
    have : (ones (v :: row)).length = (if v = 1 then 1 else 0) + (ones row).length := by
      unfold ones
      rw [List.length_cons, List.range_succ_eq_map, List.filter_cons, List.filter_map, ]
      simp only [List.getD_cons_zero]
      split <;> simp_all [Function.comp_def, Nat.add_comm]
    rw [this]
    rcases h v List.mem_cons_self with rfl | rfl <;> simp

theorem tailWeight_eq {Y : List (List ℤ)} (h01 : ZeroOne Y) {i : ℕ} {row : List ℤ} (h : Y[i]? = some row) :
    tailWeight row = areaWeight Y i := by
  have hm : row ∈ Y := List.mem_of_getElem? h
  rw [tailWeight, areaWeight, sum_zeroOne (h01 row hm), ones_length h]
  rcases Nat.eq_zero_or_pos (labelsOf Y i).card with h0 | h0
  · rw [h0]; simp
  · congr 1
    have : (((labelsOf Y i).card : ℤ) - 1) = (((labelsOf Y i).card - 1 : ℕ) : ℤ) := by omega
    rw [this, zpow_natCast]

theorem areaWeight_nonneg (Y : List (List ℤ)) (i : ℕ) : 0 ≤ areaWeight Y i := by
  unfold areaWeight; positivity

/-- The set of size `k` that the code builds from `first` in a row with the labels `L`. -/
def builtTail (order : Finset ℕ → List ℕ) (f : Freqs) (L : Finset ℕ) (first k : ℕ) : Finset ℕ :=
  match grow f.label.read order (k - 1) {first} (L.erase first) with
  | .ok T => T
  | .error _ => ∅

theorem grow_spec (ho : Traverses order) {X Y : List (List ℤ)} {f : Freqs}
    (hf : computeFrequencies order X Y = .ok f) {L : Finset ℕ} {first k : ℕ} (h1 : first ∈ L)
    (hk : k + 1 ≤ L.card) : ∃ run, GreedyRun (together X.length Y Y) L run ∧ run.head? = some first ∧
      run.length = k + 1 ∧ grow f.label.read order k {first} (L.erase first) = .ok run.toFinset := by
  have h0 : GreedyRun f.label.read L [first] := by
    refine ⟨by simp, by simpa using h1, ?_⟩
    intro k hk hk0
    simp at hk
    omega
  obtain ⟨run, g1, g2, g3, g4⟩ := grow_ok f.label.read ho L k [first] h0 (by simp) (by simp; omega)
  refine ⟨run, g1.congr (C93_frequencies ho hf).1, ?_, by rw [g3]; simp; omega, ?_⟩
  · obtain ⟨t, rfl⟩ := g2; rfl
  · have e1 : ([first] : List ℕ).toFinset = {first} := rfl
    rw [← g4, e1, Finset.sdiff_singleton_eq_erase]

theorem builtTail_spec (ho : Traverses order) {X Y : List (List ℤ)} {f : Freqs}
    (hf : computeFrequencies order X Y = .ok f) {L : Finset ℕ} {first k : ℕ} (h1 : first ∈ L) (hk0 : 1 ≤ k)
    (hk : k ≤ L.card) : ∃ run, GreedyRun (together X.length Y Y) L run ∧ run.head? = some first ∧
      run.length = k ∧ builtTail order f L first k = run.toFinset := by
  obtain ⟨run, g1, g2, g3, g4⟩ := grow_spec ho hf h1 (k := k - 1) (by omega)
  refine ⟨run, g1, g2, by omega, ?_⟩
  rw [builtTail, g4]

theorem grow_eq_builtTail (ho : Traverses order) {X Y : List (List ℤ)} {f : Freqs}
    (hf : computeFrequencies order X Y = .ok f) {L : Finset ℕ} {first k : ℕ} (h1 : first ∈ L)
    (hk : k + 1 ≤ L.card) :
    grow f.label.read order k {first} (L.erase first) = .ok (builtTail order f L first (k + 1)) := by
  obtain ⟨run, -, -, -, g4⟩ := grow_spec ho hf h1 hk
  rw [builtTail, Nat.add_sub_cancel, g4]

/-- What happens after the row is drawn. -/
def rowProgram (strict : Bool) (order : Finset ℕ → List ℕ) (f : Freqs) (row : List ℤ) :
    Rand (Option (Finset ℕ)) := do
  if ones row = [] then return none
  else do
    let k ← choices strict ((List.range (ones row).length).map fun j : ℕ => (j : ℚ))
    let j ← uniformIdx (ones row).length
    let first ← Rand.lift (pyGet (ones row) j)
    let T ← Rand.lift (grow f.label.read order k {first} ((ones row).toFinset.erase first))
    return some T

theorem sampleOnce_eq (strict : Bool) (s : Fitted) : sampleOnce strict order s =
    (choices strict s.weights).bind fun i => (Rand.lift (pyGet s.Y i)).bind (rowProgram strict order s.freqs) := rfl

theorem sum_range_cast : ∀ m : ℕ, ((List.range m).map fun j : ℕ => (j : ℚ)).sum = (m.choose 2 : ℚ)
  | 0 => by simp
  | m + 1 => by
    rw [List.range_succ, List.map_append, List.sum_append, sum_range_cast m, Nat.choose_succ_succ' m 1]
    simp [Nat.choose_one_right]
    ring

theorem sum_range_list {β : Type} [AddCommMonoid β] (l : List ℕ) (hl : l.Nodup) (g : ℕ → β) :
    ∑ j ∈ Finset.range l.length, g (l.getD j 0) = ∑ f ∈ l.toFinset, g f := by
  rw [List.sum_toFinset g hl, Finset.sum_range]
  rw [← List.sum_ofFn]
  congr 1
  apply List.ext_getElem
  · simp
  · intro i h1 h2
    simp at h1
    simp [h1]

/-- The part of the program after both draws. -/
theorem expect_first (ho : Traverses order) {X Y : List (List ℤ)} {f : Freqs}
    (hf : computeFrequencies order X Y = .ok f) {row : List ℤ} {k : ℕ} (hk : k + 1 ≤ (ones row).length)
    (g : Py (Option (Finset ℕ)) → ℚ) :
    ((uniformIdx (ones row).length).bind fun j => (Rand.lift (pyGet (ones row) j)).bind fun first =>
      (Rand.lift (grow f.label.read order k {first} ((ones row).toFinset.erase first))).bind fun T =>
        (pure (some T) : Rand (Option (Finset ℕ)))).expect g =
      (∑ a ∈ (ones row).toFinset, g (.ok (some (builtTail order f (ones row).toFinset a (k + 1))))) /
        ((ones row).length : ℚ) := by
  have hm : (ones row).length ≠ 0 := by omega
  rw [Rand.expect_bind, expect_uniformIdx hm, ← sum_range_list (ones row) (nodup_ones row)]
  congr 1
  apply Finset.sum_congr rfl
  intro j hj
  have hj := Finset.mem_range.mp hj
  have hmem : (ones row).getD j 0 ∈ (ones row).toFinset := by
    rw [getD_lt hj, List.mem_toFinset]; exact List.getElem_mem _
  have hcard : k + 1 ≤ (ones row).toFinset.card := by
    rw [List.toFinset_card_of_nodup (nodup_ones row)]; exact hk
  show Rand.expect g ((Rand.lift (pyGet (ones row) (j : ℤ))).bind _) = _
  rw [pyGet_nat _ j hj, ← getD_lt hj 0]
  show Rand.expect g ((Rand.lift (grow f.label.read order k {(ones row).getD j 0} _)).bind _) = _
  rw [grow_eq_builtTail ho hf hmem hcard]
  rfl

theorem expect_row (strict : Bool) (ho : Traverses order) {X Y : List (List ℤ)} {f : Freqs}
    (hf : computeFrequencies order X Y = .ok f) {row : List ℤ} (h : ones row ≠ [])
    (x : Py (Option (Finset ℕ))) :
    (rowProgram strict order f row).prob x = rowShare strict (ones row).toFinset
      (builtTail order f (ones row).toFinset) x := by
  have hcard : (ones row).toFinset.card = (ones row).length := List.toFinset_card_of_nodup (nodup_ones row)
  have hpos : 0 < (ones row).length := List.length_pos_iff.mpr h
  rw [Rand.prob, rowProgram, if_neg h, rowShare, hcard]
  simp only [Rand.monad_bind]
  by_cases h1 : (ones row).length = 1
  · rw [if_pos h1]
    have hc : choices strict ((List.range (ones row).length).map fun j : ℕ => (j : ℚ)) =
        if strict then .raise .valueError else pure 0 := by
      rw [h1]; simp [choices]
    rw [hc]
    cases strict with
    | true =>
      show (if (Except.error PyErr.valueError : Py (Option (Finset ℕ))) = x then (1 : ℚ) else 0) = _
      simp only [if_true, eq_comm]
    | false =>
      show Rand.expect _ (Rand.bind _ _) = _
      have := expect_first ho hf (row := row) (k := 0) (by omega)
        (fun y : Py (Option (Finset ℕ)) => if y = x then (1 : ℚ) else 0)
      refine Eq.trans this ?_
      obtain ⟨a, ha⟩ := List.length_eq_one_iff.mp h1
      rw [ha]
      have : builtTail order f {a} a 1 = {a} := rfl
      simp only [List.toFinset_cons, List.toFinset_nil, insert_empty_eq, Finset.sum_singleton, List.length_cons,
        List.length_nil, zero_add, Nat.cast_one, div_one, Bool.false_eq_true, if_false, this]
      simp only [eq_comm]
  · rw [if_neg h1]
    have hch : 0 < (ones row).length.choose 2 := Nat.choose_pos (by omega)
    have hs : ((List.range (ones row).length).map fun j : ℕ => (j : ℚ)).sum ≠ 0 := by
      rw [sum_range_cast]; exact_mod_cast hch.ne'
    have hnn : ∀ q ∈ (List.range (ones row).length).map fun j : ℕ => (j : ℚ), 0 ≤ q := by
      intro q hq
      obtain ⟨j, -, rfl⟩ := List.mem_map.mp hq
      positivity
    rw [choices_pos hs, Rand.expect_bind, expect_normalised hnn (sum_pos_of_ne hnn hs), sum_range_cast]
    rw [List.length_map, List.length_range]
    have hIcc : Finset.Icc 1 (ones row).length = (Finset.range (ones row).length).map (addRightEmbedding 1) := by
      rw [Finset.range_eq_Ico, Finset.map_add_right_Ico]
      ext; simp
    rw [hIcc, Finset.sum_map, Finset.sum_div]
    apply Finset.sum_congr rfl
    intro k hk
    have hk := Finset.mem_range.mp hk
    have e1 : ((List.range (ones row).length).map fun j : ℕ => (j : ℚ)).getD k 0 = (k : ℚ) := by
      rw [getD_lt (by simpa using hk)]; simp
    rw [e1]
    have := expect_first ho hf (row := row) (k := k) (by omega)
        (fun y : Py (Option (Finset ℕ)) => if y = x then (1 : ℚ) else 0)
    simp only [Rand.cont]
    rw [this]
    rw [Finset.sum_div, Finset.mul_sum, Finset.sum_div]
    apply Finset.sum_congr rfl
    intro a _
    simp only [addRightEmbedding_apply, Nat.cast_add, Nat.cast_one, add_sub_cancel_right, eq_comm]
    ring

theorem fit_ok {X Y : List (List ℤ)} {s : Fitted} (h : fit order X Y = .ok s) :
    computeFrequencies order X Y = .ok s.freqs ∧ s.Y = Y ∧ s.weights = Y.map tailWeight := by
  unfold fit at h
  cases hf : computeFrequencies order X Y with
  | error e => rw [hf] at h; cases h
  | ok f =>
    rw [hf] at h
    cases h
    exact ⟨rfl, rfl, rfl⟩

theorem weights_sum {Y : List (List ℤ)} (h01 : ZeroOne Y) :
    (Y.map tailWeight).sum = ∑ i ∈ Finset.range Y.length, areaWeight Y i := by
  rw [Finset.sum_range, ← List.sum_ofFn]
  congr 1
  apply List.ext_getElem
  · simp
  · intro i h1 h2
    rw [List.length_map] at h1
    rw [List.getElem_map, List.getElem_ofFn]
    exact tailWeight_eq h01 (List.getElem?_eq_getElem h1)

theorem areaWeight_pos_iff (Y : List (List ℤ)) (i : ℕ) : 0 < areaWeight Y i ↔ (labelsOf Y i).Nonempty := by
  unfold areaWeight
  rw [← Finset.card_pos]
  constructor
  · intro h
    by_contra hc
    have : (labelsOf Y i).card = 0 := by omega
    rw [this] at h
    simp at h
  · intro h
    have : (0 : ℚ) < (labelsOf Y i).card := by exact_mod_cast h
    positivity

theorem mem_labelsOf {Y : List (List ℤ)} {i l : ℕ} : l ∈ labelsOf Y i ↔ IsOne Y i l := by
  classical
  rw [labelsOf, Finset.mem_filter, Finset.mem_range]
  constructor
  · exact fun h => h.2
  · intro h
    refine ⟨?_, h⟩
    obtain ⟨row, h1, h2⟩ := h
    rw [List.getD_eq_getElem?_getD, h1]
    exact (List.getElem?_eq_some_iff.mp h2).1

theorem total_pos {Y : List (List ℤ)} (hs : ∃ i l, IsOne Y i l) :
    0 < ∑ i ∈ Finset.range Y.length, areaWeight Y i := by
  obtain ⟨i, l, h⟩ := hs
  have hi : i < Y.length := by
    obtain ⟨row, h1, -⟩ := h
    exact (List.getElem?_eq_some_iff.mp h1).1
  refine lt_of_lt_of_le ((areaWeight_pos_iff Y i).mpr ⟨l, mem_labelsOf.mpr h⟩) ?_
  exact Finset.single_le_sum (f := areaWeight Y) (fun j _ => areaWeight_nonneg Y j) (Finset.mem_range.mpr hi)

theorem tailWeight_nonneg {Y : List (List ℤ)} (h01 : ZeroOne Y) : ∀ q ∈ Y.map tailWeight, 0 ≤ q := by
  intro q hq
  obtain ⟨row, hr, rfl⟩ := List.mem_map.mp hq
  obtain ⟨i, hi, rfl⟩ := List.mem_iff_getElem.mp hr
  rw [tailWeight_eq h01 (List.getElem?_eq_getElem hi)]
  exact areaWeight_nonneg Y i

/-- **C94.** The law of the greedy tail sampler: the row is drawn with its area weight; the tail is the
outcome of a greedy run through the labels of that row, from a uniform first label and for a size drawn with
weight `size - 1`. -/
theorem C94_law (strict : Bool) (ho : Traverses order) {X Y : List (List ℤ)} {s : Fitted}
    (hfit : fit order X Y = .ok s) (h01 : ZeroOne Y) (hs : ∃ i l, IsOne Y i l) :
    ∃ tail : Finset ℕ → ℕ → ℕ → Finset ℕ,
      (∀ L first k, first ∈ L → 1 ≤ k → k ≤ L.card → ∃ run, GreedyRun (together X.length Y Y) L run ∧
        run.head? = some first ∧ run.length = k ∧ tail L first k = run.toFinset) ∧
      ∀ x, (sampleOnce strict order s).prob x =
        ∑ i ∈ Finset.range Y.length, areaWeight Y i / (∑ j ∈ Finset.range Y.length, areaWeight Y j) *
          rowShare strict (labelsOf Y i) (tail (labelsOf Y i)) x := by
  obtain ⟨hf, hY, hw⟩ := fit_ok hfit
  refine ⟨builtTail order s.freqs, fun L first k h1 h2 h3 => builtTail_spec ho hf h1 h2 h3, ?_⟩
  intro x
  have hsum := weights_sum h01
  have hne : (Y.map tailWeight).sum ≠ 0 := by rw [hsum]; exact (total_pos hs).ne'
  rw [Rand.prob, sampleOnce_eq, hw, hY, choices_pos hne, Rand.expect_bind,
    expect_normalised (tailWeight_nonneg h01) (sum_pos_of_ne (tailWeight_nonneg h01) hne), hsum, List.length_map,
    Finset.sum_div]
  apply Finset.sum_congr rfl
  intro i hi
  have hi := Finset.mem_range.mp hi
  have hrow := List.getElem?_eq_getElem hi
  have e1 : (Y.map tailWeight).getD i 0 = areaWeight Y i := by
    rw [getD_lt (by simpa using hi), List.getElem_map, tailWeight_eq h01 hrow]
  rw [e1]
  rcases eq_or_lt_of_le (areaWeight_nonneg Y i) with h0 | h0
  · rw [← h0]; simp
  have hones : ones Y[i] ≠ [] := by
    intro h
    obtain ⟨l, hl⟩ := (areaWeight_pos_iff Y i).mp h0
    rw [← ones_toFinset hrow, h] at hl
    simp at hl
  have e2 : Rand.cont (fun y : Py (Option (Finset ℕ)) => if y = x then (1 : ℚ) else 0)
      (fun i : ℕ => (Rand.lift (pyGet Y (i : ℤ))).bind (rowProgram strict order s.freqs)) (.ok i) =
      (rowProgram strict order s.freqs Y[i]).prob x := by
    show Rand.expect _ ((Rand.lift (pyGet Y (i : ℤ))).bind _) = _
    rw [pyGet_nat _ i hi]
    rfl
  rw [e2, expect_row strict ho hf hones, ones_toFinset hrow]
  ring

theorem choices_proper (strict : Bool) (ws : List ℚ) : (choices strict ws).Proper := by
  unfold choices
  split
  · trivial
  · split
    · cases strict <;> trivial
    · exact npChoice_proper _

theorem sampleOnce_proper (strict : Bool) (s : Fitted) : (sampleOnce strict order s).Proper := by
  rw [sampleOnce_eq]
  refine Rand.proper_bind _ _ (choices_proper _ _) fun i => Rand.proper_bind _ _ trivial fun row => ?_
  unfold rowProgram
  split
  · trivial
  · exact Rand.proper_bind _ _ (choices_proper _ _) fun k => Rand.proper_bind _ _ (uniformIdx_proper _)
      fun j => Rand.proper_bind _ _ trivial fun a => Rand.proper_bind _ _ trivial fun T => trivial

/-- **C94.** The possible results: a non-empty set of labels of one row, with at least two of them unless the
row has only one label. From Python 3.9 on, such a row makes the call raise `ValueError` instead. -/
theorem C94_outcomes (strict : Bool) (ho : Traverses order) {X Y : List (List ℤ)} {s : Fitted}
    (hfit : fit order X Y = .ok s) (h01 : ZeroOne Y) (hs : ∃ i l, IsOne Y i l) {x : Py (Option (Finset ℕ))}
    (hx : (sampleOnce strict order s).Outcome x) :
    (∃ i T, x = .ok (some T) ∧ T.Nonempty ∧ (∀ l ∈ T, IsOne Y i l) ∧
      (T.card = 1 → strict = false ∧ ∃! l, IsOne Y i l)) ∨
    (x = .error .valueError ∧ strict = true ∧ ∃ i, ∃! l, IsOne Y i l) := by
  obtain ⟨tail, ht, hp⟩ := C94_law strict ho hfit h01 hs
  have hpos := (Rand.prob_pos_iff _ (sampleOnce_proper strict s) x).mpr hx
  rw [hp] at hpos
  obtain ⟨i, -, hi⟩ := Finset.exists_ne_zero_of_sum_ne_zero hpos.ne'
  have hw : areaWeight Y i ≠ 0 := by intro h; rw [h] at hi; simp at hi
  have hne := (areaWeight_pos_iff Y i).mp (lt_of_le_of_ne (areaWeight_nonneg Y i) (Ne.symm hw))
  have hr : rowShare strict (labelsOf Y i) (tail (labelsOf Y i)) x ≠ 0 := by
    intro h; rw [h] at hi; simp at hi
  unfold rowShare at hr
  by_cases h1 : (labelsOf Y i).card = 1
  · rw [if_pos h1] at hr
    have huniq : ∃! l, IsOne Y i l := by
      obtain ⟨a, ha⟩ := Finset.card_eq_one.mp h1
      refine ⟨a, mem_labelsOf.mp (by rw [ha]; simp), ?_⟩
      intro b hb
      have := mem_labelsOf.mpr hb
      rw [ha] at this
      simpa using this
    cases strict with
    | true =>
      refine Or.inr ⟨?_, rfl, i, huniq⟩
      by_contra hc
      simp [hc] at hr
    | false =>
      refine Or.inl ⟨i, labelsOf Y i, ?_, hne, fun l hl => mem_labelsOf.mp hl, fun _ => ⟨rfl, huniq⟩⟩
      by_contra hc
      simp [hc] at hr
  · rw [if_neg h1] at hr
    obtain ⟨k, hk, hr⟩ := Finset.exists_ne_zero_of_sum_ne_zero hr
    obtain ⟨a, ha, hr⟩ := Finset.exists_ne_zero_of_sum_ne_zero hr
    rw [Finset.mem_Icc] at hk
    have hk1 : k ≠ 1 := by rintro rfl; simp at hr
    have hxe : x = .ok (some (tail (labelsOf Y i) a k)) := by
      by_contra hc
      rw [if_neg hc] at hr
      simp at hr
    obtain ⟨run, g1, g2, g3, g4⟩ := ht _ a k ha hk.1 hk.2
    have hcard : (tail (labelsOf Y i) a k).card = k := by
      rw [g4, List.toFinset_card_of_nodup g1.nodup, g3]
    refine Or.inl ⟨i, _, hxe, Finset.card_pos.mp (by omega), ?_, by omega⟩
    intro l hl
    rw [g4, List.mem_toFinset] at hl
    exact mem_labelsOf.mp (g1.inside l hl)

/-- **C94.** If every row has no label or several, a single label is never sampled: the sampler is not
proportional to area, for which single labels matter too. -/
theorem C94_no_single (strict : Bool) (ho : Traverses order) {X Y : List (List ℤ)} {s : Fitted}
    (hfit : fit order X Y = .ok s) (h01 : ZeroOne Y) (hs : ∃ i l, IsOne Y i l)
    (hmany : ∀ i l, IsOne Y i l → ∃ l', l' ≠ l ∧ IsOne Y i l') (l : ℕ) :
    (sampleOnce strict order s).prob (.ok (some {l})) = 0 ∧
      ∀ e, (sampleOnce strict order s).prob (.error e) = 0 := by
  have hno : ∀ i, ¬ ∃! l, IsOne Y i l := by
    rintro i ⟨a, ha, hu⟩
    obtain ⟨b, hb, hb'⟩ := hmany i a ha
    exact hb (hu b hb')
  have hz : ∀ x, ¬ (sampleOnce strict order s).Outcome x → (sampleOnce strict order s).prob x = 0 := by
    intro x hx
    have h0 : 0 ≤ (sampleOnce strict order s).prob x :=
      Rand.expect_nonneg _ (sampleOnce_proper strict s) _ (fun y => by split <;> norm_num)
    by_contra hc
    exact hx ((Rand.prob_pos_iff _ (sampleOnce_proper strict s) x).mp (lt_of_le_of_ne h0 (Ne.symm hc)))
  refine ⟨hz _ ?_, fun e => hz _ ?_⟩
  · intro ho'
    rcases C94_outcomes strict ho hfit h01 hs ho' with ⟨i, T, h1, -, -, h3⟩ | ⟨h1, -, i, hi⟩
    · have hT : T = {l} := by
        have := Except.ok.inj h1
        exact (Option.some.inj this).symm
      exact hno i (h3 (by rw [hT]; simp)).2
    · cases h1
  · intro ho'
    rcases C94_outcomes strict ho hfit h01 hs ho' with ⟨i, T, h1, -⟩ | ⟨-, -, i, hi⟩
    · cases h1
    · exact hno i hi

open Classical in
/-- **C94.** From Python 3.9 on, the probability of `ValueError` is the share of the rows with exactly one
label: their number over the total area weight. -/
theorem C94_raises (ho : Traverses order) {X Y : List (List ℤ)} {s : Fitted}
    (hfit : fit order X Y = .ok s) (h01 : ZeroOne Y) (hs : ∃ i l, IsOne Y i l) :
    (sampleOnce true order s).prob (.error .valueError) =
      (((Finset.range Y.length).filter fun i => ∃! l, IsOne Y i l).card : ℚ) /
        ∑ i ∈ Finset.range Y.length, areaWeight Y i := by
  obtain ⟨tail, -, hp⟩ := C94_law true ho hfit h01 hs
  rw [hp, Finset.card_filter, Nat.cast_sum, Finset.sum_div]
  apply Finset.sum_congr rfl
  intro i _
  have hiff : (∃! l, IsOne Y i l) ↔ (labelsOf Y i).card = 1 := by
    rw [Finset.card_eq_one]
    constructor
    · rintro ⟨a, ha, hu⟩
      refine ⟨a, ?_⟩
      ext b
      rw [mem_labelsOf, Finset.mem_singleton]
      exact ⟨fun h => hu b h, fun h => h ▸ ha⟩
    · rintro ⟨a, ha⟩
      refine ⟨a, mem_labelsOf.mp (by rw [ha]; simp), ?_⟩
      intro b hb
      have := mem_labelsOf.mpr hb
      rw [ha] at this
      simpa using this
  by_cases h1 : (labelsOf Y i).card = 1
  · rw [if_pos (hiff.mpr h1), rowShare, if_pos h1, areaWeight, h1]
    simp
  · rw [if_neg (fun h => h1 (hiff.mp h)), rowShare, if_neg h1]
    simp

/-- **C94.** Without a label there is nothing to draw: `ValueError` from Python 3.9 on, the pair of two empty
sets (not a set of labels) on Python 3.8, `IndexError` without rows. -/
theorem C94_empty (strict : Bool) {X Y : List (List ℤ)} {s : Fitted}
    (hfit : fit order X Y = .ok s) (h01 : ZeroOne Y) (hs : ¬ ∃ i l, IsOne Y i l) :
    sampleOnce strict order s = .done (if Y = [] then .error .indexError
      else if strict then .error .valueError else .ok none) := by
  obtain ⟨hf, hY, hw⟩ := fit_ok hfit
  have hzero : ∀ i, labelsOf Y i = ∅ := by
    intro i
    rw [Finset.eq_empty_iff_forall_notMem]
    intro l hl
    exact hs ⟨i, l, mem_labelsOf.mp hl⟩
  rw [sampleOnce_eq, hw, hY]
  by_cases hnil : Y = []
  · subst hnil; rfl
  have hlen : 0 < Y.length := List.length_pos_iff.mpr hnil
  have hsum : (Y.map tailWeight).sum = 0 := by
    rw [weights_sum h01]
    apply Finset.sum_eq_zero
    intro i _
    rw [areaWeight, hzero]; simp
  rw [if_neg hnil, choices, if_neg (by simpa using hnil), if_pos hsum]
  cases strict with
  | true => rfl
  | false =>
    have hi : (Y.map tailWeight).length - 1 < Y.length := by rw [List.length_map]; omega
    show (Rand.lift (pyGet Y (((Y.map tailWeight).length - 1 : ℕ) : ℤ))).bind _ = _
    rw [pyGet_nat _ _ hi]
    show rowProgram false order s.freqs _ = _
    have hones : ones Y[(Y.map tailWeight).length - 1] = [] := by
      have := ones_toFinset (List.getElem?_eq_getElem hi)
      rw [hzero] at this
      simpa using this
    rw [rowProgram, if_pos hones]
    rfl

/-! ### A concrete case -/

theorem traverses_sort : Traverses fun S : Finset ℕ => S.sort (· ≤ ·) := fun S =>
  ⟨Finset.sort_nodup S (r := (· ≤ ·)), fun x => Finset.mem_sort (r := (· ≤ ·))⟩

/-- Two rows: the labels 0, 1, 2 and the label 1; the hypotheses hold, and a row has exactly one label. -/
example : ∃ s, fit (fun S => S.sort (· ≤ ·)) [[1, 0], [1, 1]] [[1, 1, 1], [0, 1, 0]] = .ok s ∧
    ZeroOne [[1, 1, 1], [0, 1, 0]] ∧ IsOne [[1, 1, 1], [0, 1, 0]] 0 2 ∧
    (∃! l, IsOne [[1, 1, 1], [0, 1, 0]] 1 l) := by
  obtain ⟨f, hf⟩ := (C93_frequencies_length traverses_sort [[1, 0], [1, 1]] [[1, 1, 1], [0, 1, 0]]).mpr (by simp)
  refine ⟨_, by rw [fit, hf]; rfl, by simp [ZeroOne], ⟨_, rfl, rfl⟩, 1, ⟨_, rfl, rfl⟩, ?_⟩
  rintro y ⟨row, h1, h2⟩
  cases h1
  match y, h2 with
  | 0, h2 => simp at h2
  | 1, _ => rfl
  | 2, h2 => simp at h2
  | n + 3, h2 => simp at h2

end GreedyArea

end Verif
