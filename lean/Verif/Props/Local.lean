/-
Properties of the local samplers (C60, C61, C62, C63, C75, C76).
-/
import Verif.Lemmas.Local2
import Mathlib.Analysis.SpecificLimits.Basic

namespace Verif
open RandR

/-! ### C62: random subsets -/

/-- **C62** `draw_bernoulli_elementwise(S)`: after any number of rounds of its loop, every non-empty subset
of `S` has been returned with the same probability, nothing else has been returned, and the rest of the
probability is that the loop still runs. -/
theorem C62_uniform (order : Finset ℕ → List ℕ) (ho : Traverses order) (S : Finset ℕ) (rounds : ℕ) :
    (∀ F ⊆ S, F ≠ ∅ → (drawBernoulli order S true rounds).prob (.ok (some F)) =
      (1 - (1 / 2 ^ S.card) ^ rounds) / (2 ^ S.card - 1)) ∧
    (drawBernoulli order S true rounds).prob (.ok none) = (1 / 2 ^ S.card) ^ rounds ∧
    ∀ x, (drawBernoulli order S true rounds).Outcome x →
      x = .ok none ∨ ∃ F ⊆ S, F ≠ ∅ ∧ x = .ok (some F) := by
  classical
  refine ⟨?_, ?_, ?_⟩
  · intro F hF hne
    unfold prob
    rw [expect_drawBernoulli ho]
    rw [Finset.sum_eq_single F]
    · simp
    · intro G _ hG
      rw [if_neg]
      intro h
      exact hG (by injection h with h; injection h)
    · intro h
      exact absurd (Finset.mem_filter.mpr ⟨Finset.mem_powerset.mpr hF, hne⟩) h
  · unfold prob
    rw [expect_drawBernoulli ho, Finset.sum_eq_zero]
    · simp
    · intro G _
      rw [if_neg]
      intro h
      injection h with h
      cases h
  · intro x hx
    unfold drawBernoulli at hx
    rw [if_pos rfl] at hx
    rcases outcome_retry rounds hx with h | ⟨F, hF, hok, rfl⟩ | ⟨e, he, -⟩
    · exact Or.inl h
    · right
      obtain ⟨G, hG, e⟩ := outcome_coinSubset hF
      cases e
      rw [(traverse_toFinset ho S).2.1] at hG
      refine ⟨F, hG, ?_, rfl⟩
      rintro rfl
      simp at hok
    · obtain ⟨G, -, e'⟩ := outcome_coinSubset he
      cases e'

/-- **C62** Drawing until the loop ends returns every non-empty subset with probability
`1 / (2^|S| - 1)`: the probabilities after `rounds` rounds tend to it, and the loop ends with probability
tending to one. -/
theorem C62_limit (order : Finset ℕ → List ℕ) (ho : Traverses order) (S : Finset ℕ) (hS : S ≠ ∅) :
    (∀ F ⊆ S, F ≠ ∅ → Filter.Tendsto (fun rounds => (drawBernoulli order S true rounds).prob (.ok (some F)))
      Filter.atTop (nhds (1 / (2 ^ S.card - 1)))) ∧
    Filter.Tendsto (fun rounds => (drawBernoulli order S true rounds).prob (.ok none)) Filter.atTop (nhds 0) := by
  have hc : 1 ≤ S.card := Finset.card_pos.mpr (Finset.nonempty_iff_ne_empty.mpr hS)
  have hq : Filter.Tendsto (fun k : ℕ => ((1 : ℝ) / 2 ^ S.card) ^ k) Filter.atTop (nhds 0) := by
    apply tendsto_pow_atTop_nhds_zero_of_lt_one (by positivity)
    rw [div_lt_one (by positivity)]
    exact one_lt_pow₀ (by norm_num) (by omega)
  refine ⟨?_, ?_⟩
  · intro F hF hne
    have := ((hq.const_sub 1).div_const ((2 : ℝ) ^ S.card - 1))
    rw [sub_zero] at this
    refine this.congr fun k => ?_
    exact ((C62_uniform order ho S k).1 F hF hne).symm
  · exact hq.congr fun k => ((C62_uniform order ho S k).2.1).symm

/-- **C62** With `exclude_empty=False` every subset, the empty one included, is returned with probability
`1 / 2^|S|`, at once. -/
theorem C62_with_empty (order : Finset ℕ → List ℕ) (ho : Traverses order) (S : Finset ℕ) (rounds : ℕ) :
    (∀ F ⊆ S, (drawBernoulli order S false rounds).prob (.ok (some F)) = 1 / 2 ^ S.card) ∧
    ∀ x, (drawBernoulli order S false rounds).Outcome x → ∃ F ⊆ S, x = .ok (some F) := by
  classical
  refine ⟨?_, ?_⟩
  · intro F hF
    unfold prob
    rw [expect_drawBernoulli_all ho, Finset.sum_eq_single F]
    · simp
    · intro G _ hG
      rw [if_neg]
      intro h
      exact hG (by injection h with h; injection h)
    · intro h
      exact absurd (Finset.mem_powerset.mpr hF) h
  · intro x hx
    unfold drawBernoulli at hx
    rw [if_neg (by simp), bind_eq, outcome_bind] at hx
    rcases hx with ⟨F, hF, h⟩ | ⟨e, he, -⟩
    · obtain ⟨G, hG, e⟩ := outcome_coinSubset hF
      cases e
      rw [(traverse_toFinset ho S).2.1] at hG
      exact ⟨F, hG, h⟩
    · obtain ⟨G, -, e'⟩ := outcome_coinSubset he
      cases e'

/-- **C62** On the empty set with `exclude_empty` the call never returns, however long it runs. -/
theorem C62_never_returns (order : Finset ℕ → List ℕ) (ho : Traverses order) (rounds : ℕ)
    (x : Py (Option (Finset ℕ))) (h : (drawBernoulli order ∅ true rounds).Outcome x) : x = .ok none := by
  rcases (C62_uniform order ho ∅ rounds).2.2 x h with h | ⟨F, hF, hne, -⟩
  · exact h
  · exact absurd (Finset.subset_empty.mp hF) hne

/-- Two rounds over `{3, 5}`: each of the three non-empty subsets has probability `5/16`. -/
example : (drawBernoulli (fun s => s.sort (· ≤ ·)) {3, 5} true 2).prob (.ok (some {5})) = 5 / 16 := by
  rw [(C62_uniform _ (fun S => ⟨Finset.sort_nodup _ _, fun x => Finset.mem_sort _⟩) {3, 5} 2).1 {5} (by decide)
    (by decide)]
  have : ({3, 5} : Finset ℕ).card = 2 := by decide
  rw [this]
  norm_num

/-! ### C63: the powerset -/

theorem mem_combinations : ∀ (S : List ℕ) (r : ℕ) (t : List ℕ),
    t ∈ combinations S r ↔ t.Sublist S ∧ t.length = r := by
  intro S
  induction S with
  | nil =>
    intro r t
    cases r with
    | zero => simp [combinations, List.length_eq_zero_iff]
    | succ r =>
      simp only [combinations, List.not_mem_nil, List.sublist_nil, false_iff, not_and]
      rintro rfl
      simp
  | cons a S ih =>
    intro r t
    cases r with
    | zero =>
      simp only [combinations, List.mem_singleton, List.length_eq_zero_iff]
      exact ⟨fun h => ⟨h ▸ List.nil_sublist _, h⟩, fun h => h.2⟩
    | succ r =>
      rw [combinations, List.mem_append, List.mem_map, ih]
      constructor
      · rintro (⟨u, hu, rfl⟩ | ⟨h1, h2⟩)
        · rw [ih] at hu
          exact ⟨hu.1.cons_cons a, by simp [hu.2]⟩
        · exact ⟨h1.cons a, h2⟩
      · rintro ⟨h1, h2⟩
        cases h1 with
        | cons _ h => exact Or.inr ⟨h, h2⟩
        | cons_cons _ h => exact Or.inl ⟨_, (ih _ _).mpr ⟨h, by simpa using h2⟩, rfl⟩

theorem nodup_combinations : ∀ (S : List ℕ) (r : ℕ), S.Nodup → (combinations S r).Nodup := by
  intro S
  induction S with
  | nil => intro r _; cases r <;> simp [combinations]
  | cons a S ih =>
    intro r hS
    cases r with
    | zero => simp [combinations]
    | succ r =>
      rw [List.nodup_cons] at hS
      rw [combinations]
      refine List.Nodup.append ((ih r hS.2).map fun x y h => (List.cons.inj h).2) (ih _ hS.2) ?_
      intro t h1 h2
      obtain ⟨u, -, rfl⟩ := List.mem_map.mp h1
      have := ((mem_combinations _ _ _).mp h2).1
      exact hS.1 (this.subset (by simp))

theorem sublist_eq_filter {v S : List ℕ} (hv : v.Sublist S) (hS : S.Nodup) :
    v = S.filter fun x => decide (x ∈ v) := by
  induction hv with
  | slnil => rfl
  | @cons v S a hv ih =>
    rw [List.nodup_cons] at hS
    have hm : a ∉ v := fun h => hS.1 (hv.subset h)
    rw [List.filter_cons, if_neg (by simpa using hm)]
    exact ih hS.2
  | @cons_cons v S a hv ih =>
    rw [List.nodup_cons] at hS
    rw [List.filter_cons, if_pos (by simp)]
    congr 1
    refine (ih hS.2).trans (List.filter_congr ?_)
    intro x hx
    have : x ≠ a := fun h => hS.1 (h ▸ hx)
    simp [this]

theorem sublist_eq_of_toFinset {S : List ℕ} (hS : S.Nodup) {t u : List ℕ} (ht : t.Sublist S) (hu : u.Sublist S)
    (h : t.toFinset = u.toFinset) : t = u := by
  rw [sublist_eq_filter ht hS, sublist_eq_filter hu hS]
  apply List.filter_congr
  intro x _
  have : x ∈ t ↔ x ∈ u := by rw [← List.mem_toFinset, h, List.mem_toFinset]
  simp only [this]

/-- **C63** `powerset(S)` on a list without duplicates yields every subset of `S` (every non-empty subset
with `exclude_empty`) exactly once, and nothing else. -/
theorem C63_powerset (S : List ℕ) (hS : S.Nodup) (excludeEmpty : Bool) :
    ((powersetTuples S excludeEmpty).map List.toFinset).Nodup ∧
    (∀ t ∈ powersetTuples S excludeEmpty, t.Nodup ∧ t.Sublist S) ∧
    ∀ F : Finset ℕ, F ∈ (powersetTuples S excludeEmpty).map List.toFinset ↔
      F ⊆ S.toFinset ∧ (excludeEmpty = true → F ≠ ∅) := by
  have hmem : ∀ t, t ∈ powersetTuples S excludeEmpty ↔
      t.Sublist S ∧ (excludeEmpty = true → t ≠ []) := by
    intro t
    unfold powersetTuples
    simp only [List.mem_flatMap, List.mem_range'_1, mem_combinations]
    constructor
    · rintro ⟨r, ⟨h1, -⟩, h2, rfl⟩
      refine ⟨h2, ?_⟩
      rintro rfl rfl
      simp at h1
    · rintro ⟨h1, h2⟩
      refine ⟨t.length, ⟨?_, ?_⟩, h1, rfl⟩
      · split
        · rename_i he
          exact List.length_pos_of_ne_nil (h2 he)
        · omega
      · have := h1.length_le
        split <;> omega
  have hnd : (powersetTuples S excludeEmpty).Nodup := by
    unfold powersetTuples
    rw [List.nodup_flatMap]
    refine ⟨fun r _ => nodup_combinations S r hS, ?_⟩
    refine List.Nodup.pairwise_of_forall_ne (List.nodup_range') ?_
    intro r _ r' _ hne t h1 h2
    exact hne (((mem_combinations _ _ _).mp h1).2.symm.trans ((mem_combinations _ _ _).mp h2).2)
  refine ⟨?_, ?_, ?_⟩
  · apply List.Nodup.map_on _ hnd
    intro t ht u hu h
    exact sublist_eq_of_toFinset hS ((hmem t).mp ht).1 ((hmem u).mp hu).1 h
  · intro t ht
    exact ⟨((hmem t).mp ht).1.nodup hS, ((hmem t).mp ht).1⟩
  · intro F
    rw [List.mem_map]
    constructor
    · rintro ⟨t, ht, rfl⟩
      obtain ⟨h1, h2⟩ := (hmem t).mp ht
      refine ⟨fun x hx => List.mem_toFinset.mpr (h1.subset (List.mem_toFinset.mp hx)), ?_⟩
      intro he h
      exact h2 he (List.toFinset_eq_empty_iff t |>.mp h)
    · rintro ⟨h1, h2⟩
      have hF : (S.filter fun x => decide (x ∈ F)).toFinset = F := by
        ext x
        simp only [List.mem_toFinset, List.mem_filter, decide_eq_true_eq]
        exact ⟨fun h => h.2, fun h => ⟨List.mem_toFinset.mp (h1 h), h⟩⟩
      refine ⟨S.filter fun x => decide (x ∈ F), (hmem _).mpr ⟨List.filter_sublist, ?_⟩, hF⟩
      intro he h
      apply h2 he
      rw [← hF, h]
      rfl

example : powersetTuples [1, 2, 3] true = [[1], [2], [3], [1, 2], [1, 3], [2, 3], [1, 2, 3]] := by decide

/-! ### C60: the area sampler -/

/-- Total area of all itemsets. -/
theorem sum_area {Y : Cmp} (hb : Y.Binary) :
    ∑ F ∈ itemsets Y, F.card * supportCount Y F =
      (((List.range Y.nMajor).filter fun i => decide (0 < (rowSet Y i).card)).map (rowSet Y) |>.map
        fun r => r.card * 2 ^ (r.card - 1)).sum := by
  have h1 := sum_rows_itemsets hb.toWF fun F => (F.card : ℝ)
  have h2 := sum_selected Y (fun r => ((r.card * 2 ^ (r.card - 1) : ℕ) : ℝ)) (by simp)
  have h3 : ∀ i ∈ Finset.range Y.nMajor, ∑ F ∈ (rowSet Y i).powerset, (F.card : ℝ) =
      (((rowSet Y i).card * 2 ^ ((rowSet Y i).card - 1) : ℕ) : ℝ) := by
    intro i _
    rw [← sum_card_powerset]
    push_cast
    rfl
  rw [Finset.sum_congr rfl h3, ← h2] at h1
  have h4 : ∀ l : List (Finset ℕ), (l.map fun r => ((r.card * 2 ^ (r.card - 1) : ℕ) : ℝ)).sum =
      (((l.map fun r => r.card * 2 ^ (r.card - 1)).sum : ℕ) : ℝ) := by
    intro l
    induction l with
    | nil => simp
    | cons a l ih => simp only [List.map_cons, List.sum_cons, ih]; push_cast; ring
  rw [h4] at h1
  have h5 : (((∑ F ∈ itemsets Y, F.card * supportCount Y F : ℕ)) : ℝ) =
      ∑ F ∈ itemsets Y, (supportCount Y F : ℝ) * (F.card : ℝ) := by
    push_cast
    exact Finset.sum_congr rfl fun _ _ => by ring
  rw [← h5] at h1
  exact_mod_cast h1.symm

/-- **C60** Fitted on a binary matrix with a stored entry and a total area below `2^63`,
`BoleyAreaSampler.sample_once` returns the itemset `F` with probability its area `|F| * support(F)` over
the total area of all itemsets; it never raises and never returns an empty set. -/
theorem C60_area_exact (order : Finset ℕ → List ℕ) (ho : Traverses order) (Y : Cmp) (hb : Y.Binary)
    (hs : ∃ i j, Y.Stored i j) (hlt : ∑ F ∈ itemsets Y, F.card * supportCount Y F < 2 ^ 63) :
    ∃ rows probas, areaFit Y = .ok (rows, probas) ∧
      (∀ F : Finset ℕ, (areaSampleOnce order rows probas).prob (.ok F) =
        (F.card * supportCount Y F : ℝ) / ∑ G ∈ itemsets Y, (G.card * supportCount Y G : ℝ)) ∧
      ∀ x, (areaSampleOnce order rows probas).Outcome x → ∃ F, x = .ok F ∧ F ≠ ∅ ∧ 0 < supportCount Y F := by
  classical
  have hsel := sets_selected hb
  set rows := ((List.range Y.nMajor).filter fun i => decide (0 < (rowSet Y i).card)).map (rowSet Y) with hrows
  have hr : ∀ r ∈ rows, 0 < r.card := by
    intro r hr
    rw [hrows, List.mem_map] at hr
    obtain ⟨i, hi, rfl⟩ := hr
    simpa using (List.mem_filter.mp hi).2
  have hrow : ∀ r ∈ rows, ∃ i < Y.nMajor, r = rowSet Y i := by
    intro r hr
    rw [hrows, List.mem_map] at hr
    obtain ⟨i, hi, rfl⟩ := hr
    exact ⟨i, List.mem_range.mp (List.mem_filter.mp hi).1, rfl⟩
  have hne : rows ≠ [] := by
    obtain ⟨i, j, hij⟩ := hs
    apply List.ne_nil_of_mem (a := rowSet Y i)
    rw [hrows, List.mem_map]
    refine ⟨i, List.mem_filter.mpr ⟨List.mem_range.mpr (hij.major_lt hb.toWF), ?_⟩, rfl⟩
    rw [decide_eq_true_eq, Finset.card_pos]
    exact ⟨j, mem_rowSet.mpr hij⟩
  rw [sum_area hb] at hlt
  have htot : (((rows.map fun r => r.card * 2 ^ (r.card - 1)).sum : ℕ) : ℝ) =
      ∑ G ∈ itemsets Y, (G.card * supportCount Y G : ℝ) := by
    rw [hrows, ← sum_area hb]
    push_cast
    rfl
  refine ⟨rows, normaliseI64 (rows.map fun r => i64 (i64 (2 ^ (r.card - 1)) * r.card)), ?_, ?_, ?_⟩
  · unfold areaFit
    simp only [hsel]
    rw [if_pos hr]
  · intro F
    unfold prob
    rw [expect_area ho rows hr hne hlt, htot]
    congr 1
    rw [hrows, sum_selected _ _ (by simp), sum_rows_itemsets hb.toWF]
    by_cases hF : F ∈ itemsets Y
    · rw [Finset.sum_eq_single F]
      · simp; ring
      · intro G _ hG
        rw [if_neg]
        · ring
        · intro h
          exact hG (by injection h)
      · exact fun h => absurd hF h
    · rw [supportCount_eq_zero hb.toWF hF, Finset.sum_eq_zero]
      · simp
      · intro G hG
        rw [if_neg]
        · ring
        · intro h
          injection h with h
          exact hF (h ▸ hG)
  · intro x hx
    obtain ⟨hw, hsum, hpos⟩ := area_weights rows hr hne hlt
    rw [hw] at hx
    unfold areaSampleOnce at hx
    rw [bind_eq, outcome_bind] at hx
    rcases hx with ⟨i, hi, hx⟩ | ⟨e, he, -⟩
    · obtain ⟨i', e, hil, -⟩ := outcome_rowDraw rows _ (by intros; positivity)
        (by rw [hsum]; exact_mod_cast hpos) (by rw [hsum]; exact_mod_cast hlt) hi
      cases e
      have hmem : rows.getD i ∅ ∈ rows := by rw [getD_lt hil]; exact List.getElem_mem _
      obtain ⟨F, rfl, hF, hFs⟩ := outcome_areaRow ho (hr _ hmem) hx
      obtain ⟨k, hk, e⟩ := hrow _ hmem
      refine ⟨F, rfl, hF, ?_⟩
      unfold supportCount
      rw [Finset.card_pos]
      refine ⟨k, ?_⟩
      simp only [Finset.mem_filter, Finset.mem_range]
      exact ⟨hk, fun j hj => mem_rowSet.mp (e ▸ hFs hj)⟩
    · obtain ⟨i', e, -⟩ := outcome_rowDraw rows _ (by intros; positivity)
        (by rw [hsum]; exact_mod_cast hpos) (by rw [hsum]; exact_mod_cast hlt) he
      cases e

/-- Rows `{0, 1}`, `{}`, `{1}`. -/
def localMatrix : Cmp :=
  { nMajor := 3, nMinor := 2, indptr := [0, 2, 2, 3], indices := [0, 1, 1], data := [1, 1, 1] }

theorem localMatrix_binary : localMatrix.Binary where
  len_indptr := by decide
  ptr_zero := by decide
  ptr_mono := by decide
  ptr_last := by decide
  len_data := by decide
  idx_lt := by decide
  data_one := by decide
  nodup := by decide

theorem localMatrix_support (F : Finset ℕ) :
    supportCount localMatrix F = ((Finset.range 3).filter fun i => F ⊆ rowSet localMatrix i).card := by
  unfold supportCount
  congr 1
  ext i
  simp only [Finset.mem_filter, show localMatrix.nMajor = 3 from rfl, Finset.subset_iff, mem_rowSet]

/-- On that matrix the area sampler returns `{1}` with probability `2/5`. -/
example (order : Finset ℕ → List ℕ) (ho : Traverses order) :
    ∃ rows probas, areaFit localMatrix = .ok (rows, probas) ∧
      (areaSampleOnce order rows probas).prob (.ok {1}) = 2 / 5 := by
  have hsum : ∑ F ∈ itemsets localMatrix, F.card * supportCount localMatrix F = 5 := by
    simp only [localMatrix_support]
    decide
  have hone : supportCount localMatrix {1} = 2 := by rw [localMatrix_support]; decide
  obtain ⟨rows, probas, h1, h2, -⟩ := C60_area_exact order ho localMatrix localMatrix_binary
    ⟨2, 1, (Cmp.mem_segIdx _ _ _).mp (by decide)⟩ (by rw [hsum]; norm_num)
  refine ⟨rows, probas, h1, ?_⟩
  have : (∑ G ∈ itemsets localMatrix, (G.card * supportCount localMatrix G : ℝ)) = 5 := by exact_mod_cast hsum
  rw [h2, this, hone]
  norm_num

/-! ### C61: the frequency sampler -/

theorem sum_supports {Y : Cmp} (hb : Y.WF) :
    ∑ F ∈ itemsets Y, supportCount Y F = (((List.range Y.nMajor).map (rowSet Y)).map fun r => 2 ^ r.card).sum := by
  have h1 := sum_rows_itemsets hb fun _ => (1 : ℝ)
  simp only [Finset.sum_const, Finset.card_powerset, nsmul_eq_mul, mul_one] at h1
  have h2 : (((List.range Y.nMajor).map (rowSet Y)).map fun r => 2 ^ r.card).sum =
      ∑ i ∈ Finset.range Y.nMajor, 2 ^ (rowSet Y i).card := by
    rw [List.map_map, ← List.toFinset_range, List.sum_toFinset _ List.nodup_range]
    rfl
  rw [h2]
  exact_mod_cast h1.symm

theorem supportCount_empty (Y : Cmp) : supportCount Y ∅ = Y.nMajor := by
  unfold supportCount
  rw [Finset.filter_true_of_mem (by simp), Finset.card_range]

theorem freq_weights {Y : Cmp} (hb : Y.Binary) (hlt : ∑ F ∈ itemsets Y, supportCount Y F < 2 ^ 63) :
    freqFit Y = ((List.range Y.nMajor).map (rowSet Y),
      normaliseI64 (((List.range Y.nMajor).map (rowSet Y)).map fun r => 2 ^ r.card)) ∧
    (((List.range Y.nMajor).map (rowSet Y)).map fun r => (2 : ℤ) ^ r.card).sum =
      ((∑ F ∈ itemsets Y, supportCount Y F : ℕ) : ℤ) := by
  rw [sum_supports hb.toWF] at hlt ⊢
  unfold freqFit
  rw [sets_binary hb]
  generalize (List.range Y.nMajor).map (rowSet Y) = rows at *
  refine ⟨?_, ?_⟩
  · refine congrArg (fun w => (rows, normaliseI64 w)) ?_
    apply List.map_congr_left
    intro r hr
    have h1 : 2 ^ r.card < 2 ^ 63 := lt_of_le_of_lt (List.single_le_sum (by simp) _
        (List.mem_map_of_mem (f := fun r : Finset ℕ => 2 ^ r.card) hr)) hlt
    exact i64_small (by positivity) (by exact_mod_cast h1)
  · clear hlt
    induction rows with
    | nil => simp
    | cons a rows ih =>
      simp only [List.map_cons, List.sum_cons, ih]
      push_cast
      ring

theorem law_freqRound {order : Finset ℕ → List ℕ} (ho : Traverses order) {Y : Cmp} (hb : Y.Binary)
    (hn : 0 < Y.nMajor) (hlt : ∑ F ∈ itemsets Y, supportCount Y F < 2 ^ 63) :
    (freqRound order (freqFit Y).1 (freqFit Y).2).Law (itemsets Y) fun F =>
      (supportCount Y F : ℝ) / ∑ G ∈ itemsets Y, (supportCount Y G : ℝ) := by
  obtain ⟨hf, hsum⟩ := freq_weights hb hlt
  intro f
  have hpos : 0 < ∑ F ∈ itemsets Y, supportCount Y F := by
    refine lt_of_lt_of_le ?_ (Finset.single_le_sum (f := supportCount Y) (fun _ _ => Nat.zero_le _)
      (show ∅ ∈ itemsets Y by simp [itemsets]))
    rw [supportCount_empty]
    exact hn
  rw [hf]
  unfold freqRound
  rw [bind_eq, expect_bind, expect_rowDraw _ _ (by intros; positivity)
    (by rw [hsum]; exact_mod_cast hpos) (by rw [hsum]; exact_mod_cast hlt), hsum]
  have h1 : ∑ i ∈ Finset.range ((List.range Y.nMajor).map (rowSet Y)).length,
      (((2 : ℤ) ^ (((List.range Y.nMajor).map (rowSet Y)).getD i ∅).card : ℤ) : ℝ) *
        after f (fun i => coinSubset (order (((List.range Y.nMajor).map (rowSet Y)).getD i ∅))) (.ok i) =
      ∑ i ∈ Finset.range Y.nMajor, ∑ F ∈ (rowSet Y i).powerset, f (.ok F) := by
    rw [List.length_map, List.length_range]
    apply Finset.sum_congr rfl
    intro i hi
    have : ((List.range Y.nMajor).map (rowSet Y)).getD i ∅ = rowSet Y i := by
      rw [getD_lt (by simpa using hi)]
      simp
    simp only [after]
    rw [this, law_coin ho, ← Finset.mul_sum]
    push_cast
    rw [← mul_assoc, mul_one_div_cancel (by positivity), one_mul]
  rw [h1, sum_rows_itemsets hb.toWF, Finset.sum_div]
  push_cast
  apply Finset.sum_congr rfl
  intro F _
  ring

/-- **C61** `BoleyFrequencySampler` fitted on a binary matrix whose weights fit in 64 bits: after any
number of rounds of the loop of `sample_once`, the non-empty itemset `F` has been returned with probability
proportional to its support, with the same factor for all itemsets; the rest is the probability that the
loop still runs; nothing is ever raised and the empty set is never returned. The factor is the probability
of having finished: conditionally on that, `F` has probability `support(F)` over the sum of the supports
of the non-empty itemsets. -/
theorem C61_frequency_exact (order : Finset ℕ → List ℕ) (ho : Traverses order) (Y : Cmp) (hb : Y.Binary)
    (hs : ∃ i j, Y.Stored i j) (hlt : ∑ F ∈ itemsets Y, supportCount Y F < 2 ^ 63) (rounds : ℕ) :
    (∀ F : Finset ℕ, F ≠ ∅ → (freqSampleOnce order (freqFit Y).1 (freqFit Y).2 rounds).prob (.ok (some F)) =
      (1 - (freqSampleOnce order (freqFit Y).1 (freqFit Y).2 rounds).prob (.ok none)) *
        ((supportCount Y F : ℝ) / ∑ G ∈ (itemsets Y).erase ∅, (supportCount Y G : ℝ))) ∧
    (freqSampleOnce order (freqFit Y).1 (freqFit Y).2 rounds).prob (.ok none) =
      (Y.nMajor / ∑ G ∈ itemsets Y, (supportCount Y G : ℝ)) ^ rounds ∧
    ∀ x, (freqSampleOnce order (freqFit Y).1 (freqFit Y).2 rounds).Outcome x →
      x = .ok none ∨ ∃ F, x = .ok (some F) ∧ F ≠ ∅ ∧ 0 < supportCount Y F := by
  classical
  obtain ⟨i₀, j₀, hij⟩ := hs
  have hn : 0 < Y.nMajor := lt_of_le_of_lt (Nat.zero_le _) (hij.major_lt hb.toWF)
  have hlaw := law_freqRound ho hb hn hlt
  have hmem : ∅ ∈ itemsets Y := by simp [itemsets]
  set T : ℝ := ∑ G ∈ itemsets Y, (supportCount Y G : ℝ) with hT
  have hsplit : T = Y.nMajor + ∑ G ∈ (itemsets Y).erase ∅, (supportCount Y G : ℝ) := by
    rw [hT, ← Finset.add_sum_erase _ _ hmem, supportCount_empty]
  have hj : ({j₀} : Finset ℕ) ∈ (itemsets Y).erase ∅ := by
    simp only [itemsets, Finset.mem_erase, Finset.mem_powerset, Finset.singleton_subset_iff, Finset.mem_range]
    exact ⟨by simp, hij.minor_lt hb.toWF⟩
  have hjp : 0 < supportCount Y {j₀} := by
    unfold supportCount
    rw [Finset.card_pos]
    refine ⟨i₀, ?_⟩
    simp only [Finset.mem_filter, Finset.mem_range, Finset.mem_singleton, forall_eq]
    exact ⟨hij.major_lt hb.toWF, hij⟩
  have hE : (0 : ℝ) < ∑ G ∈ (itemsets Y).erase ∅, (supportCount Y G : ℝ) :=
    Finset.sum_pos' (fun _ _ => Nat.cast_nonneg _) ⟨_, hj, by exact_mod_cast hjp⟩
  have hTp : 0 < T := by rw [hsplit]; positivity
  have hq1 : (Y.nMajor / T : ℝ) ≠ 1 := by
    rw [ne_eq, div_eq_one_iff_eq hTp.ne']
    intro h
    rw [hsplit] at h
    linarith
  have hrej : ∑ F ∈ (itemsets Y).filter (fun F => decide (0 < F.card) = false), (supportCount Y F : ℝ) / T =
      Y.nMajor / T := by
    have : (itemsets Y).filter (fun F => decide (0 < F.card) = false) = {∅} := filter_empty _
    rw [this, Finset.sum_singleton, supportCount_empty]
  have hex := expect_retry hlaw (fun res => decide (0 < res.card)) rounds
  rw [hrej, geom _ _ hq1] at hex
  have hnone : (freqSampleOnce order (freqFit Y).1 (freqFit Y).2 rounds).prob (.ok none) =
      (Y.nMajor / T) ^ rounds := by
    unfold prob freqSampleOnce
    rw [hex, Finset.sum_eq_zero]
    · simp
    · intro G _
      rw [if_neg]
      · ring
      · intro h
        injection h with h
        cases h
  refine ⟨?_, hnone, ?_⟩
  · intro F hF
    rw [hnone]
    have hkey : ∀ g : Finset ℕ → ℝ, g F = 1 → (∀ G, G ≠ F → g G = 0) →
        ∑ G ∈ (itemsets Y).filter (fun G => decide (0 < G.card) = true), (supportCount Y G : ℝ) / T * g G =
        (supportCount Y F : ℝ) / T := by
      intro g h1 h0
      by_cases hFi : F ∈ itemsets Y
      · rw [Finset.sum_eq_single F]
        · rw [h1, mul_one]
        · intro G _ hG
          rw [h0 G hG, mul_zero]
        · intro h
          exact absurd (Finset.mem_filter.mpr ⟨hFi, by
            simpa using Finset.card_pos.mpr (Finset.nonempty_iff_ne_empty.mpr hF)⟩) h
      · rw [supportCount_eq_zero hb.toWF hFi, Finset.sum_eq_zero]
        · simp
        · intro G hG
          rw [h0 G fun h => hFi (h ▸ (Finset.mem_filter.mp hG).1), mul_zero]
    have h1 : (1 - Y.nMajor / T : ℝ) = (∑ G ∈ (itemsets Y).erase ∅, (supportCount Y G : ℝ)) / T := by
      rw [eq_div_iff hTp.ne', sub_mul, div_mul_cancel₀ _ hTp.ne', one_mul, hsplit]
      ring
    have gen : ∀ g : Py (Option (Finset ℕ)) → ℝ, g (.ok (some F)) = 1 → (∀ G, G ≠ F → g (.ok (some G)) = 0) →
        g (.ok none) = 0 →
        (retry (freqRound order (freqFit Y).1 (freqFit Y).2) (fun res => decide (0 < res.card)) rounds).expect g =
          (1 - (Y.nMajor / T) ^ rounds) *
            ((supportCount Y F : ℝ) / ∑ G ∈ (itemsets Y).erase ∅, (supportCount Y G : ℝ)) := by
      intro g g1 g0 gn
      rw [hex, hkey (fun G => g (.ok (some G))) g1 g0, gn, mul_zero, add_zero, h1]
      field_simp
    exact gen _ (if_pos rfl) (fun G hG => if_neg fun h => hG (by injection h with h; injection h))
      (if_neg (by intro h; injection h with h; cases h))
  · intro x hx
    unfold freqSampleOnce at hx
    obtain ⟨hf, hsum⟩ := freq_weights hb hlt
    have hpos : 0 < ∑ F ∈ itemsets Y, supportCount Y F := by
      have : (0 : ℝ) < ((∑ F ∈ itemsets Y, supportCount Y F : ℕ) : ℝ) := by push_cast; exact hTp
      exact_mod_cast this
    have hround : ∀ y, (freqRound order (freqFit Y).1 (freqFit Y).2).Outcome y →
        ∃ F, y = .ok F ∧ 0 < supportCount Y F := by
      intro y hy
      rw [hf] at hy
      unfold freqRound at hy
      rw [bind_eq, outcome_bind] at hy
      rcases hy with ⟨i, hi, hy⟩ | ⟨e, he, -⟩
      · obtain ⟨i', e, hil, -⟩ := outcome_rowDraw _ _ (by intros; positivity)
          (by rw [hsum]; exact_mod_cast hpos) (by rw [hsum]; exact_mod_cast hlt) hi
        cases e
        obtain ⟨F, hF, rfl⟩ := outcome_coinSubset hy
        rw [(traverse_toFinset ho _).2.1] at hF
        have hil' : i < Y.nMajor := by simpa using hil
        have hrow : ((List.range Y.nMajor).map (rowSet Y)).getD i ∅ = rowSet Y i := by
          rw [getD_lt hil]
          simp
        rw [hrow] at hF
        refine ⟨F, rfl, ?_⟩
        unfold supportCount
        rw [Finset.card_pos]
        refine ⟨i, ?_⟩
        simp only [Finset.mem_filter, Finset.mem_range]
        exact ⟨hil', fun j hj => mem_rowSet.mp (hF hj)⟩
      · obtain ⟨i', e, -⟩ := outcome_rowDraw _ _ (by intros; positivity)
          (by rw [hsum]; exact_mod_cast hpos) (by rw [hsum]; exact_mod_cast hlt) he
        cases e
    rcases outcome_retry rounds hx with h | ⟨F, hF, hok, rfl⟩ | ⟨e, he, -⟩
    · exact Or.inl h
    · obtain ⟨F', e, hp⟩ := hround _ hF
      cases e
      exact Or.inr ⟨F, rfl, by rintro rfl; simp at hok, hp⟩
    · obtain ⟨F', e', -⟩ := hround _ he
      cases e'

/-- **C61** Run to its end, `sample_once` returns `F` with probability `support(F)` over the sum of the
supports of the non-empty itemsets, and it ends with probability one. -/
theorem C61_limit (order : Finset ℕ → List ℕ) (ho : Traverses order) (Y : Cmp) (hb : Y.Binary)
    (hs : ∃ i j, Y.Stored i j) (hlt : ∑ F ∈ itemsets Y, supportCount Y F < 2 ^ 63) :
    (∀ F : Finset ℕ, F ≠ ∅ → Filter.Tendsto
      (fun rounds => (freqSampleOnce order (freqFit Y).1 (freqFit Y).2 rounds).prob (.ok (some F)))
      Filter.atTop (nhds ((supportCount Y F : ℝ) / ∑ G ∈ (itemsets Y).erase ∅, (supportCount Y G : ℝ)))) ∧
    Filter.Tendsto (fun rounds => (freqSampleOnce order (freqFit Y).1 (freqFit Y).2 rounds).prob (.ok none))
      Filter.atTop (nhds 0) := by
  have h := C61_frequency_exact order ho Y hb hs hlt
  obtain ⟨i₀, j₀, hij⟩ := hs
  have hjp : 0 < supportCount Y {j₀} := by
    unfold supportCount
    rw [Finset.card_pos]
    refine ⟨i₀, ?_⟩
    simp only [Finset.mem_filter, Finset.mem_range, Finset.mem_singleton, forall_eq]
    exact ⟨hij.major_lt hb.toWF, hij⟩
  have hsplit : ∑ G ∈ itemsets Y, (supportCount Y G : ℝ) =
      Y.nMajor + ∑ G ∈ (itemsets Y).erase ∅, (supportCount Y G : ℝ) := by
    rw [← Finset.add_sum_erase _ _ (show ∅ ∈ itemsets Y by simp [itemsets]), supportCount_empty]
  have hE : (0 : ℝ) < ∑ G ∈ (itemsets Y).erase ∅, (supportCount Y G : ℝ) := by
    refine Finset.sum_pos' (fun _ _ => Nat.cast_nonneg _) ⟨{j₀}, ?_, by exact_mod_cast hjp⟩
    simp only [itemsets, Finset.mem_erase, Finset.mem_powerset, Finset.singleton_subset_iff, Finset.mem_range]
    exact ⟨by simp, hij.minor_lt hb.toWF⟩
  have hlim : Filter.Tendsto
      (fun rounds => (freqSampleOnce order (freqFit Y).1 (freqFit Y).2 rounds).prob (.ok none))
      Filter.atTop (nhds 0) := by
    refine (tendsto_pow_atTop_nhds_zero_of_lt_one (r := Y.nMajor / ∑ G ∈ itemsets Y, (supportCount Y G : ℝ))
      (by positivity) ?_).congr fun k => ((h k).2.1).symm
    rw [hsplit, div_lt_one (by positivity)]
    linarith
  refine ⟨?_, hlim⟩
  intro F hF
  have := (hlim.const_sub 1).mul_const
    ((supportCount Y F : ℝ) / ∑ G ∈ (itemsets Y).erase ∅, (supportCount Y G : ℝ))
  rw [sub_zero, one_mul] at this
  exact this.congr fun k => ((h k).1 F hF).symm

/-- On the matrix above `{1}` is drawn with probability tending to `1/2`. -/
example (order : Finset ℕ → List ℕ) (ho : Traverses order) : Filter.Tendsto
    (fun rounds => (freqSampleOnce order (freqFit localMatrix).1 (freqFit localMatrix).2 rounds).prob
      (.ok (some {1}))) Filter.atTop (nhds (1 / 2)) := by
  have hsum : ∑ F ∈ itemsets localMatrix, supportCount localMatrix F = 7 := by
    simp only [localMatrix_support]
    decide
  have hsum' : ∑ F ∈ (itemsets localMatrix).erase ∅, supportCount localMatrix F = 4 := by
    simp only [localMatrix_support]
    decide
  have hone : supportCount localMatrix {1} = 2 := by rw [localMatrix_support]; decide
  have h := (C61_limit order ho localMatrix localMatrix_binary
    ⟨2, 1, (Cmp.mem_segIdx _ _ _).mp (by decide)⟩ (by rw [hsum]; norm_num)).1 {1} (by decide)
  have e : (∑ G ∈ (itemsets localMatrix).erase ∅, (supportCount localMatrix G : ℝ)) = 4 := by
    exact_mod_cast hsum'
  rw [e, hone] at h
  norm_num at h ⊢
  exact h

end Verif
