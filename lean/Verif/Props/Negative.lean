/-
Property C120: negative column numbers and labels.
-/
import Verif.Props.Rule
import Verif.Props.Predict

namespace Verif
open Cmp

/-! ### The conjunctive query -/

/-- Row `i` has, for each of the listed integers, an entry in the column that `conjunctive_collapse_v2` takes the integer for:
`k` itself, or `k` counted from the end of the array of offsets, which is one longer than the number of columns. No column
answers to `-1`. -/
def RowReads (m : Cmp) (cols : List ℤ) (i : ℕ) : Prop :=
  ∀ c ∈ cols, ∃ k < m.nMajor, (c = k ∨ c = (k : ℤ) - (m.nMajor + 1)) ∧ m.Stored k i

theorem columnRowSet_int {m : Cmp} (h : m.WF) {c : ℤ} (h1 : -((m.nMajor : ℤ) + 1) ≤ c) (h2 : c < m.nMajor) :
    ∃ s, columnRowSet m c = .ok s ∧
      ∀ i, i ∈ s ↔ ∃ k < m.nMajor, (c = k ∨ c = (k : ℤ) - (m.nMajor + 1)) ∧ m.Stored k i := by
  have hl := h.len_indptr
  rcases lt_or_ge c 0 with hc | hc
  · rcases eq_or_ne c (-1) with rfl | hne
    · refine ⟨∅, ?_, ?_⟩
      · have e1 : pyGet m.indptr (-1) = .ok (m.ptr m.nMajor) := by
          unfold pyGet pyIndex
          have : (((m.indptr.length : ℕ) : ℤ) + -1).toNat = m.nMajor := by omega
          rw [if_neg (by omega), if_pos (by omega), this]
          simp only [Option.bind_some]
          rw [List.getElem?_eq_getElem (by omega), Cmp.ptr_eq_getElem]
        have e2 : pyGet m.indptr (-1 + 1) = .ok (m.ptr 0) := by
          rw [show (-1 + 1 : ℤ) = ((0 : ℕ) : ℤ) by rfl, pyGet_nat _ 0 (by omega), Cmp.ptr_eq_getElem]
        unfold columnRowSet
        rw [e1, e2]
        simp only [bind, Except.bind, pure, Except.pure, pySlice, h.ptr_zero, Nat.zero_sub, List.take_zero,
          List.toFinset_nil]
      · intro i
        simp only [Finset.notMem_empty, false_iff, not_exists, not_and]
        rintro k hk (e | e) <;> omega
    · obtain ⟨k, hk, rfl⟩ : ∃ k < m.nMajor, c = (k : ℤ) - (m.nMajor + 1) :=
        ⟨(c + (m.nMajor + 1)).toNat, by omega, by omega⟩
      refine ⟨(m.segIdx k).toFinset, ?_, ?_⟩
      · have e : ∀ j, j ≤ m.nMajor → j < m.nMajor + 1 → (j : ℤ) - (m.nMajor + 1) < 0 →
            pyGet m.indptr ((j : ℤ) - (m.nMajor + 1)) = .ok (m.ptr j) := by
          intro j hj hj' hneg
          unfold pyGet pyIndex
          have : (((m.indptr.length : ℕ) : ℤ) + ((j : ℤ) - (m.nMajor + 1))).toNat = j := by omega
          rw [if_neg (by omega), if_pos (by omega), this]
          simp only [Option.bind_some]
          rw [List.getElem?_eq_getElem (by omega), Cmp.ptr_eq_getElem]
        unfold columnRowSet
        rw [e k (by omega) (by omega) (by omega),
          show (k : ℤ) - (m.nMajor + 1) + 1 = ((k + 1 : ℕ) : ℤ) - (m.nMajor + 1) by push_cast; ring,
          e (k + 1) (by omega) (by omega) (by push_cast; omega)]
        rfl
      · intro i
        rw [List.mem_toFinset, mem_segIdx]
        constructor
        · exact fun hs => ⟨k, hk, Or.inr rfl, hs⟩
        · rintro ⟨j, hj, e | e, hs⟩
          · omega
          · obtain rfl : j = k := by omega
            exact hs
  · obtain ⟨k, rfl⟩ := Int.eq_ofNat_of_zero_le hc
    refine ⟨_, columnRowSet_ok h (by omega), fun i => ?_⟩
    rw [List.mem_toFinset, mem_segIdx]
    constructor
    · exact fun hs => ⟨k, by omega, Or.inl rfl, hs⟩
    · rintro ⟨j, hj, e | e, hs⟩
      · obtain rfl : k = j := by omega
        exact hs
      · omega

theorem columnRowSet_bad {m : Cmp} (h : m.WF) {c : ℤ} (hc : c < -((m.nMajor : ℤ) + 1) ∨ (m.nMajor : ℤ) ≤ c) :
    columnRowSet m c = .error .indexError := by
  rcases hc with hc | hc
  · have : pyGet m.indptr c = .error .indexError := by
      unfold pyGet pyIndex
      rw [if_neg (by omega), if_neg (by rw [h.len_indptr]; push_cast; omega)]
      rfl
    unfold columnRowSet
    rw [this]
    rfl
  · obtain ⟨k, rfl⟩ := Int.eq_ofNat_of_zero_le (by omega : 0 ≤ c)
    exact columnRowSet_ge h (by omega)

open Classical in
theorem collapse_reads {m : Cmp} (h : m.WF) {cols : List ℤ} (hne : cols ≠ [])
    (hc : ∀ c ∈ cols, -((m.nMajor : ℤ) + 1) ≤ c ∧ c < m.nMajor) :
    conjunctiveCollapseV2 m cols = .ok ((List.range m.nMinor).map fun i => decide (RowReads m cols i)) := by
  choose! f hf using fun c (hcm : c ∈ cols) => columnRowSet_int h (hc c hcm).1 (hc c hcm).2
  rw [conjunctiveCollapseV2_of_sets (sets := cols.map f) hne]
  · congr 1
    refine List.map_congr_left fun i _ => ?_
    rw [decide_eq_decide, List.forall_mem_map]
    exact forall₂_congr fun c hcm => (hf c hcm).2 i
  · rw [mapM_eq_ok_iff, List.forall₂_map_right_iff, List.forall₂_same]
    exact fun c hcm => (hf c hcm).1
  · intro s hs r hr
    obtain ⟨c, hcm, rfl⟩ := List.mem_map.mp hs
    obtain ⟨k, -, -, hk⟩ := ((hf c hcm).2 r).mp hr
    exact hk.minor_lt h

/-- **C120.** `conjunctive_collapse_v2` on any non-empty list of integers from `-(n+1)` to `n-1`, `n` being the number of columns:
it answers, and column `-(j+1)` is read as column `n-j`, one further than Python's convention; column `-1` is read as a
column without entries. -/
theorem C120_query (m : Cmp) (h : m.WF) (cols : List ℤ) (hne : cols ≠ [])
    (hc : ∀ c ∈ cols, -((m.nMajor : ℤ) + 1) ≤ c ∧ c < m.nMajor) :
    ∃ v, conjunctiveCollapseV2 m cols = .ok v ∧ v.length = m.nMinor ∧
      ∀ i < m.nMinor, (v[i]? = some true ↔ RowReads m cols i) ∧ (v[i]? = some false ↔ ¬ RowReads m cols i) := by
  classical
  refine ⟨_, collapse_reads h hne hc, by simp, fun i hi => ?_⟩
  simp [hi]

/-- **C120.** Any other integer in the list is rejected with `IndexError`. -/
theorem C120_query_error (m : Cmp) (h : m.WF) (cols : List ℤ)
    (hc : ∃ c ∈ cols, c < -((m.nMajor : ℤ) + 1) ∨ (m.nMajor : ℤ) ≤ c) :
    conjunctiveCollapseV2 m cols = .error .indexError := by
  obtain ⟨c, hcm, hbad⟩ := hc
  unfold conjunctiveCollapseV2
  rw [if_neg (by intro h0; rw [List.length_eq_zero_iff.mp h0] at hcm; cases hcm)]
  have := mapM_error_of (f := columnRowSet m) (e := .indexError) (l := cols) (by
      intro x _
      by_cases hx : x < -((m.nMajor : ℤ) + 1) ∨ (m.nMajor : ℤ) ≤ x
      · exact Or.inr (columnRowSet_bad h hx)
      · push Not at hx
        obtain ⟨s, hs, -⟩ := columnRowSet_int h hx.1 hx.2
        exact Or.inl ⟨s, hs⟩)
    ⟨c, hcm, columnRowSet_bad h hbad⟩
  simp only [bind, Except.bind, this]

/-- **C120.** A list with `-1` in it: no row. -/
theorem C120_minus_one (m : Cmp) (h : m.WF) (cols : List ℤ) (h1 : (-1 : ℤ) ∈ cols)
    (hc : ∀ c ∈ cols, -((m.nMajor : ℤ) + 1) ≤ c ∧ c < m.nMajor) :
    conjunctiveCollapseV2 m cols = .ok (List.replicate m.nMinor false) := by
  classical
  rw [collapse_reads h (List.ne_nil_of_mem h1) hc]
  congr 1
  rw [List.eq_replicate_iff]
  refine ⟨by simp, fun b hb => ?_⟩
  obtain ⟨i, -, rfl⟩ := List.mem_map.mp hb
  rw [decide_eq_false_iff_not]
  intro hr
  obtain ⟨k, hk, e | e, -⟩ := hr _ h1 <;> omega

/-! ### Binding rules -/

theorem rowReads_of_natural {m : Cmp} {cols : List ℤ} (h0 : ∀ c ∈ cols, 0 ≤ c ∧ c < m.nMajor) (i : ℕ) :
    RowReads m cols i ↔ RowHas m cols i := by
  refine forall₂_congr fun c hc => ?_
  constructor
  · rintro ⟨k, hk, e | e, hs⟩
    · subst e
      exact ⟨by omega, by simpa using hs⟩
    · have := h0 c hc
      omega
  · rintro ⟨h, hs⟩
    exact ⟨c.toNat, by have := h0 c hc; omega, Or.inl (by omega), hs⟩

/-- **C120.** `bind_dataset` for arbitrary integers in the tail: negative labels down to `-(L+1)` do not make it raise, and the
tail support consists of the rows that have the labels they are read as. -/
theorem C120_bind (X Y : Cmp) (hX : X.WF) (hY : Y.WF) (hN : X.nMinor = Y.nMinor) (head tail : List ℤ) :
    ((∃ b, bindDataset (Rule.new head tail) X Y = .ok b) ↔
      head ≠ [] ∧ tail ≠ [] ∧ (∀ f ∈ head, 0 ≤ f ∧ f < X.nMajor) ∧
        (∀ l ∈ tail, -((Y.nMajor : ℤ) + 1) ≤ l ∧ l < Y.nMajor) ∧ ∃ i, RowHas X head i) ∧
    ∀ b, bindDataset (Rule.new head tail) X Y = .ok b →
      (∀ i, i ∈ b.headSupport ↔ RowHas X head i) ∧ (∀ i, i ∈ b.tailSupport ↔ RowReads Y tail i) ∧
      (∀ i, i ∈ b.support ↔ RowHas X head i ∧ RowReads Y tail i) := by
  classical
  have hp1 := Rule.new_head_ne_nil (head := head) (tail := tail)
  have hp2 := Rule.new_tail_ne_nil (head := head) (tail := tail)
  have hrow : ∀ i, RowHas X (Rule.new head tail).head i ↔ RowHas X head i := by
    intro i; simp only [RowHas, Rule.mem_new_head]
  have hreads : ∀ i, RowReads Y (Rule.new head tail).tail i ↔ RowReads Y tail i := by
    intro i; simp only [RowReads, Rule.mem_new_tail]
  by_cases hhr : ∀ f ∈ head, 0 ≤ f ∧ f < X.nMajor
  swap
  · have : bindDataset (Rule.new head tail) X Y = .error .valueError := by
      refine C05_bad_head X Y head tail ?_
      push Not at hhr
      obtain ⟨f, hf, hf'⟩ := hhr
      exact ⟨f, hf, by by_cases h : 0 ≤ f; exact Or.inr (hf' h); left; omega⟩
    rw [this]
    simp [hhr]
  have hhr' : ∀ f ∈ (Rule.new head tail).head, 0 ≤ f ∧ f < X.nMajor := by simpa only [Rule.mem_new_head] using hhr
  by_cases ht : tail = []
  · have he : conjunctiveCollapseV2 Y (Rule.new head tail).tail = .error .assertionError := by
      have : (Rule.new head tail).tail = [] := by
        by_contra hc
        exact hp2.mp hc ht
      rw [this]
      rfl
    have : ∀ b, bindDataset (Rule.new head tail) X Y ≠ .ok b := by
      intro b hb
      simp [bindDataset, checkHead_ok hhr', he, bind, Except.bind] at hb
    exact ⟨⟨fun ⟨b, hb⟩ => absurd hb (this b), fun h => absurd ht h.2.1⟩, fun b hb => absurd hb (this b)⟩
  by_cases htr : ∀ l ∈ tail, -((Y.nMajor : ℤ) + 1) ≤ l ∧ l < Y.nMajor
  swap
  · have he : conjunctiveCollapseV2 Y (Rule.new head tail).tail = .error .indexError := by
      refine C120_query_error Y hY _ ?_
      push Not at htr
      obtain ⟨l, hl, hl'⟩ := htr
      refine ⟨l, (Rule.mem_new_tail _ _ _).mpr hl, ?_⟩
      by_cases h : -((Y.nMajor : ℤ) + 1) ≤ l
      · exact Or.inr (hl' h)
      · left; omega
    have : ∀ b, bindDataset (Rule.new head tail) X Y ≠ .ok b := by
      intro b hb
      simp [bindDataset, checkHead_ok hhr', he, bind, Except.bind] at hb
    exact ⟨⟨fun ⟨b, hb⟩ => absurd hb (this b), fun h => absurd h.2.2.2.1 htr⟩, fun b hb => absurd hb (this b)⟩
  have hct := collapse_reads hY (cols := (Rule.new head tail).tail) (hp2.mpr ht)
    (by simpa only [Rule.mem_new_tail] using htr)
  by_cases hh : head = []
  · have he : conjunctiveCollapseV2 X (Rule.new head tail).head = .error .assertionError := by
      have : (Rule.new head tail).head = [] := by
        by_contra hc
        exact hp1.mp hc hh
      rw [this]
      rfl
    have : ∀ b, bindDataset (Rule.new head tail) X Y ≠ .ok b := by
      intro b hb
      simp [bindDataset, checkHead_ok hhr', hct, he, bind, Except.bind] at hb
    exact ⟨⟨fun ⟨b, hb⟩ => absurd hb (this b), fun h => absurd hh h.1⟩, fun b hb => absurd hb (this b)⟩
  have hch := collapse_reads hX (cols := (Rule.new head tail).head) (hp1.mpr hh)
    (fun c hc => ⟨by have := hhr' c hc; omega, (hhr' c hc).2⟩)
  have hrr : ∀ i, RowReads X (Rule.new head tail).head i ↔ RowHas X head i := fun i =>
    (rowReads_of_natural hhr' i).trans (hrow i)
  have hlt : ∀ i, RowHas X head i → i < X.nMinor := fun i hi => hi.lt hX hh
  have hlt' : ∀ i, RowReads Y tail i → i < Y.nMinor := by
    intro i hi
    obtain ⟨l, hl⟩ := List.exists_mem_of_ne_nil _ ht
    obtain ⟨k, -, -, hk⟩ := hi l hl
    exact hk.minor_lt hY
  simp only [hrr] at hch
  simp only [hreads] at hct
  by_cases hs : ∃ i, RowHas X head i
  · have hb : ∃ b, bindDataset (Rule.new head tail) X Y = .ok b ∧
        b.headSupport = (Finset.range X.nMinor).filter (fun i => RowHas X head i) ∧
        b.tailSupport = (Finset.range Y.nMinor).filter (fun i => RowReads Y tail i) ∧
        b.support = (Finset.range Y.nMinor).filter (fun i => RowHas X head i ∧ RowReads Y tail i) := by
      unfold bindDataset
      rw [checkHead_ok hhr', hct, hch]
      simp only [bind, Except.bind, pure, Except.pure, binaryVectorToSet_map_range, decide_eq_true_eq]
      rw [if_neg]
      · simp only [logicalAnd, List.length_map, List.length_range, hN, if_true]
        have : List.zipWith (· && ·) ((List.range Y.nMinor).map fun i => decide (RowHas X head i))
            ((List.range Y.nMinor).map fun i => decide (RowReads Y tail i)) =
            (List.range Y.nMinor).map fun i => decide (RowHas X head i ∧ RowReads Y tail i) := by
          rw [List.zipWith_map, List.zipWith_self]
          simp
        rw [this, binaryVectorToSet_map_range]
        refine ⟨_, rfl, rfl, rfl, ?_⟩
        simp
      · rw [Finset.card_eq_zero, Finset.filter_eq_empty_iff]
        push Not
        obtain ⟨i, hi⟩ := hs
        exact ⟨i, by simpa using hlt i hi, hi⟩
    obtain ⟨b, hb, e1, e2, e3⟩ := hb
    refine ⟨⟨fun _ => ⟨hh, ht, hhr, htr, hs⟩, fun _ => ⟨b, hb⟩⟩, fun b' hb' => ?_⟩
    obtain rfl : b = b' := Except.ok.inj (hb.symm.trans hb')
    refine ⟨fun i => ?_, fun i => ?_, fun i => ?_⟩
    · rw [e1, Finset.mem_filter, Finset.mem_range]
      exact ⟨fun h => h.2, fun h => ⟨hlt i h, h⟩⟩
    · rw [e2, Finset.mem_filter, Finset.mem_range]
      exact ⟨fun h => h.2, fun h => ⟨hlt' i h, h⟩⟩
    · rw [e3, Finset.mem_filter, Finset.mem_range]
      exact ⟨fun h => h.2, fun h => ⟨hlt' i h.2, h⟩⟩
  · have : ∀ b, bindDataset (Rule.new head tail) X Y ≠ .ok b := by
      intro b hb
      unfold bindDataset at hb
      rw [checkHead_ok hhr', hct, hch] at hb
      simp only [bind, Except.bind, pure, Except.pure, binaryVectorToSet_map_range, decide_eq_true_eq] at hb
      rw [if_pos] at hb
      · cases hb
      · rw [Finset.card_eq_zero, Finset.filter_eq_empty_iff]
        exact fun i _ hi => hs ⟨i, hi⟩
    simp [this, hs]

/-! ### Prediction -/

/-- **C120.** `predict` for arbitrary integers in the tails: label `l` of a firing rule sets column `l`, or column `L + l` if it is
negative, as usual in Python; it raises (`IndexError`) exactly when a firing rule has a label outside `-L, …, L-1`. -/
theorem C120_predict (rules : List Rule) (L : ℕ) (X : Cmp) :
    ((∃ i < X.nMajor, ∃ r ∈ rules, Fires X r i ∧ ∃ l ∈ r.tail, l < -(L : ℤ) ∨ (L : ℤ) ≤ l) →
      predict rules (some L) X = .error .indexError) ∧
    ((∀ i < X.nMajor, ∀ r ∈ rules, Fires X r i → ∀ l ∈ r.tail, -(L : ℤ) ≤ l ∧ l < L) →
      ∃ P, predict rules (some L) X = .ok P ∧ P.nMajor = X.nMajor ∧ P.nMinor = L ∧ P.Binary ∧
        ∀ i < X.nMajor, ∀ j < L,
          (P.val i j = 1 ↔ ∃ r ∈ rules, Fires X r i ∧ ((j : ℤ) ∈ r.tail ∨ (j : ℤ) - L ∈ r.tail))) := by
  constructor
  · rintro ⟨i, hi, r, hr, hf, l, hl, h⟩
    exact predict_error ⟨i, hi, r, hr, hf, l, hl, pyIndex_none_iff.mpr h⟩
  · intro h
    refine ⟨_, predict_ok ?_, by simp [predictedMatrix, ofLines], rfl, predictedMatrix_binary _ _ _, ?_⟩
    · intro i hi r hr hf l hl hn
      have := h i hi r hr hf l hl
      rw [pyIndex_none_iff] at hn
      omega
    · intro i hi j hj
      classical
      have hn : i < (predictedMatrix L rules X).nMajor := by simpa [predictedMatrix, ofLines] using hi
      rw [(predictedMatrix_binary L rules X).val_eq i j hn]
      have key : (predictedMatrix L rules X).Stored i j ↔
          ∃ r ∈ rules, Fires X r i ∧ ((j : ℤ) ∈ r.tail ∨ (j : ℤ) - L ∈ r.tail) := by
        rw [predictedMatrix_stored hi]
        simp only [predictedCols, Finset.mem_filter, Finset.mem_range, hj, true_and, pyIndex_some_iff]
        refine exists_congr fun r => and_congr_right fun _ => and_congr_right fun _ => ?_
        constructor
        · rintro ⟨l, hl, rfl | rfl⟩
          · exact Or.inl hl
          · exact Or.inr hl
        · rintro (hl | hl)
          · exact ⟨_, hl, Or.inl rfl⟩
          · exact ⟨_, hl, Or.inr rfl⟩
      rw [← key]
      split <;> simp_all

/-- **C120.** Training and prediction take a negative label for different labels. A rule with the single label `-(j+1)`,
`1 ≤ j ≤ L`, is counted on the rows with label `L-j`, but on firing it predicts label `L-j-1` (or, for `j = L`, makes `predict`
raise); with label `-1` it has no support, but predicts the last label. -/
theorem C120_mismatch (X Y T : Cmp) (hX : X.WF) (hY : Y.WF) (hN : X.nMinor = Y.nMinor) (head : List ℤ) (j : ℕ)
    (hj : j ≤ Y.nMajor) (b : BRule) (hb : bindDataset (Rule.new head [-((j : ℤ) + 1)]) X Y = .ok b) :
    (∀ i, i ∈ b.tailSupport ↔ 0 < j ∧ Y.Stored (Y.nMajor - j) i) ∧
    (j < Y.nMajor → ∃ P, predict [b.toRule] (some Y.nMajor) T = .ok P ∧
      ∀ i < T.nMajor, ∀ l < Y.nMajor, (P.val i l = 1 ↔ Fires T b.toRule i ∧ l = Y.nMajor - j - 1)) ∧
    (j = Y.nMajor → (∃ i < T.nMajor, Fires T b.toRule i) → predict [b.toRule] (some Y.nMajor) T = .error .indexError) := by
  have htail : ∀ l, l ∈ b.toRule.tail ↔ l = -((j : ℤ) + 1) := by
    intro l
    rw [bindDataset_toRule hb, Rule.mem_new_tail, List.mem_singleton]
  refine ⟨fun i => ?_, fun hlt => ?_, ?_⟩
  · rw [((C120_bind X Y hX hY hN head _).2 b hb).2.1 i]
    constructor
    · intro h
      obtain ⟨k, hk, e | e, hs⟩ := h _ (List.mem_singleton_self _)
      · omega
      · obtain rfl : Y.nMajor - j = k := by omega
        exact ⟨by omega, hs⟩
    · rintro ⟨h0, hs⟩ c hc
      rw [List.mem_singleton] at hc
      exact ⟨Y.nMajor - j, by omega, Or.inr (by omega), hs⟩
  · obtain ⟨P, hP, -, -, -, hv⟩ := (C120_predict [b.toRule] Y.nMajor T).2 (by
      intro i _ r hr _ l hl
      obtain rfl := List.mem_singleton.mp hr
      rw [htail] at hl
      omega)
    refine ⟨P, hP, fun i hi l hl => ?_⟩
    rw [hv i hi l hl]
    constructor
    · rintro ⟨r, hr, hf, h⟩
      obtain rfl := List.mem_singleton.mp hr
      rw [htail, htail] at h
      exact ⟨hf, by omega⟩
    · rintro ⟨hf, rfl⟩
      exact ⟨_, List.mem_singleton_self _, hf, Or.inr ((htail _).mpr (by omega))⟩
  · rintro rfl ⟨i, hi, hf⟩
    exact (C120_predict [b.toRule] Y.nMajor T).1
      ⟨i, hi, _, List.mem_singleton_self _, hf, _, (htail _).mpr rfl, Or.inl (by omega)⟩

/-! ### Examples -/

/-- Column `-2` of `exampleY` is its last column, label 1. -/
example (i : ℕ) : RowReads exampleY [-2] i ↔ exampleY.Stored 1 i := by
  constructor
  · intro h
    obtain ⟨k, hk, e | e, hs⟩ := h _ (List.mem_singleton_self _)
    · omega
    · have : exampleY.nMajor = 2 := rfl
      obtain rfl : k = 1 := by omega
      exact hs
  · intro h c hc
    rw [List.mem_singleton] at hc
    exact ⟨1, by decide, Or.inr (by rw [hc]; decide), h⟩

/-- A rule with label `-2` binds. -/
example : ∃ b, bindDataset (Rule.new [0] [-2]) exampleCSC exampleY = .ok b :=
  ((C120_bind exampleCSC exampleY exampleCSC_binary.toWF exampleY_binary.toWF rfl [0] [-2]).1).mpr
    ⟨by decide, by decide, by decide, by decide, 0, by unfold RowHas; decide⟩

end Verif
