/-
Properties C05-C13: rules.
-/
import Verif.Lemmas.Rule
import Verif.Lemmas.KL
import Verif.Props.Sparse

namespace Verif
open Cmp

/-- Example labels in CSC form for the 4 rows of `exampleCSC`: label 0 on rows 0,1; label 1 on
rows 1,2,3. -/
def exampleY : Cmp :=
  { nMajor := 2, nMinor := 4, indptr := [0, 2, 5], indices := [0, 1, 1, 2, 3],
    data := [1, 1, 1, 1, 1] }

theorem exampleY_binary : exampleY.Binary :=
  { len_indptr := by decide, ptr_zero := by decide, ptr_mono := by decide, ptr_last := by decide,
    len_data := by decide, idx_lt := by decide, data_one := by decide, nodup := by decide }

/-- **C05.** Binding succeeds exactly when head and tail are non-empty, all items are in range and
some row contains the head. -/
theorem C05_bind_succeeds_iff (X Y : Cmp) (hX : X.WF) (hY : Y.WF) (hN : X.nMinor = Y.nMinor)
    (head tail : List ℤ) (h0 : ∀ l ∈ tail, 0 ≤ l) :
    (∃ b, bindDataset (Rule.new head tail) X Y = .ok b) ↔
      head ≠ [] ∧ tail ≠ [] ∧ (∀ f ∈ head, 0 ≤ f ∧ f < X.nMajor) ∧ (∀ l ∈ tail, l < Y.nMajor) ∧
        ∃ i, RowHas X head i := by
  have hp1 := (Rule.new_head_ne_nil (head := head) (tail := tail)).symm
  have hp2 := (Rule.new_tail_ne_nil (head := head) (tail := tail)).symm
  have hrow : ∀ i, RowHas X (Rule.new head tail).head i ↔ RowHas X head i := by
    intro i; simp only [RowHas, Rule.mem_new_head]
  have h0' : ∀ l ∈ (Rule.new head tail).tail, 0 ≤ l := by
    intro l hl; exact h0 l ((Rule.mem_new_tail _ _ _).mp hl)
  constructor
  · rintro ⟨b, hb⟩
    obtain ⟨h1, h2, h3, h4, h5⟩ := bindDataset_inv hX hY h0' hb
    simp only [Rule.mem_new_head, Rule.mem_new_tail, hrow] at h3 h4 h5
    exact ⟨hp1.mpr h1, hp2.mpr h2, h3, fun l hl => (h4 l hl).2, h5⟩
  · rintro ⟨h1, h2, h3, h4, h5⟩
    refine ⟨_, bindDataset_ok hX hY hN (hp1.mp h1) (hp2.mp h2) ?_ ?_ ?_⟩
    · simpa only [Rule.mem_new_head] using h3
    · simp only [Rule.mem_new_tail]
      exact fun l hl => ⟨h0 l hl, h4 l hl⟩
    · simpa only [hrow] using h5

/-- **C05.** After binding, the three supports are exactly the rows carrying the head, the tail, and
both. -/
theorem C05_bind_supports (X Y : Cmp) (hX : X.WF) (hY : Y.WF) (hN : X.nMinor = Y.nMinor)
    (head tail : List ℤ) (h0 : ∀ l ∈ tail, 0 ≤ l) (b : BRule)
    (hb : bindDataset (Rule.new head tail) X Y = .ok b) :
    (∀ i, i ∈ b.headSupport ↔ RowHas X head i) ∧ (∀ i, i ∈ b.tailSupport ↔ RowHas Y tail i) ∧
    (∀ i, i ∈ b.support ↔ RowHas X head i ∧ RowHas Y tail i) ∧ b.headSupport.Nonempty ∧
    b.numPositives = b.tailSupport.card ∧
    b.N = X.nMinor ∧ b.D = X.nMajor ∧ b.L = Y.nMajor ∧ b.head.Perm head ∧ b.tail.Perm tail := by
  have h0' : ∀ l ∈ (Rule.new head tail).tail, 0 ≤ l := by
    intro l hl; exact h0 l ((Rule.mem_new_tail _ _ _).mp hl)
  have hrow : ∀ i, RowHas X (Rule.new head tail).head i ↔ RowHas X head i := by
    intro i; simp only [RowHas, Rule.mem_new_head]
  have hrow' : ∀ i, RowHas Y (Rule.new head tail).tail i ↔ RowHas Y tail i := by
    intro i; simp only [RowHas, Rule.mem_new_tail]
  obtain ⟨h1, h2, h3, h4, i, hi⟩ := bindDataset_inv hX hY h0' hb
  have hbe := bindDataset_eq hX hY hN h0' hb
  subst hbe
  refine ⟨fun i => (boundRule_mem_headSupport hX h1 i).trans (hrow i),
    fun i => (boundRule_mem_tailSupport hY h2 i).trans (hrow' i), ?_, ?_, rfl, rfl, rfl, rfl,
    List.mergeSort_perm _ _, List.mergeSort_perm _ _⟩
  · intro i
    rw [boundRule_mem_support hX h1 i, hrow, hrow']
  · exact ⟨i, (boundRule_mem_headSupport hX h1 i).mpr hi⟩

/-- **C05.** A head feature out of range is rejected with `ValueError`, whatever the rest. -/
theorem C05_bad_head (X Y : Cmp) (head tail : List ℤ)
    (h : ∃ f ∈ head, f < 0 ∨ (X.nMajor : ℤ) ≤ f) :
    bindDataset (Rule.new head tail) X Y = .error .valueError := by
  obtain ⟨f, hf, hf'⟩ := h
  have : checkHead X.nMajor (Rule.new head tail).head = .error .valueError :=
    checkHead_error ⟨f, (Rule.mem_new_head _ _ _).mpr hf, hf'⟩
  simp [bindDataset, this, bind, Except.bind]

/-- **C05.** An in-range head that no row contains is rejected with `ValueError`. -/
theorem C05_unsupported_head (X Y : Cmp) (hX : X.WF) (hY : Y.WF) (head tail : List ℤ)
    (hh : head ≠ []) (ht : tail ≠ []) (hhr : ∀ f ∈ head, 0 ≤ f ∧ f < X.nMajor)
    (htr : ∀ l ∈ tail, 0 ≤ l ∧ l < Y.nMajor) (hs : ∀ i, ¬ RowHas X head i) :
    bindDataset (Rule.new head tail) X Y = .error .valueError := by
  have hrow : ∀ i, RowHas X (Rule.new head tail).head i ↔ RowHas X head i := by
    intro i; simp only [RowHas, Rule.mem_new_head]
  apply bindDataset_no_support hX hY
  · exact Rule.new_head_ne_nil.mpr hh
  · exact Rule.new_tail_ne_nil.mpr ht
  · simpa only [Rule.mem_new_head] using hhr
  · simpa only [Rule.mem_new_tail] using htr
  · rintro ⟨i, hi⟩
    exact hs i ((hrow i).mp hi)

/-- The hypotheses of C05 are met, and both outcomes occur: `[0] -> [1]` binds to the example data,
a head contained in no row does not. -/
theorem example_bind : ∃ b, bindDataset (Rule.new [0] [1]) exampleCSC exampleY = .ok b :=
  (C05_bind_succeeds_iff exampleCSC exampleY exampleCSC_binary.toWF exampleY_binary.toWF rfl [0] [1]
    (by decide)).mpr ⟨by decide, by decide, by decide, by decide, 1, by decide⟩

/-- A matrix whose two columns share no row. -/
def exampleDisjoint : Cmp :=
  { nMajor := 2, nMinor := 4, indptr := [0, 1, 2], indices := [0, 1], data := [1, 1] }

example : bindDataset (Rule.new [1, 0] [1]) exampleDisjoint exampleY = .error .valueError :=
  C05_unsupported_head exampleDisjoint exampleY
    { len_indptr := by decide, ptr_zero := by decide, ptr_mono := by decide, ptr_last := by decide,
      len_data := by decide, idx_lt := by decide }
    exampleY_binary.toWF [1, 0] [1] (by decide) (by decide) (by decide) (by decide) (by
      intro i hi
      have h1 := (mem_segIdx exampleDisjoint 0 i).mpr (hi 0 (by decide)).2
      have h2 := (mem_segIdx exampleDisjoint 1 i).mpr (hi 1 (by decide)).2
      simp [segIdx, exampleDisjoint, ptr, pySlice] at h1 h2
      omega)

/-- **C06.** Precision, base rate and recall of a bound rule are proportions. -/
theorem C06_rates (X Y : Cmp) (hX : X.WF) (hY : Y.WF) (hN : X.nMinor = Y.nMinor)
    (head tail : List ℤ) (h0 : ∀ l ∈ tail, 0 ≤ l) (b : BRule)
    (hb : bindDataset (Rule.new head tail) X Y = .ok b) :
    b.support ⊆ b.headSupport ∧ b.support ⊆ b.tailSupport ∧
    (∃ p, b.precision = .ok p ∧ 0 ≤ p ∧ p ≤ 1 ∧ p * b.headSupport.card = b.support.card) ∧
    (∃ q, b.baseRate = .ok q ∧ 0 ≤ q ∧ q ≤ 1 ∧ q * X.nMinor = b.tailSupport.card) ∧
    (b.tailSupport.Nonempty →
      ∃ r, b.recallRate = .ok r ∧ 0 ≤ r ∧ r ≤ 1 ∧ r * b.tailSupport.card = b.support.card) := by
  obtain ⟨h1, h2, h3, ⟨i, hi⟩, h5, h6, -⟩ := C05_bind_supports X Y hX hY hN head tail h0 b hb
  have hsub1 : b.support ⊆ b.headSupport := fun i hi => (h1 i).mpr ((h3 i).mp hi).1
  have hsub2 : b.support ⊆ b.tailSupport := fun i hi => (h2 i).mpr ((h3 i).mp hi).2
  have hbe := bindDataset_eq hX hY hN (r := Rule.new head tail)
    (fun l hl => h0 l ((Rule.mem_new_tail _ _ _).mp hl)) hb
  have key : ∀ s t : ℕ, s ≤ t → 0 < t → ∃ p, pyDiv s t = .ok p ∧ 0 ≤ p ∧ p ≤ 1 ∧ p * t = s := by
    intro s t hst ht
    have ht' : (0 : ℚ) < t := by exact_mod_cast ht
    refine ⟨(s : ℚ) / t, ?_, by positivity, ?_, by field_simp⟩
    · unfold pyDiv
      rw [if_neg (by exact_mod_cast ht.ne')]; simp
    · rw [div_le_one ht']; exact_mod_cast hst
  have hcardH : 0 < b.headSupport.card := Finset.card_pos.mpr ⟨i, hi⟩
  have hltN : b.tailSupport ⊆ Finset.range X.nMinor := by
    rw [hbe, hN]; exact Finset.filter_subset _ _
  have hltH : b.headSupport ⊆ Finset.range X.nMinor := by
    rw [hbe]; exact Finset.filter_subset _ _
  have hNpos : 0 < X.nMinor := by
    have := hltH hi; simp at this; omega
  refine ⟨hsub1, hsub2, key _ _ (Finset.card_le_card hsub1) hcardH, ?_, ?_⟩
  · have := Finset.card_le_card hltN
    rw [Finset.card_range] at this
    have := key _ _ this hNpos
    rwa [BRule.baseRate, h6]
  · intro hne
    have := key _ _ (Finset.card_le_card hsub2) (Finset.card_pos.mpr hne)
    rwa [BRule.recallRate, h5]

example : ∃ b : BRule, (∃ p, b.precision = .ok p ∧ 0 ≤ p ∧ p ≤ 1) ∧ (∃ r, b.recallRate = .ok r) := by
  obtain ⟨b, hb⟩ := example_bind
  have h := C06_rates exampleCSC exampleY exampleCSC_binary.toWF exampleY_binary.toWF rfl [0] [1]
    (by decide) b hb
  have hs := C05_bind_supports exampleCSC exampleY exampleCSC_binary.toWF exampleY_binary.toWF rfl
    [0] [1] (by decide) b hb
  obtain ⟨r, hr, -⟩ := h.2.2.2.2 ⟨1, (hs.2.1 1).mpr (by decide)⟩
  obtain ⟨p, hp, hp0, hp1, -⟩ := h.2.2.1
  exact ⟨b, ⟨p, hp, hp0, hp1⟩, r, hr⟩

/-- **C07.** Two rules are equal exactly when heads and tails agree up to order. -/
theorem C07_eq_iff_perm (h1 t1 h2 t2 : List ℤ) :
    (Rule.new h1 t1).eq (Rule.new h2 t2) = true ↔ h1.Perm h2 ∧ t1.Perm t2 := by
  have key : ∀ a b : List ℤ, a.mergeSort (fun a b => decide (a ≤ b)) =
      b.mergeSort (fun a b => decide (a ≤ b)) ↔ a.Perm b := by
    intro a b
    constructor
    · intro h
      exact (List.mergeSort_perm a _).symm.trans (h ▸ List.mergeSort_perm b _)
    · intro h
      refine List.Perm.eq_of_pairwise (le := (· ≤ ·)) (fun x y _ _ h1 h2 => le_antisymm h1 h2) ?_ ?_
        (((List.mergeSort_perm a _).trans h).trans (List.mergeSort_perm b _).symm)
      · have := List.pairwise_mergeSort (le := fun a b : ℤ => decide (a ≤ b))
          (by intro a b c; simp only [decide_eq_true_eq]; exact le_trans)
          (by intro a b; simp only [Bool.or_eq_true, decide_eq_true_eq]; exact le_total a b) a
        simpa using this
      · have := List.pairwise_mergeSort (le := fun a b : ℤ => decide (a ≤ b))
          (by intro a b c; simp only [decide_eq_true_eq]; exact le_trans)
          (by intro a b; simp only [Bool.or_eq_true, decide_eq_true_eq]; exact le_total a b) b
        simpa using this
  simp only [Rule.eq, Rule.new, Bool.and_eq_true, decide_eq_true_eq, key]

/-- **C07.** Equal rules hash equally, for every hash function on the underlying tuples. -/
theorem C07_hash (hsh : List ℤ × List ℤ → ℕ) (h1 t1 h2 t2 : List ℤ) (hh : h1.Perm h2)
    (ht : t1.Perm t2) : (Rule.new h1 t1).hash hsh = (Rule.new h2 t2).hash hsh := by
  have := (C07_eq_iff_perm h1 t1 h2 t2).mpr ⟨hh, ht⟩
  simp only [Rule.eq, Bool.and_eq_true, decide_eq_true_eq] at this
  simp [Rule.hash, this]

example : (Rule.new [3, 1, 2] [7, 4]).eq (Rule.new [2, 3, 1] [4, 7]) = true :=
  (C07_eq_iff_perm _ _ _ _).mpr ⟨by decide, by decide⟩

/-- **C08.** The distance is the Jaccard distance of the label areas; it raises exactly when both
areas are empty. -/
theorem C08_distance (r1 r2 : BRule) (h1 : r1.tail.Nodup) (h2 : r2.tail.Nodup) :
    (area r1 = ∅ ∧ area r2 = ∅ ↔ jaccardDistance r1 r2 = .error .zeroDivisionError) ∧
    (¬ (area r1 = ∅ ∧ area r2 = ∅) →
      ∃ d, jaccardDistance r1 r2 = .ok d ∧ jaccardDistance r2 r1 = .ok d ∧
        d = 1 - ((area r1 ∩ area r2).card : ℚ) / ((area r1 ∪ area r2).card : ℚ) ∧
        0 ≤ d ∧ d ≤ 1 ∧ (d = 0 ↔ area r1 = area r2) ∧ (d = 1 ↔ Disjoint (area r1) (area r2))) := by
  rw [jaccardDistance_eq r1 r2 h1 h2, jaccardDistance_eq r2 r1 h2 h1]
  rw [← Finset.union_eq_empty]
  constructor
  · by_cases h : area r1 ∪ area r2 = ∅ <;> simp [h]
  · intro h
    have hpos : 0 < (area r1 ∪ area r2).card :=
      Finset.card_pos.mpr (Finset.nonempty_iff_ne_empty.mpr h)
    have hpos' : (0 : ℚ) < (area r1 ∪ area r2).card := by exact_mod_cast hpos
    have hle : (area r1 ∩ area r2).card ≤ (area r1 ∪ area r2).card :=
      Finset.card_le_card (Finset.inter_subset_union)
    refine ⟨_, if_neg h, ?_, rfl, ?_, ?_, ?_, ?_⟩
    · rw [if_neg (by rwa [Finset.union_comm]), Finset.union_comm, Finset.inter_comm]
    · rw [sub_nonneg, div_le_one hpos']; exact_mod_cast hle
    · have : (0 : ℚ) ≤ ((area r1 ∩ area r2).card : ℚ) / ((area r1 ∪ area r2).card : ℚ) := by
        positivity
      linarith
    · rw [sub_eq_zero, eq_comm, div_eq_one_iff_eq hpos'.ne', Nat.cast_inj]
      constructor
      · intro hc
        have : area r1 ∩ area r2 = area r1 ∪ area r2 :=
          Finset.eq_of_subset_of_card_le Finset.inter_subset_union hc.ge
        rwa [← Finset.inf_eq_inter, ← Finset.sup_eq_union, inf_eq_sup] at this
      · intro he; simp [he]
    · rw [sub_eq_self, div_eq_zero_iff, Finset.disjoint_iff_inter_eq_empty, ← Finset.card_eq_zero]
      constructor
      · rintro (h | h)
        · exact_mod_cast h
        · exact absurd h hpos'.ne'
      · intro h; left; exact_mod_cast h

/-- Two concrete overlapping rules: rows {0,1} x labels {0,1} and rows {1,2} x labels {1}. -/
def exampleR1 : BRule :=
  { head := [0], tail := [0, 1], N := 4, D := 3, L := 2, tailVec := [], headVec := [],
    numPositives := 2, headSupport := {0, 1, 2}, tailSupport := {0, 1}, support := {0, 1} }
@[inherit_doc exampleR1] def exampleR2 : BRule :=
  { head := [1], tail := [1], N := 4, D := 3, L := 2, tailVec := [], headVec := [],
    numPositives := 3, headSupport := {1, 2}, tailSupport := {1, 2, 3}, support := {1, 2} }

example : exampleR1.tail.Nodup ∧ exampleR2.tail.Nodup ∧
    ¬ (area exampleR1 = ∅ ∧ area exampleR2 = ∅) ∧ ¬ Disjoint (area exampleR1) (area exampleR2) := by
  decide

theorem jaccard_triangle_finset {α : Type} [DecidableEq α] (A B C : Finset α)
    (hAB : (A ∪ B).Nonempty) (hBC : (B ∪ C).Nonempty) (hAC : (A ∪ C).Nonempty) :
    1 - ((A ∩ C).card : ℚ) / ((A ∪ C).card : ℚ) ≤
      (1 - ((A ∩ B).card : ℚ) / ((A ∪ B).card : ℚ)) +
        (1 - ((B ∩ C).card : ℚ) / ((B ∪ C).card : ℚ)) := by
  set T := ((A ∪ B) ∪ (B ∪ C)).card with hT
  have hT1 : (A ∪ B).card ≤ T := Finset.card_le_card Finset.subset_union_left
  have hT2 : (B ∪ C).card ≤ T := Finset.card_le_card Finset.subset_union_right
  have hT3 : (A ∪ C).card ≤ T := Finset.card_le_card (by
    intro x hx; simp only [Finset.mem_union] at hx ⊢; tauto)
  have p1 : (0 : ℚ) < (A ∪ B).card := by exact_mod_cast Finset.card_pos.mpr hAB
  have p2 : (0 : ℚ) < (B ∪ C).card := by exact_mod_cast Finset.card_pos.mpr hBC
  have p3 : (0 : ℚ) < (A ∪ C).card := by exact_mod_cast Finset.card_pos.mpr hAC
  have pT : (0 : ℚ) < T := p1.trans_le (by exact_mod_cast hT1)
  -- counting inequality
  have e1 := Finset.card_union_add_card_inter (A ∪ B) (B ∪ C)
  have e2 := Finset.card_union_add_card_inter (A ∩ B) (B ∩ C)
  have i1 : ((A ∩ B) ∪ (B ∩ C)).card ≤ ((A ∪ B) ∩ (B ∪ C)).card := Finset.card_le_card (by
    intro x hx; simp only [Finset.mem_union, Finset.mem_inter] at hx ⊢; tauto)
  have i2 : ((A ∩ B) ∩ (B ∩ C)).card ≤ (A ∩ C).card := Finset.card_le_card (by
    intro x hx; simp only [Finset.mem_inter] at hx ⊢; tauto)
  have hcount : T + (A ∩ B).card + (B ∩ C).card ≤
      (A ∪ B).card + (B ∪ C).card + (A ∩ C).card := by omega
  have hcount' : (T : ℚ) + (A ∩ B).card + (B ∩ C).card ≤
      (A ∪ B).card + (B ∪ C).card + (A ∩ C).card := by exact_mod_cast hcount
  have l1 : 1 - ((A ∩ C).card : ℚ) / ((A ∪ C).card : ℚ) ≤ 1 - ((A ∩ C).card : ℚ) / T := by
    have : ((A ∩ C).card : ℚ) / T ≤ ((A ∩ C).card : ℚ) / ((A ∪ C).card : ℚ) :=
      div_le_div_of_nonneg_left (by positivity) p3 (by exact_mod_cast hT3)
    linarith
  have gen : ∀ U V : Finset α, (0 : ℚ) < (U ∪ V).card → (U ∪ V).card ≤ T →
      (((U ∪ V).card : ℚ) - (U ∩ V).card) / T ≤ 1 - ((U ∩ V).card : ℚ) / ((U ∪ V).card : ℚ) := by
    intro U V hp hle
    have hnn : (0 : ℚ) ≤ ((U ∪ V).card : ℚ) - (U ∩ V).card := by
      have : (U ∩ V).card ≤ (U ∪ V).card := Finset.card_le_card Finset.inter_subset_union
      have : ((U ∩ V).card : ℚ) ≤ (U ∪ V).card := by exact_mod_cast this
      linarith
    have : (((U ∪ V).card : ℚ) - (U ∩ V).card) / T ≤
        (((U ∪ V).card : ℚ) - (U ∩ V).card) / (U ∪ V).card :=
      div_le_div_of_nonneg_left hnn hp (by exact_mod_cast hle)
    rwa [sub_div _ _ ((U ∪ V).card : ℚ), div_self hp.ne'] at this
  have g1 := gen A B p1 hT1
  have g2 := gen B C p2 hT2
  have : 1 - ((A ∩ C).card : ℚ) / T ≤
      (((A ∪ B).card : ℚ) - (A ∩ B).card) / T + (((B ∪ C).card : ℚ) - (B ∩ C).card) / T := by
    rw [← add_div, le_div_iff₀ pT, sub_mul, div_mul_cancel₀ _ pT.ne']
    linarith
  linarith

/-- **C09.** The rule distance satisfies the triangle inequality. -/
theorem C09_triangle (r1 r2 r3 : BRule) (h1 : r1.tail.Nodup) (h2 : r2.tail.Nodup)
    (h3 : r3.tail.Nodup) (d12 d23 d13 : ℚ) (e12 : jaccardDistance r1 r2 = .ok d12)
    (e23 : jaccardDistance r2 r3 = .ok d23) (e13 : jaccardDistance r1 r3 = .ok d13) :
    d13 ≤ d12 + d23 := by
  rw [jaccardDistance_eq _ _ h1 h2] at e12
  rw [jaccardDistance_eq _ _ h2 h3] at e23
  rw [jaccardDistance_eq _ _ h1 h3] at e13
  split at e12 <;> split at e23 <;> split at e13 <;> try (cases e12; done)
  all_goals try (cases e23; done)
  all_goals try (cases e13; done)
  rename_i n12 n23 n13
  cases e12; cases e23; cases e13
  exact jaccard_triangle_finset _ _ _ (Finset.nonempty_iff_ne_empty.mpr n12)
    (Finset.nonempty_iff_ne_empty.mpr n23) (Finset.nonempty_iff_ne_empty.mpr n13)

example : ∃ d12 d23 d13, jaccardDistance exampleR1 exampleR2 = .ok d12 ∧
    jaccardDistance exampleR2 exampleR2 = .ok d23 ∧ jaccardDistance exampleR1 exampleR2 = .ok d13 ∧
    d13 ≤ d12 + d23 := by
  obtain ⟨d, hd, -⟩ := (C08_distance exampleR1 exampleR2 (by decide) (by decide)).2 (by decide)
  obtain ⟨e, he, -⟩ := (C08_distance exampleR2 exampleR2 (by decide) (by decide)).2 (by decide)
  exact ⟨d, e, d, hd, he, hd, C09_triangle exampleR1 exampleR2 exampleR2 (by decide) (by decide)
    (by decide) d e d hd he hd⟩

/-- **C10.** Marginal coverage counts the rule's cells that no reference rule covers. -/
theorem C10_marginal_coverage_exact (r : BRule) (refs : List BRule) :
    r.marginalCoverage refs = ((area r).filter fun c => ∀ ref ∈ refs, c ∉ area ref).card := by
  rw [marginalCoverage_eq]
  congr 1
  ext c
  simp only [Finset.mem_sdiff, mem_covered, Finset.mem_filter]
  push Not
  rfl

/-- **C10.** Bounds, independence of order and repetition, and the extreme cases. -/
theorem C10_marginal_coverage_laws (r : BRule) (refs refs' : List BRule) (hr : r.tail.Nodup) :
    r.marginalCoverage refs ≤ r.labelArea ∧ r.marginalCoverage [] = r.labelArea ∧
    ((∀ x, x ∈ refs ↔ x ∈ refs') → r.marginalCoverage refs = r.marginalCoverage refs') ∧
    (r ∈ refs → r.marginalCoverage refs = 0) := by
  simp only [C10_marginal_coverage_exact, BRule.labelArea, ← card_area r hr]
  refine ⟨Finset.card_filter_le _ _, by simp, ?_, ?_⟩
  · intro h; simp only [h]
  · intro h
    rw [Finset.card_eq_zero, Finset.filter_eq_empty_iff]
    intro c hc hall
    exact hall r h hc

example : exampleR1.marginalCoverage [exampleR2] = 3 ∧ exampleR1.labelArea = 4 := by decide

/-- **C11.** Diminishing returns: more reference rules never increase marginal coverage. -/
theorem C11_submodular (r : BRule) (refs1 refs2 : List BRule) (h : ∀ x ∈ refs1, x ∈ refs2) :
    r.marginalCoverage refs2 ≤ r.marginalCoverage refs1 := by
  simp only [C10_marginal_coverage_exact]
  apply Finset.card_le_card
  intro c hc
  rw [Finset.mem_filter] at hc ⊢
  exact ⟨hc.1, fun x hx => hc.2 x (h x hx)⟩

example : exampleR2.marginalCoverage [exampleR1] < exampleR2.marginalCoverage [] := by decide

/-- Both rates of a bound rule, as used by `KL`. -/
theorem rates_for_KL (X Y : Cmp) (hX : X.WF) (hY : Y.WF) (hN : X.nMinor = Y.nMinor)
    (head tail : List ℤ) (h0 : ∀ l ∈ tail, 0 ≤ l) (b : BRule)
    (hb : bindDataset (Rule.new head tail) X Y = .ok b) :
    ∃ p q : ℚ, b.precision = .ok p ∧ b.baseRate = .ok q ∧ 0 ≤ p ∧ p ≤ 1 ∧ 0 ≤ q ∧ q ≤ 1 ∧
      (q = 0 → p = 0) ∧ (q = 1 → p = 1) := by
  obtain ⟨s1, s2, ⟨p, hp, hp0, hp1, hpe⟩, ⟨q, hq, hq0, hq1, hqe⟩, -⟩ :=
    C06_rates X Y hX hY hN head tail h0 b hb
  obtain ⟨h1, h2, h3, ⟨i, hi⟩, -⟩ := C05_bind_supports X Y hX hY hN head tail h0 b hb
  have hH : (0 : ℚ) < b.headSupport.card := by exact_mod_cast Finset.card_pos.mpr ⟨i, hi⟩
  have hbe := bindDataset_eq hX hY hN (r := Rule.new head tail)
    (fun l hl => h0 l ((Rule.mem_new_tail _ _ _).mp hl)) hb
  refine ⟨p, q, hp, hq, hp0, hp1, hq0, hq1, ?_, ?_⟩
  · rintro rfl
    have : b.tailSupport.card = 0 := by
      have : (b.tailSupport.card : ℚ) = 0 := by rw [← hqe]; ring
      exact_mod_cast this
    have hs : b.support.card = 0 := Nat.le_zero.mp (this ▸ Finset.card_le_card s2)
    rw [hs] at hpe
    simpa [hH.ne'] using hpe
  · rintro rfl
    have hc : b.tailSupport.card = X.nMinor := by
      have : (b.tailSupport.card : ℚ) = X.nMinor := by rw [← hqe]; ring
      exact_mod_cast this
    have hsub : b.tailSupport ⊆ Finset.range X.nMinor := by
      rw [hbe, hN]; exact Finset.filter_subset _ _
    have hall : b.tailSupport = Finset.range X.nMinor :=
      Finset.eq_of_subset_of_card_le hsub (by rw [hc, Finset.card_range])
    have : b.support = b.headSupport := by
      apply Finset.Subset.antisymm s1
      intro j hj
      rw [h3]
      refine ⟨(h1 j).mp hj, (h2 j).mp ?_⟩
      rw [hall]
      have : b.headSupport ⊆ Finset.range X.nMinor := by
        rw [hbe]; exact Finset.filter_subset _ _
      exact this hj
    rw [this] at hpe
    exact mul_right_cancel₀ hH.ne' (by rw [hpe, one_mul])

/-- **C12.** The KL score is a finite, non-negative real; it is 0 exactly when the precision does not
exceed the base rate; otherwise it is the binary KL divergence of precision from base rate. -/
theorem C12_KL (X Y : Cmp) (hX : X.WF) (hY : Y.WF) (hN : X.nMinor = Y.nMinor)
    (head tail : List ℤ) (h0 : ∀ l ∈ tail, 0 ≤ l) (b : BRule)
    (hb : bindDataset (Rule.new head tail) X Y = .ok b) :
    ∃ (p q : ℚ) (k : ℝ), b.precision = .ok p ∧ b.baseRate = .ok q ∧ b.KL = .ok (k : EReal) ∧
      0 ≤ k ∧ (k = 0 ↔ p ≤ q) ∧
      (q ≤ p → k = p * Real.log (p / q) + (1 - p) * Real.log ((1 - p) / (1 - q))) := by
  obtain ⟨p, q, hp, hq, hp0, hp1, hq0, hq1, hz, ho⟩ := rates_for_KL X Y hX hY hN head tail h0 b hb
  have hp0' : (0 : ℝ) ≤ p := by exact_mod_cast hp0
  have hp1' : (p : ℝ) ≤ 1 := by exact_mod_cast hp1
  have hq0' : (0 : ℝ) ≤ q := by exact_mod_cast hq0
  have hq1' : (q : ℝ) ≤ 1 := by exact_mod_cast hq1
  have hz' : (q : ℝ) = 0 → (p : ℝ) = 0 := fun h => by exact_mod_cast hz (by exact_mod_cast h)
  have ho' : (q : ℝ) = 1 → (p : ℝ) = 1 := fun h => by exact_mod_cast ho (by exact_mod_cast h)
  by_cases hlt : p < q
  · refine ⟨p, q, 0, hp, hq, ?_, le_rfl, by simp [hlt.le], fun h => absurd hlt (not_lt.mpr h)⟩
    simp [BRule.KL, hp, hq, bind, Except.bind, pure, Except.pure, hlt]
  · refine ⟨p, q, klBin p q, hp, hq, ?_, ?_, ?_, fun _ => rfl⟩
    · simp only [BRule.KL, hp, hq, bind, Except.bind, pure, Except.pure, if_neg hlt]
      rw [scipyEntropy_eq hp0' hp1' hq0' hq1' hz' ho']
    · rcases hq0'.eq_or_lt with h | h
      · rw [hz' h.symm, ← h]; simp
      · rcases hq1'.eq_or_lt with h' | h'
        · rw [ho' h', h']; simp
        · exact klBin_nonneg hp0' hp1' h h'
    · constructor
      · intro hk
        by_contra hc
        push Not at hc
        have hne : (p : ℝ) ≠ q := by exact_mod_cast hc.ne'
        have hq' : (0 : ℝ) < q := by
          rcases hq0'.eq_or_lt with h | h
          · exact absurd ((hz' h.symm).trans h) hne
          · exact h
        have hq'' : (q : ℝ) < 1 := by
          rcases hq1'.eq_or_lt with h | h
          · exact absurd ((ho' h).trans h.symm) hne
          · exact h
        exact (klBin_pos hp0' hp1' hq' hq'' hne).ne' hk
      · intro hle
        have : p = q := le_antisymm hle (not_lt.mp hlt)
        rw [this]; simp

/-- **C12.** For equal base rates the KL score is strictly increasing in precision once precision is
at least the base rate. -/
theorem C12_KL_strictly_increasing (X Y : Cmp) (hX : X.WF) (hY : Y.WF) (hN : X.nMinor = Y.nMinor)
    (head1 tail1 head2 tail2 : List ℤ) (h01 : ∀ l ∈ tail1, 0 ≤ l) (h02 : ∀ l ∈ tail2, 0 ≤ l)
    (b1 b2 : BRule)
    (hb1 : bindDataset (Rule.new head1 tail1) X Y = .ok b1)
    (hb2 : bindDataset (Rule.new head2 tail2) X Y = .ok b2)
    (p1 p2 q : ℚ) (hp1 : b1.precision = .ok p1) (hp2 : b2.precision = .ok p2)
    (hq1 : b1.baseRate = .ok q) (hq2 : b2.baseRate = .ok q) (hqp : q ≤ p1) (hlt : p1 < p2) :
    ∃ k1 k2 : ℝ, b1.KL = .ok (k1 : EReal) ∧ b2.KL = .ok (k2 : EReal) ∧ k1 < k2 := by
  obtain ⟨p1', q1', k1, e1, e2, e3, -, -, e4⟩ := C12_KL X Y hX hY hN head1 tail1 h01 b1 hb1
  obtain ⟨p2', q2', k2, f1, f2, f3, -, -, f4⟩ := C12_KL X Y hX hY hN head2 tail2 h02 b2 hb2
  obtain ⟨p2'', q2'', g1, g2, g3, g4, g5, g6, g7, g8⟩ := rates_for_KL X Y hX hY hN head2 tail2 h02 b2 hb2
  obtain ⟨p1'', q1'', c1, c2, c3, c4, c5, c6, c7, c8⟩ := rates_for_KL X Y hX hY hN head1 tail1 h01 b1 hb1
  rw [hp1] at e1 c1; rw [hp2] at f1 g1; rw [hq1] at e2 c2; rw [hq2] at f2 g2
  cases e1; cases e2; cases f1; cases f2; cases g1; cases g2; cases c1; cases c2
  refine ⟨k1, k2, e3, f3, ?_⟩
  rw [e4 hqp, f4 (hqp.trans hlt.le)]
  have hq0 : 0 < q := by
    rcases g5.eq_or_lt with h | h
    · have := g7 h.symm; linarith
    · exact h
  have hq1' : q < 1 := by linarith
  have h2 : p2 ≤ 1 := g4
  exact klBin_strictMono (q := (q : ℝ)) (p1 := (p1 : ℝ)) (p2 := (p2 : ℝ)) (by exact_mod_cast hq0)
    (by exact_mod_cast hq1') (by exact_mod_cast hqp) (by exact_mod_cast hlt) (by exact_mod_cast h2)

example : ∃ (b : BRule) (p q : ℚ) (k : ℝ), b.precision = .ok p ∧ b.baseRate = .ok q ∧
    b.KL = .ok (k : EReal) ∧ 0 ≤ k := by
  obtain ⟨b, hb⟩ := example_bind
  obtain ⟨p, q, k, h1, h2, h3, h4, -⟩ := C12_KL exampleCSC exampleY exampleCSC_binary.toWF
    exampleY_binary.toWF rfl [0] [1] (by decide) b hb
  exact ⟨b, p, q, k, h1, h2, h3, h4⟩

/-- **C13.** Unpickling a pickled rule gives an equal rule (equal also as a set element), and binding
it again to the data restores the whole bound object. -/
theorem C13_pickle (r : Rule) (X Y : Cmp) (b : BRule) (hb : bindDataset r X Y = .ok b) :
    Rule.setState b.getState = r ∧ (Rule.setState b.getState).eq r = true ∧
    (∀ hsh, (Rule.setState b.getState).hash hsh = r.hash hsh) ∧
    bindDataset (Rule.setState b.getState) X Y = .ok b := by
  have h := bindDataset_toRule hb
  have h' : Rule.setState b.getState = r := by rw [← h]; rfl
  rw [h']
  exact ⟨rfl, by simp [Rule.eq], fun _ => rfl, hb⟩

example : ∃ b, bindDataset (Rule.setState b.getState) exampleCSC exampleY = .ok b := by
  obtain ⟨b, hb⟩ := example_bind
  exact ⟨b, (C13_pickle _ _ _ b hb).2.2.2⟩

end Verif
