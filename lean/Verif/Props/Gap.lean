/-
What separates coverage from training recall.
-/
import Verif.Spec.Gap
import Verif.Props.Coverage
import Verif.Props.Equivalent

namespace Verif
open Cmp

theorem mem_area_iff {X Y : Cmp} (hX : X.WF) (hY : Y.WF) (hn : X.nMajor = Y.nMajor) {r : BRule} (hb : BoundTo X Y r)
    (c : ℕ × ℤ) : c ∈ area r ↔ WhollyRight X Y r c.1 ∧ c.2 ∈ r.tail := by
  obtain ⟨-, -, -, h4, h5, -⟩ := hb.spec hX hY hn
  rw [area, Finset.mem_product, List.mem_toFinset, h5]
  exact and_congr_left fun _ => and_congr_right fun _ => forall₂_congr fun l hl => ⟨fun h => h.2, fun h => ⟨(h4 l hl).1, h⟩⟩

open Classical in
/-- **C163** The training recall exceeds the coverage ratio by exactly the share of the label occurrences that are
predicted, but only by rules that conclude something wrong on the same record. -/
theorem C163_gap (X Y : Cmp) (hX : X.WF) (hY : Y.Binary) (hn : X.nMajor = Y.nMajor) (h0 : (labelCells Y).Nonempty)
    (rs : List BRule) (hb : ∀ b ∈ rs, BoundTo X Y b) :
    ∃ P q, predict (rs.map BRule.toRule) (some Y.nMinor) X = .ok P ∧ coverageRatio Y rs = .ok q ∧
      ((labelCells Y).filter fun c => P.val c.1 c.2.toNat = 1).card / ((labelCells Y).card : ℚ) - q =
        ((labelCells Y).filter fun c => (∃ r ∈ rs, PartlyWrong X Y r c.1 c.2) ∧
          ∀ r ∈ rs, c.2 ∈ r.tail → ¬ WhollyRight X Y r c.1).card / ((labelCells Y).card : ℚ) := by
  have hspec := fun b h => (hb b h).spec hX hY.toWF hn
  obtain ⟨P, hP, -, -, -, hv⟩ := C14_predict_exact (rs.map BRule.toRule) Y.nMinor X (by
    intro i _ r hr _ l hl
    obtain ⟨b, hbm, rfl⟩ := List.mem_map.mp hr
    exact (hspec b hbm).2.2.2.1 l hl)
  obtain ⟨q, hq, hqe, -⟩ := C17_coverage_ratio X Y hX hY hn h0 rs hb
  refine ⟨P, q, hP, hq, ?_⟩
  have hpred : ∀ c ∈ labelCells Y, (P.val c.1 c.2.toNat = 1 ↔ ∃ r ∈ rs, Fires X r.toRule c.1 ∧ c.2 ∈ r.tail) := by
    intro c hc
    obtain ⟨hc0, hcs⟩ := (mem_labelCells hY.toWF c).mp hc
    rw [(hv c.1 (hn ▸ hcs.major_lt hY.toWF) c.2.toNat (hcs.minor_lt hY.toWF)).1, Int.toNat_of_nonneg hc0]
    constructor
    · rintro ⟨r, hr, h1, h2⟩
      obtain ⟨b, hbm, rfl⟩ := List.mem_map.mp hr
      exact ⟨b, hbm, h1, h2⟩
    · rintro ⟨b, hbm, h1, h2⟩
      exact ⟨b.toRule, List.mem_map.mpr ⟨b, hbm, rfl⟩, h1, h2⟩
  have hsplit : ((labelCells Y).filter fun c => P.val c.1 c.2.toNat = 1).card =
      ((labelCells Y).filter fun c => ∃ r ∈ rs, c ∈ area r).card +
      ((labelCells Y).filter fun c => (∃ r ∈ rs, PartlyWrong X Y r c.1 c.2) ∧
          ∀ r ∈ rs, c.2 ∈ r.tail → ¬ WhollyRight X Y r c.1).card := by
    rw [← Finset.card_union_of_disjoint]
    · congr 1
      ext c
      simp only [Finset.mem_union, Finset.mem_filter, ← and_or_left]
      refine and_congr_right fun hc => ?_
      rw [hpred c hc]
      constructor
      · rintro ⟨r, hr, h1, h2⟩
        by_cases hall : ∃ r ∈ rs, c ∈ area r
        · exact Or.inl hall
        · have hno : ∀ r ∈ rs, c.2 ∈ r.tail → ¬ WhollyRight X Y r c.1 := fun r hr ht hw =>
            hall ⟨r, hr, (mem_area_iff hX hY.toWF hn (hb r hr) c).mpr ⟨hw, ht⟩⟩
          refine Or.inr ⟨⟨r, hr, h1, h2, ?_⟩, hno⟩
          by_contra hcon
          push Not at hcon
          exact hno r hr h2 ⟨h1, hcon⟩
      · rintro (⟨r, hr, hc'⟩ | ⟨⟨r, hr, h1, h2, -⟩, -⟩)
        · obtain ⟨hw, ht⟩ := (mem_area_iff hX hY.toWF hn (hb r hr) c).mp hc'
          exact ⟨r, hr, hw.1, ht⟩
        · exact ⟨r, hr, h1, h2⟩
    · rw [Finset.disjoint_left]
      intro c h1 h2
      obtain ⟨-, r, hr, hc⟩ := Finset.mem_filter.mp h1
      obtain ⟨hw, ht⟩ := (mem_area_iff hX hY.toWF hn (hb r hr) c).mp hc
      exact (Finset.mem_filter.mp h2).2.2 r hr ht hw
  have hq' : q = (((labelCells Y).filter fun c => ∃ r ∈ rs, c ∈ area r).card : ℚ) / ((labelCells Y).card : ℚ) := by
    rw [hqe]
  rw [hq', hsplit, ← sub_div]
  push_cast
  ring

/-- **C163** Hence the two are equal exactly when every label occurrence that is predicted is predicted by a rule that is
wholly right on the record; in particular when no rule is ever wrong on the training data. -/
theorem C163_equal (X Y : Cmp) (hX : X.WF) (hY : Y.Binary) (hn : X.nMajor = Y.nMajor) (h0 : (labelCells Y).Nonempty)
    (rs : List BRule) (hb : ∀ b ∈ rs, BoundTo X Y b) :
    ∃ P q, predict (rs.map BRule.toRule) (some Y.nMinor) X = .ok P ∧ coverageRatio Y rs = .ok q ∧
      (q = ((labelCells Y).filter fun c => P.val c.1 c.2.toNat = 1).card / ((labelCells Y).card : ℚ) ↔
        ∀ c ∈ labelCells Y, (∃ r ∈ rs, Fires X r.toRule c.1 ∧ c.2 ∈ r.tail) →
          ∃ r ∈ rs, c.2 ∈ r.tail ∧ WhollyRight X Y r c.1) ∧
      ((∀ r ∈ rs, NeverWrong X Y r) →
        q = ((labelCells Y).filter fun c => P.val c.1 c.2.toNat = 1).card / ((labelCells Y).card : ℚ)) := by
  classical
  obtain ⟨P, q, hP, hq, hgap⟩ := C163_gap X Y hX hY hn h0 rs hb
  have hpos : ((labelCells Y).card : ℚ) ≠ 0 := by
    exact_mod_cast (Finset.card_pos.mpr h0).ne'
  have hiff : (q = ((labelCells Y).filter fun c => P.val c.1 c.2.toNat = 1).card / ((labelCells Y).card : ℚ) ↔
        ∀ c ∈ labelCells Y, (∃ r ∈ rs, Fires X r.toRule c.1 ∧ c.2 ∈ r.tail) →
          ∃ r ∈ rs, c.2 ∈ r.tail ∧ WhollyRight X Y r c.1) := by
    rw [eq_comm, ← sub_eq_zero, hgap, div_eq_zero_iff, or_iff_left hpos, Nat.cast_eq_zero, Finset.card_eq_zero,
      Finset.filter_eq_empty_iff]
    refine forall₂_congr fun c _ => ?_
    constructor
    · rintro hno ⟨r, hr, h1, h2⟩
      by_contra hcon
      push Not at hcon
      refine hno ⟨⟨r, hr, h1, h2, ?_⟩, hcon⟩
      by_contra hall
      push Not at hall
      exact hcon r hr h2 ⟨h1, hall⟩
    · rintro hall ⟨⟨r, hr, h1, h2, -⟩, hno⟩
      obtain ⟨r', hr', ht, hw⟩ := hall ⟨r, hr, h1, h2⟩
      exact hno r' hr' ht hw
  exact ⟨P, q, hP, hq, hiff, fun hnw => hiff.mpr fun c _ ⟨r, hr, h1, h2⟩ => ⟨r, hr, h2, h1, hnw r hr _ h1⟩⟩

open Classical in
/-- **C163** What the gain of a rule counts that adds nothing to the predictions: if all labels of `r` are concluded by
selected rules from parts of its head, every cell that `r` newly covers is already predicted, by a selected rule that is
partly wrong on that record; the gain is 0 if no selected rule is ever wrong. -/
theorem C163_redundant_gain (X Y : Cmp) (hX : X.WF) (hY : Y.Binary) (hn : X.nMajor = Y.nMajor) (rs : List BRule)
    (hb : ∀ b ∈ rs, BoundTo X Y b) (r : BRule) (hr : BoundTo X Y r)
    (hd : ∀ l ∈ r.tail, Derives (rs.map BRule.toRule) r.toRule l) :
    r.marginalCoverage rs = ((area r).filter fun c => (∃ r' ∈ rs, PartlyWrong X Y r' c.1 c.2) ∧
      ∀ r' ∈ rs, c.2 ∈ r'.tail → ¬ WhollyRight X Y r' c.1).card ∧
    ((∀ r' ∈ rs, NeverWrong X Y r') → r.marginalCoverage rs = 0) := by
  have hmain : r.marginalCoverage rs = ((area r).filter fun c => (∃ r' ∈ rs, PartlyWrong X Y r' c.1 c.2) ∧
      ∀ r' ∈ rs, c.2 ∈ r'.tail → ¬ WhollyRight X Y r' c.1).card := by
    rw [C10_marginal_coverage_exact]
    congr 1
    ext c
    simp only [Finset.mem_filter]
    refine and_congr_right fun hc => ?_
    obtain ⟨hw, ht⟩ := (mem_area_iff hX hY.toWF hn hr c).mp hc
    constructor
    · intro hno
      have hno' : ∀ r' ∈ rs, c.2 ∈ r'.tail → ¬ WhollyRight X Y r' c.1 := fun r' hr' ht' hw' =>
        hno r' hr' ((mem_area_iff hX hY.toWF hn (hb r' hr') c).mpr ⟨hw', ht'⟩)
      refine ⟨?_, hno'⟩
      obtain ⟨q, hq, hqt, hsub⟩ := hd c.2 ht
      obtain ⟨r', hr', rfl⟩ := List.mem_map.mp hq
      have hf : Fires X r'.toRule c.1 := fun f hf => hw.1 f (hsub f hf)
      refine ⟨r', hr', hf, hqt, ?_⟩
      by_contra hall
      push Not at hall
      exact hno' r' hr' hqt ⟨hf, hall⟩
    · rintro ⟨-, hno⟩ r' hr' hc'
      obtain ⟨hw', ht'⟩ := (mem_area_iff hX hY.toWF hn (hb r' hr') c).mp hc'
      exact hno r' hr' ht' hw'
  refine ⟨hmain, fun hnw => ?_⟩
  rw [hmain, Finset.card_eq_zero, Finset.filter_eq_empty_iff]
  rintro c - ⟨⟨r', hr', hf, -, l, hl, hl'⟩, -⟩
  exact hl' (hnw r' hr' c.1 hf l hl)

theorem trainRules_gap :
    PartlyWrong trainX trainY (boundRule (Rule.new [1, 2] [0, 1]) trainX.flip trainY.flip) 2 1 := by
  refine ⟨fun f hf => ?_, (Rule.mem_new_tail _ _ _).mpr (by decide), 0, (Rule.mem_new_tail _ _ _).mpr (by decide), by decide⟩
  have hf' : f ∈ ([1, 2] : List ℤ) := (Rule.mem_new_head _ _ _).mp hf
  simp only [List.mem_cons, List.not_mem_nil, or_false] at hf'
  rcases hf' with rfl | rfl <;> decide

/-- The second training rule concludes labels 0 and 1 on record 2, which carries label 1 only: the occurrence is predicted
and not covered. -/
example : (∃ r ∈ trainRules, PartlyWrong trainX trainY r 2 1) ∧ ((2 : ℕ), (1 : ℤ)) ∈ labelCells trainY ∧
    ¬ ∀ r ∈ trainRules, NeverWrong trainX trainY r := by
  refine ⟨⟨_, by simp [trainRules], trainRules_gap⟩, (mem_labelCells trainY_binary.toWF _).mpr (by decide), fun hn => ?_⟩
  obtain ⟨hf, -, l, hl, hl'⟩ := trainRules_gap
  exact hl' (hn _ (by simp [trainRules]) 2 hf l hl)

/-- The rule `{1,2} -> {1}` predicts nothing that the training rules do not predict, and yet has a positive gain. -/
example : (∀ l ∈ (Rule.new [1, 2] [1]).tail, Derives (trainRules.map BRule.toRule) (Rule.new [1, 2] [1]) l) ∧
    0 < (boundRule (Rule.new [1, 2] [1]) trainX.flip trainY.flip).marginalCoverage trainRules := by
  have hr : BoundTo trainX trainY (boundRule (Rule.new [1, 2] [1]) trainX.flip trainY.flip) :=
    boundTo_mk (by decide) (by decide) (by decide) (by decide) (by decide) (by decide) ⟨3, by decide⟩
  constructor
  · intro l hl
    have hl' : l ∈ ([1] : List ℤ) := (Rule.mem_new_tail _ _ _).mp hl
    obtain rfl : l = 1 := by simpa using hl'
    refine ⟨_, List.mem_map.mpr ⟨_, by rw [trainRules]; exact List.mem_cons_of_mem _ (List.mem_singleton_self _), rfl⟩,
      (Rule.mem_new_tail [1, 2] [0, 1] 1).mpr (by decide), fun f hf => ?_⟩
    exact (Rule.mem_new_head _ _ _).mpr ((Rule.mem_new_head _ _ _).mp hf)
  · rw [C10_marginal_coverage_exact, Finset.card_pos]
    refine ⟨(2, 1), Finset.mem_filter.mpr ⟨(mem_area_iff trainX_binary.toWF trainY_binary.toWF rfl hr _).mpr
      ⟨⟨fun f hf => trainRules_gap.1 f ((Rule.mem_new_head _ _ _).mpr ((Rule.mem_new_head _ _ _).mp hf)), fun l hl => ?_⟩,
        (Rule.mem_new_tail _ _ _).mpr (by decide)⟩, fun ref href hc => ?_⟩⟩
    · have hl' : l ∈ ([1] : List ℤ) := (Rule.mem_new_tail _ _ _).mp hl
      obtain rfl : l = 1 := by simpa using hl'
      decide
    · obtain ⟨hw, -⟩ := (mem_area_iff trainX_binary.toWF trainY_binary.toWF rfl (trainRules_bound ref href) _).mp hc
      simp only [trainRules, List.mem_cons, List.not_mem_nil, or_false] at href
      rcases href with rfl | rfl
      · have := (hw.1 0 ((Rule.mem_new_head _ _ _).mpr (by decide))).2
        revert this; decide
      · have := hw.2 0 ((Rule.mem_new_tail _ _ _).mpr (by decide))
        revert this; decide

/-- Hypotheses of the equality for rules that are never wrong: `0 -> {0}` on the training data. -/
example : BoundTo trainX trainY (boundRule (Rule.new [0] [0]) trainX.flip trainY.flip) ∧
    NeverWrong trainX trainY (boundRule (Rule.new [0] [0]) trainX.flip trainY.flip) := by
  refine ⟨trainRules_bound _ (by simp [trainRules]), fun i hi l hl => ?_⟩
  have h0 : trainX.Stored i 0 := (hi 0 ((Rule.mem_new_head _ _ _).mpr (by decide))).2
  have hlt : i < 4 := h0.major_lt trainX_binary.toWF
  have hl' : l ∈ ([0] : List ℤ) := (Rule.mem_new_tail _ _ _).mp hl
  obtain rfl : l = 0 := by simpa using hl'
  clear hi hl hl'
  interval_cases i <;> revert h0 <;> decide

end Verif
