/-
What the precision of the single rules says about the predictions on the training data.
-/
import Verif.Props.Gap
import Verif.Props.Evaluation

namespace Verif
open Cmp

theorem precision_one_iff {X Y : Cmp} (hX : X.WF) (hY : Y.WF) (hn : X.nMajor = Y.nMajor) {r : BRule} (hb : BoundTo X Y r) :
    r.precision = .ok 1 ↔ NeverWrong X Y r := by
  obtain ⟨-, -, -, h4, h5, h6, h7⟩ := hb.spec hX hY hn
  have hsub : r.support ⊆ r.headSupport := fun i hi => (h6 i).mpr ((h5 i).mp hi).1
  have hne : (r.headSupport.card : ℚ) ≠ 0 := by exact_mod_cast (Finset.card_pos.mpr h7).ne'
  have hcard : r.precision = .ok 1 ↔ r.support.card = r.headSupport.card := by
    unfold BRule.precision pyDiv
    rw [if_neg (by exact_mod_cast hne)]
    simp only [Except.ok.injEq]
    rw [Int.cast_natCast, Int.cast_natCast, div_eq_one_iff_eq hne, Nat.cast_inj]
  rw [hcard]
  constructor
  · intro hc i hi l hl
    have he := Finset.eq_of_subset_of_card_le hsub hc.ge
    exact (((h5 i).mp (he ▸ (h6 i).mpr hi)).2 l hl).2
  · intro hw
    refine congrArg _ (Finset.Subset.antisymm hsub fun i hi => ?_)
    exact (h5 i).mpr ⟨(h6 i).mp hi, fun l hl => ⟨(h4 l hl).1, hw i ((h6 i).mp hi) l hl⟩⟩

open Classical in
/-- **C166** Predicting the training records: the records with a wrong label are those to which some rule applies without
being wholly right, and the number of wrong labels is at most the sum over the rules of the records that spoil their
precision times their labels. The micro precision is 1 exactly if every rule has precision 1. -/
theorem C166_training_precision (X Y : Cmp) (hX : X.WF) (hY : Y.Binary) (hn : X.nMajor = Y.nMajor)
    (h0 : 0 < Y.nMajor) (h0' : 0 < Y.nMinor) (rs : List BRule) (hb : ∀ b ∈ rs, BoundTo X Y b) :
    ∃ P, predict (rs.map BRule.toRule) (some Y.nMinor) X = .ok P ∧
      (∀ i, (∃ j, (i, j) ∈ ones P \ ones Y) ↔ ∃ r ∈ rs, i ∈ r.headSupport ∧ i ∉ r.support) ∧
      (ones P \ ones Y).card ≤ (rs.map fun r => (r.headSupport.card - r.support.card) * r.tail.length).sum ∧
      (microPrecision P Y = 1 ↔ ∀ r ∈ rs, r.precision = .ok 1) := by
  have hspec := fun b h => (hb b h).spec hX hY.toWF hn
  obtain ⟨P, hP, hr, hc, hbin, hv⟩ := C14_predict_exact (rs.map BRule.toRule) Y.nMinor X (by
    intro i _ r hr _ l hl
    obtain ⟨b, hbm, rfl⟩ := List.mem_map.mp hr
    exact (hspec b hbm).2.2.2.1 l hl)
  have hlt : ∀ r ∈ rs, ∀ i, Fires X r.toRule i → i < X.nMajor := by
    intro r hrm i hf
    obtain ⟨f, hf'⟩ := List.exists_mem_of_ne_nil _ (hspec r hrm).1
    exact (hf f hf').2.major_lt hX
  have hones : ∀ i j, (i, j) ∈ ones P ↔ ∃ r ∈ rs, Fires X r.toRule i ∧ (j : ℤ) ∈ r.tail := by
    intro i j
    rw [mem_ones hbin.toWF]
    constructor
    · intro hst
      have hi := hst.major_lt hbin.toWF
      have hj := hst.minor_lt hbin.toWF
      have h1 : P.val i j = 1 := by rw [hbin.val_eq i j hi, if_pos hst]
      rw [hr] at hi
      rw [hc] at hj
      obtain ⟨q, hq, h1, h2⟩ := (hv i hi j hj).1.mp h1
      obtain ⟨b, hbm, rfl⟩ := List.mem_map.mp hq
      exact ⟨b, hbm, h1, h2⟩
    · rintro ⟨b, hbm, h1, h2⟩
      have hi := hlt b hbm i h1
      have hj : j < Y.nMinor := by
        have := ((hspec b hbm).2.2.2.1 _ h2).2
        exact_mod_cast this
      have h3 := (hv i hi j hj).1.mpr ⟨_, List.mem_map.mpr ⟨b, hbm, rfl⟩, h1, h2⟩
      rw [hbin.val_eq i j (hr ▸ hi)] at h3
      by_contra hno
      rw [if_neg hno] at h3
      exact absurd h3 (by decide)
  have honesY : ∀ i j, (i, j) ∈ ones Y ↔ Y.Stored i j := by
    intro i j
    rw [mem_ones hY.toWF]
  have hspoil : ∀ r ∈ rs, ∀ i, i ∈ r.headSupport ∧ i ∉ r.support ↔
      Fires X r.toRule i ∧ ∃ l ∈ r.tail, ¬ Y.Stored i l.toNat := by
    intro r hrm i
    obtain ⟨-, -, -, h4, h5, h6, -⟩ := hspec r hrm
    rw [h5, h6]
    constructor
    · rintro ⟨hf, hno⟩
      refine ⟨hf, ?_⟩
      by_contra hall
      push Not at hall
      exact hno ⟨hf, fun l hl => ⟨(h4 l hl).1, hall l hl⟩⟩
    · rintro ⟨hf, l, hl, hl'⟩
      exact ⟨hf, fun h => hl' (h.2 l hl).2⟩
  have hrows : ∀ i, (∃ j, (i, j) ∈ ones P \ ones Y) ↔ ∃ r ∈ rs, i ∈ r.headSupport ∧ i ∉ r.support := by
    intro i
    constructor
    · rintro ⟨j, hj⟩
      rw [Finset.mem_sdiff, hones, honesY] at hj
      obtain ⟨⟨r, hrm, hf, hl⟩, hno⟩ := hj
      exact ⟨r, hrm, (hspoil r hrm i).mpr ⟨hf, j, hl, by simpa using hno⟩⟩
    · rintro ⟨r, hrm, h⟩
      obtain ⟨hf, l, hl, hl'⟩ := (hspoil r hrm i).mp h
      refine ⟨l.toNat, ?_⟩
      rw [Finset.mem_sdiff, hones, honesY]
      refine ⟨⟨r, hrm, hf, ?_⟩, hl'⟩
      rw [Int.toNat_of_nonneg ((hspec r hrm).2.2.2.1 l hl).1]
      exact hl
  refine ⟨P, hP, hrows, ?_, ?_⟩
  · have hsub : ones P \ ones Y ⊆ rs.toFinset.biUnion fun r =>
        (r.headSupport \ r.support) ×ˢ r.tail.toFinset.image Int.toNat := by
      rintro ⟨i, j⟩ hij
      rw [Finset.mem_sdiff, hones, honesY] at hij
      obtain ⟨⟨r, hrm, hf, hl⟩, hno⟩ := hij
      rw [Finset.mem_biUnion]
      refine ⟨r, List.mem_toFinset.mpr hrm, Finset.mem_product.mpr ⟨Finset.mem_sdiff.mpr
        ((hspoil r hrm i).mpr ⟨hf, j, hl, by simpa using hno⟩), Finset.mem_image.mpr ⟨j, List.mem_toFinset.mpr hl, ?_⟩⟩⟩
      exact Int.toNat_natCast j
    refine (Finset.card_le_card hsub).trans (Finset.card_biUnion_le.trans ?_)
    have hterm : ∀ r ∈ rs, ((r.headSupport \ r.support) ×ˢ r.tail.toFinset.image Int.toNat).card ≤
        (r.headSupport.card - r.support.card) * r.tail.length := by
      intro r hrm
      obtain ⟨-, -, -, h4, h5, h6, -⟩ := hspec r hrm
      rw [Finset.card_product, Finset.card_sdiff_of_subset fun i hi => (h6 i).mpr ((h5 i).mp hi).1]
      exact Nat.mul_le_mul_left _ (Finset.card_image_le.trans (List.toFinset_card_le _))
    refine (Finset.sum_le_sum fun r hr => hterm r (List.mem_toFinset.mp hr)).trans ?_
    rw [Finset.sum_list_map_count]
    refine Finset.sum_le_sum fun r hr => ?_
    rw [smul_eq_mul]
    exact Nat.le_mul_of_pos_left _ (List.count_pos_iff.mpr (List.mem_toFinset.mp hr))
  · rw [(C67_micro P Y hbin hY ⟨by rw [hr, hn], hc, h0, h0'⟩).1, share]
    have hall : (∀ r ∈ rs, r.precision = .ok 1) ↔ ones P ⊆ ones Y := by
      constructor
      · rintro h ⟨i, j⟩ hij
        obtain ⟨r, hrm, hf, hl⟩ := (hones i j).mp hij
        rw [honesY]
        simpa using (precision_one_iff hX hY.toWF hn (hb r hrm)).mp (h r hrm) i hf j hl
      · intro h r hrm
        refine (precision_one_iff hX hY.toWF hn (hb r hrm)).mpr fun i hf l hl => ?_
        rw [← honesY]
        refine h ((hones _ _).mpr ⟨r, hrm, hf, ?_⟩)
        rw [Int.toNat_of_nonneg ((hspec r hrm).2.2.2.1 l hl).1]
        exact hl
    rw [hall]
    by_cases h0 : (ones P).card = 0
    · rw [if_pos h0, Finset.card_eq_zero.mp h0]
      simp
    · have h0' : ((ones P).card : ℚ) ≠ 0 := by exact_mod_cast h0
      rw [if_neg h0, div_eq_one_iff_eq h0', Nat.cast_inj, ← Finset.inter_eq_left]
      exact ⟨fun h => Finset.eq_of_subset_of_card_le Finset.inter_subset_left h.ge, fun h => by rw [h]⟩

/-- Both directions occur: the two rules of the example together predict a wrong label for record 2, the first alone none. -/
example : (∃ P, predict (trainRules.map BRule.toRule) (some trainY.nMinor) trainX = .ok P ∧ microPrecision P trainY ≠ 1) ∧
    ∃ P, predict ((trainRules.take 1).map BRule.toRule) (some trainY.nMinor) trainX = .ok P ∧
      microPrecision P trainY = 1 := by
  have hmem : ∀ b ∈ trainRules.take 1, b ∈ trainRules := fun b hb => List.mem_of_mem_take hb
  constructor
  · obtain ⟨P, hP, -, -, h⟩ := C166_training_precision trainX trainY trainX_binary.toWF trainY_binary rfl (by decide)
      (by decide) trainRules trainRules_bound
    refine ⟨P, hP, fun h1 => ?_⟩
    have hm : boundRule (Rule.new [1, 2] [0, 1]) trainX.flip trainY.flip ∈ trainRules := by simp [trainRules]
    have hw := (precision_one_iff trainX_binary.toWF trainY_binary.toWF rfl (trainRules_bound _ hm)).mp (h.mp h1 _ hm)
    obtain ⟨hf, -, l, hl, hno⟩ := trainRules_gap
    exact hno (hw 2 hf l hl)
  · obtain ⟨P, hP, -, -, h⟩ := C166_training_precision trainX trainY trainX_binary.toWF trainY_binary rfl (by decide)
      (by decide) (trainRules.take 1) fun b hb => trainRules_bound b (hmem b hb)
    refine ⟨P, hP, h.mpr fun r hr => ?_⟩
    refine (precision_one_iff trainX_binary.toWF trainY_binary.toWF rfl (trainRules_bound r (hmem r hr))).mpr ?_
    simp only [trainRules, List.take_succ_cons, List.take_zero, List.mem_cons, List.not_mem_nil, or_false] at hr
    subst hr
    intro i hf l hl
    have hl' : l ∈ ([0] : List ℤ) := (Rule.mem_new_tail _ _ _).mp hl
    have h0 := (hf 0 ((Rule.mem_new_head _ _ _).mpr (by decide))).2
    have hi : i < 4 := h0.major_lt trainX_binary.toWF
    rw [List.mem_singleton] at hl'
    subst hl'
    interval_cases i
    · decide
    · decide
    · exact absurd h0 (by decide)
    · decide

end Verif
