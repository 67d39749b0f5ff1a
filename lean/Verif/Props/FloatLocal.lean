/-
C141: the local samplers in doubles.
-/
import Verif.Spec.FloatLocal
import Verif.Lemmas.FloatLocal2
import Verif.Props.Surs

namespace Verif

open RandR

/-! ### The row -/

/-- Drawing a row in doubles. -/
theorem rowDraw_F {ws : List ℤ} (h0 : ∀ x ∈ ws, 0 ≤ x) (hpos : 0 < ws.sum) (hlt : ws.sum < 2 ^ 63)
    (hn : ws.length ≤ 2 ^ 23) :
    ∃ c : ℕ → ℝ, (npChoiceF (normaliseF ws)).Law (Finset.range ws.length) c ∧ (∀ i, 0 ≤ c i) ∧
      (∑ i ∈ Finset.range ws.length, c i = 1) ∧
      (∀ x, (npChoiceF (normaliseF ws)).Outcome x → ∃ i < ws.length, x = .ok i ∧ ws.getD i 0 ≠ 0) ∧
      (∀ i < ws.length, |c i - (ws.getD i 0 : ℤ) / (ws.sum : ℤ)| ≤
        (10 * ws.length + 75) / 2 ^ 53 + (ws.getD i 0 : ℤ) / (ws.sum : ℤ) * (12 / 2 ^ 53)) ∧
      ∑ i ∈ Finset.range ws.length, |c i - (ws.getD i 0 : ℤ) / (ws.sum : ℤ)| ≤
        (ws.length * (10 * ws.length + 75) + 12) / 2 ^ 53 := by
  obtain ⟨b1, b2, b3, b4, b5⟩ := normaliseI64_spec h0 hpos hlt
  obtain ⟨a1, a2, a3, a4, a5⟩ := normaliseF_spec h0 hpos hlt
  obtain ⟨l1, l2, l3, l4, l5, l6⟩ := npChoiceF_law (n := ws.length) (j := 6) (normaliseF ws) (normaliseI64 ws) a1 b4 a2 hn
    (by norm_num) a3 a4 a5 b3
  refine ⟨_, l1, l2, l3, fun x hx => ?_, fun i hi => ?_, ?_⟩
  · obtain ⟨i, hi, e, hq⟩ := l4 x hx
    refine ⟨i, hi, e, fun h => hq ?_⟩
    rw [b5, h]
    simp
  · have := l5 i hi
    rw [b5] at this
    refine this.trans (le_of_eq ?_)
    push_cast
    ring
  · simp only [b5] at l6
    refine l6.trans (le_of_eq ?_)
    unfold drawError
    push_cast
    ring

/-- A row, then whatever is drawn inside it: the doubles change the expected value of a quantity between 0 and 1 by no
more than the errors of the two draws. -/
theorem rows_close {α : Type} {ws : List ℤ} (h0 : ∀ x ∈ ws, 0 ≤ x) (hpos : 0 < ws.sum) (hlt : ws.sum < 2 ^ 63)
    (hn : ws.length ≤ 2 ^ 23) (K K' : ℕ → RandR α) (f : Py α → ℝ) {b : ℝ}
    (hK : ∀ i < ws.length, 0 ≤ (K i).expect f ∧ (K i).expect f ≤ 1)
    (hb : ∀ i < ws.length, ws.getD i 0 ≠ 0 → |(K i).expect f - (K' i).expect f| ≤ b) :
    |(Bind.bind (npChoiceF (normaliseF ws)) K).expect f - (Bind.bind (npChoiceR (normaliseI64 ws)) K').expect f| ≤
      (ws.length * (10 * ws.length + 75) + 12) / 2 ^ 53 + b := by
  obtain ⟨b1, b2, b3, b4, b5⟩ := normaliseI64_spec h0 hpos hlt
  obtain ⟨c, l1, -, -, -, -, l6⟩ := rowDraw_F h0 hpos hlt hn
  rw [bind_eq, bind_eq, l1.bind, (law_npChoiceR b1 b2 b3).bind, b4]
  simp only [b5]
  have hS : (0 : ℝ) < (ws.sum : ℤ) := by exact_mod_cast hpos
  refine mix_close ws.length c _ _ _ (fun i hi => ?_) ?_ l6 hK fun i hi hq => hb i hi ?_
  · refine div_nonneg ?_ hS.le
    rw [getD_lt hi]
    exact_mod_cast h0 _ (List.getElem_mem hi)
  · have := (law_npChoiceR b1 b2 b3) fun _ => 1
    rw [b4] at this
    simp only [b5, mul_one] at this
    rw [← this]
    unfold npChoiceR
    rw [if_pos ⟨b1, b2, b3⟩]
    simp only [RandR.expect, mul_one]
    rw [← b3, ← Fin.sum_univ_getElem]
    rfl
  · intro h
    rw [h] at hq
    simp at hq

/-! ### The area sampler -/

/-- The itemset drawn inside a row, in doubles. -/
theorem areaRow_F (S : Summation) {binom : ℕ → ℕ → ℝ} {ε : ℝ} (hε0 : 0 ≤ ε) (hε1 : ε < 1) (hbin : BinomWithin ε binom)
    {order : Finset ℕ → List ℕ} (ho : Traverses order) {r : Finset ℕ} (hr : 0 < r.card) (h58 : r.card ≤ 58) :
    (∀ f : Py (Finset ℕ) → ℝ, (∀ x, 0 ≤ f x ∧ f x ≤ 1) →
      (0 ≤ (do
        let j ← npChoiceF (sizeProbasF S binom (order r).length)
        let perm ← npPermutation (order r).length (order r)
        RandR.lift (areaItemset (j + 1) perm)).expect f ∧
      (do
        let j ← npChoiceF (sizeProbasF S binom (order r).length)
        let perm ← npPermutation (order r).length (order r)
        RandR.lift (areaItemset (j + 1) perm)).expect f ≤ 1) ∧
      |(do
        let j ← npChoiceF (sizeProbasF S binom (order r).length)
        let perm ← npPermutation (order r).length (order r)
        RandR.lift (areaItemset (j + 1) perm)).expect f -
      (do
        let j ← npChoiceR (sizeProbas (order r).length)
        let perm ← npPermutation (order r).length (order r)
        RandR.lift (areaItemset (j + 1) perm)).expect f| ≤ 114786 / 2 ^ 53 + 2 * ε) ∧
    ∀ x, (do
        let j ← npChoiceF (sizeProbasF S binom (order r).length)
        let perm ← npPermutation (order r).length (order r)
        RandR.lift (areaItemset (j + 1) perm)).Outcome x → ∃ F, x = .ok F ∧ F ≠ ∅ ∧ F ⊆ r := by
  obtain ⟨h1, h2, h3⟩ := traverse_toFinset ho r
  obtain ⟨c, c1, c2, c3, c4, c5⟩ := size_law S hε0 hε1 hr h58 fun k hk hkn => hbin r.card k hk hkn h58
  rw [h3]
  refine ⟨fun f hf => ?_, fun x hx => ?_⟩
  · have hX : ∀ j < r.card, 0 ≤ (npPermutation r.card (order r) >>= fun perm =>
        RandR.lift (areaItemset (j + 1) perm)).expect f ∧ (npPermutation r.card (order r) >>= fun perm =>
        RandR.lift (areaItemset (j + 1) perm)).expect f ≤ 1 := by
      intro j hj
      rw [expect_areaSize ho hj]
      have hc : (0 : ℝ) < (r.card.choose (j + 1) : ℝ) := by exact_mod_cast Nat.choose_pos hj
      refine ⟨div_nonneg (Finset.sum_nonneg fun F _ => (hf _).1) hc.le, ?_⟩
      rw [div_le_one hc]
      refine (Finset.sum_le_sum fun F _ => (hf (.ok F)).2).trans ?_
      rw [Finset.sum_const, nsmul_eq_mul, mul_one, Finset.card_powersetCard]
    rw [bind_eq, bind_eq, c1.bind, (law_sizeProbas hr).bind]
    refine ⟨⟨Finset.sum_nonneg fun j hj => mul_nonneg (c2 j) (hX j (Finset.mem_range.mp hj)).1, ?_⟩, ?_⟩
    · rw [← c3]
      exact Finset.sum_le_sum fun j hj => mul_le_of_le_one_right (c2 j) (hX j (Finset.mem_range.mp hj)).2
    · have := mix_close (b := 0) r.card c (fun i => (r.card.choose (i + 1) : ℝ) * (i + 1) / (r.card * 2 ^ (r.card - 1)))
        (fun j => (npPermutation r.card (order r) >>= fun perm => RandR.lift (areaItemset (j + 1) perm)).expect f)
        (fun j => (npPermutation r.card (order r) >>= fun perm => RandR.lift (areaItemset (j + 1) perm)).expect f)
        (fun i _ => by positivity) (by
          rw [← Finset.sum_div, ← sum_list_range, sizeWeights_sum, div_self]
          positivity) c5 hX (fun i _ _ => by simp)
      rwa [add_zero] at this
  · rw [bind_eq, outcome_bind] at hx
    rcases hx with ⟨j, hj, hx⟩ | ⟨e, he, -⟩
    · obtain ⟨j', hj', e⟩ := c4 _ hj
      cases e
      exact outcome_areaSize ho hj' hx
    · obtain ⟨j', -, e'⟩ := c4 _ he
      cases e'

open Classical in
/-- **C141** `BoleyAreaSampler` in double precision, when `scipy.special.binom` has relative error at most `ε`: fitted on
a binary matrix with a stored entry, a total area below `2^63` and at most `2^23` rows, it never raises, it returns only
non-empty itemsets that some row contains, and the probability of every event differs from the share of the area that
the itemsets of the event have by at most `(10 n² + 75 n + 2^17) / 2^53 + 2 ε`, for `n` rows. -/
theorem C141_area (S : Summation) {binom : ℕ → ℕ → ℝ} {ε : ℝ} (hε0 : 0 ≤ ε) (hε1 : ε < 1) (hbin : BinomWithin ε binom)
    (order : Finset ℕ → List ℕ) (ho : Traverses order) (Y : Cmp) (hb : Y.Binary) (hs : ∃ i j, Y.Stored i j)
    (hlt : ∑ F ∈ itemsets Y, F.card * supportCount Y F < 2 ^ 63) (hn : Y.nMajor ≤ 2 ^ 23) :
    ∃ rows probas, areaFitF Y = .ok (rows, probas) ∧
      (∀ x, (areaSampleOnceF S binom order rows probas).Outcome x → ∃ F, x = .ok F ∧ F ≠ ∅ ∧ 0 < supportCount Y F) ∧
      ∀ A : Set (Finset ℕ),
        |(areaSampleOnceF S binom order rows probas).probOf (fun x => ∃ F ∈ A, x = .ok F) - areaShare Y A| ≤
          (10 * Y.nMajor ^ 2 + 75 * Y.nMajor + 2 ^ 17) / 2 ^ 53 + 2 * ε := by
  have hsel := sets_selected hb
  set rows := ((List.range Y.nMajor).filter fun i => decide (0 < (rowSet Y i).card)).map (rowSet Y) with hrows
  have hr : ∀ r ∈ rows, 0 < r.card := by
    intro r hr
    rw [hrows, List.mem_map] at hr
    obtain ⟨i, hi, rfl⟩ := hr
    simpa using (List.mem_filter.mp hi).2
  have hrow : ∀ r ∈ rows, ∃ i < Y.nMajor, r = rowSet Y i := by
    intro r hr
    rw [hrows, List.mem_map] at hr
    obtain ⟨i, hi, rfl⟩ := hr
    exact ⟨i, List.mem_range.mp (List.mem_filter.mp hi).1, rfl⟩
  have hne : rows ≠ [] := by
    obtain ⟨i, j, hij⟩ := hs
    apply List.ne_nil_of_mem (a := rowSet Y i)
    rw [hrows, List.mem_map]
    refine ⟨i, List.mem_filter.mpr ⟨List.mem_range.mpr (hij.major_lt hb.toWF), ?_⟩, rfl⟩
    rw [decide_eq_true_eq, Finset.card_pos]
    exact ⟨j, mem_rowSet.mpr hij⟩
  have hlen : rows.length ≤ Y.nMajor := by
    rw [hrows, List.length_map]
    exact (List.length_filter_le _ _).trans (by simp)
  rw [sum_area hb] at hlt
  have htot : (((rows.map fun r => r.card * 2 ^ (r.card - 1)).sum : ℕ) : ℝ) =
      ∑ G ∈ itemsets Y, (G.card * supportCount Y G : ℝ) := by
    rw [hrows, ← sum_area hb]
    push_cast
    rfl
  obtain ⟨hw, hsum, hpos⟩ := area_weights rows hr hne hlt
  have h58 : ∀ r ∈ rows, r.card ≤ 58 := by
    intro r hrm
    have h1 : r.card * 2 ^ (r.card - 1) < 2 ^ 63 :=
      lt_of_le_of_lt (List.single_le_sum (by simp) _
        (List.mem_map_of_mem (f := fun r : Finset ℕ => r.card * 2 ^ (r.card - 1)) hrm)) hlt
    by_contra hc
    have h2 : 59 * 2 ^ 58 ≤ r.card * 2 ^ (r.card - 1) :=
      Nat.mul_le_mul (by omega) (Nat.pow_le_pow_right (by norm_num) (by omega))
    have : 59 * 2 ^ 58 < 2 ^ 63 := lt_of_le_of_lt h2 h1
    norm_num at this
  set ws : List ℤ := rows.map fun r => ((r.card * 2 ^ (r.card - 1) : ℕ) : ℤ) with hws
  have hws0 : ∀ x ∈ ws, 0 ≤ x := by
    intro x hx
    obtain ⟨r, -, rfl⟩ := List.mem_map.mp hx
    positivity
  have hwlen : ws.length = rows.length := by rw [hws, List.length_map]
  have hwpos : 0 < ws.sum := by rw [hsum]; exact_mod_cast hpos
  have hwlt : ws.sum < 2 ^ 63 := by rw [hsum]; exact_mod_cast hlt
  have hget : ∀ i < ws.length, rows.getD i ∅ ∈ rows := by
    intro i hi
    rw [hwlen] at hi
    rw [getD_lt hi]
    exact List.getElem_mem _
  refine ⟨rows, normaliseF ws, ?_, ?_, ?_⟩
  · unfold areaFitF
    simp only [hsel]
    rw [if_pos hr, hw]
  · intro x hx
    unfold areaSampleOnceF at hx
    rw [bind_eq, outcome_bind] at hx
    obtain ⟨c, -, -, -, l4, -⟩ := rowDraw_F hws0 hwpos hwlt (by omega)
    rcases hx with ⟨i, hi, hx⟩ | ⟨e, he, -⟩
    · obtain ⟨i', hil, e, -⟩ := l4 _ hi
      cases e
      have hmem := hget i hil
      obtain ⟨F, rfl, hF, hFs⟩ := (areaRow_F S hε0 hε1 hbin ho (hr _ hmem) (h58 _ hmem)).2 x hx
      obtain ⟨k, hk, e⟩ := hrow _ hmem
      refine ⟨F, rfl, hF, ?_⟩
      unfold supportCount
      rw [Finset.card_pos]
      refine ⟨k, ?_⟩
      simp only [Finset.mem_filter, Finset.mem_range]
      exact ⟨hk, fun j hj => mem_rowSet.mp (e ▸ hFs hj)⟩
    · obtain ⟨i', -, e', -⟩ := l4 _ he
      cases e'
  · intro A
    set f : Py (Finset ℕ) → ℝ := fun x => if ∃ F ∈ A, x = .ok F then 1 else 0 with hf
    have hf01 : ∀ x, 0 ≤ f x ∧ f x ≤ 1 := by
      intro x
      simp only [hf]
      split_ifs <;> norm_num
    have hexact : (areaSampleOnce order rows (normaliseI64 ws)).expect f = areaShare Y A := by
      rw [← hw, expect_area ho rows hr hne hlt, htot]
      unfold areaShare
      congr 1
      rw [hrows, sum_selected _ _ (by simp), sum_rows_itemsets hb.toWF, Finset.sum_filter]
      apply Finset.sum_congr rfl
      intro F _
      have : f (.ok F) = if F ∈ A then 1 else 0 := by
        simp only [hf, Except.ok.injEq, exists_eq_right']
      rw [this]
      split_ifs <;> ring
    have hclose := rows_close (b := 114786 / 2 ^ 53 + 2 * ε) hws0 hwpos hwlt (by omega)
      (fun i => do
        let j ← npChoiceF (sizeProbasF S binom (order (rows.getD i ∅)).length)
        let perm ← npPermutation (order (rows.getD i ∅)).length (order (rows.getD i ∅))
        RandR.lift (areaItemset (j + 1) perm))
      (fun i => do
        let j ← npChoiceR (sizeProbas (order (rows.getD i ∅)).length)
        let perm ← npPermutation (order (rows.getD i ∅)).length (order (rows.getD i ∅))
        RandR.lift (areaItemset (j + 1) perm)) f
      (fun i hi => ((areaRow_F S hε0 hε1 hbin ho (hr _ (hget i hi)) (h58 _ (hget i hi))).1 f hf01).1)
      (fun i hi _ => ((areaRow_F S hε0 hε1 hbin ho (hr _ (hget i hi)) (h58 _ (hget i hi))).1 f hf01).2)
    change |(areaSampleOnceF S binom order rows (normaliseF ws)).expect f -
      (areaSampleOnce order rows (normaliseI64 ws)).expect f| ≤ _ at hclose
    rw [hexact] at hclose
    refine hclose.trans ?_
    have hl : (ws.length : ℝ) ≤ Y.nMajor := by rw [hwlen]; exact_mod_cast hlen
    have hl0 : (0 : ℝ) ≤ ws.length := Nat.cast_nonneg _
    have : ((ws.length * (10 * ws.length + 75) + 12 : ℝ) + 114786) / 2 ^ 53 ≤
        (10 * Y.nMajor ^ 2 + 75 * Y.nMajor + 2 ^ 17) / 2 ^ 53 := by
      refine div_le_div_of_nonneg_right ?_ (by positivity)
      nlinarith
    rw [add_div] at this
    linarith

/-- With three rows and the exact binomial coefficients, `{1}`, which has two fifths of the area, is drawn with
probability two fifths up to `2^-35`. -/
example (S : Summation) (order : Finset ℕ → List ℕ) (ho : Traverses order) :
    ∃ rows probas, areaFitF localMatrix = .ok (rows, probas) ∧
      |(areaSampleOnceF S (fun n k => (n.choose k : ℝ)) order rows probas).probOf (fun x => x = .ok {1}) - 2 / 5| ≤
        1 / 2 ^ 35 := by
  have hsum : ∑ F ∈ itemsets localMatrix, F.card * supportCount localMatrix F = 5 := by
    simp only [localMatrix_support]
    decide
  have hone : supportCount localMatrix {1} = 2 := by rw [localMatrix_support]; decide
  obtain ⟨rows, probas, h1, -, h2⟩ := C141_area S (binom := fun n k => (n.choose k : ℝ)) le_rfl zero_lt_one
    (fun n k _ _ _ => by simp) order ho localMatrix localMatrix_binary
    ⟨2, 1, (Cmp.mem_segIdx _ _ _).mp (by decide)⟩ (by rw [hsum]; norm_num) (by decide)
  refine ⟨rows, probas, h1, ?_⟩
  have hs : (∑ G ∈ itemsets localMatrix, (G.card * supportCount localMatrix G : ℝ)) = 5 := by exact_mod_cast hsum
  have h := h2 {{1}}
  have hshare : areaShare localMatrix {{1}} = 2 / 5 := by
    unfold areaShare
    rw [hs, Finset.sum_filter, Finset.sum_eq_single {1}]
    · rw [if_pos (Set.mem_singleton _), hone]; norm_num
    · intro F hF hne
      rw [if_neg (by simpa using hne)]
    · intro h
      exact absurd (by simp [itemsets, localMatrix]) h
  rw [hshare] at h
  simp only [Set.mem_singleton_iff, exists_eq_left] at h
  refine h.trans ?_
  rw [show localMatrix.nMajor = 3 from rfl]
  norm_num

/-! ### The frequency sampler -/

open Classical in
/-- **C141** `BoleyFrequencySampler` in double precision: fitted on a binary matrix with a stored entry, whose weights fit
in 64 bits, and with `n ≤ 2^23` rows. Each round of the loop of `sample_once` fails with the same probability `q`, which
is less than one and within `δ = (n (10 n + 75) + 12) / 2^53` of the exact value; nothing is ever raised; what is returned is
a non-empty itemset that some row contains; and given that the loop has ended, the probability of every event differs
from the share of the support that the itemsets of the event have by at most `2 δ` over the exact probability that a
round succeeds. -/
theorem C141_frequency (order : Finset ℕ → List ℕ) (ho : Traverses order) (Y : Cmp) (hb : Y.Binary)
    (hs : ∃ i j, Y.Stored i j) (hlt : ∑ F ∈ itemsets Y, supportCount Y F < 2 ^ 63) (hn : Y.nMajor ≤ 2 ^ 23) :
    (∃ q : ℝ, 0 ≤ q ∧ q < 1 ∧
      |q - Y.nMajor / ∑ G ∈ itemsets Y, (supportCount Y G : ℝ)| ≤ (Y.nMajor * (10 * Y.nMajor + 75) + 12) / 2 ^ 53 ∧
      ∀ rounds, (freqSampleOnceF order (freqFitF Y).1 (freqFitF Y).2 rounds).probOf (fun x => x = .ok none) = q ^ rounds) ∧
    (∀ rounds x, (freqSampleOnceF order (freqFitF Y).1 (freqFitF Y).2 rounds).Outcome x →
      x = .ok none ∨ ∃ F, x = .ok (some F) ∧ F ≠ ∅ ∧ 0 < supportCount Y F) ∧
    ∀ rounds (A : Set (Finset ℕ)),
      |(freqSampleOnceF order (freqFitF Y).1 (freqFitF Y).2 rounds).probOf (fun x => ∃ F ∈ A, x = .ok (some F)) -
        (1 - (freqSampleOnceF order (freqFitF Y).1 (freqFitF Y).2 rounds).probOf fun x => x = .ok none) *
          supportShare Y A| ≤
        (1 - (freqSampleOnceF order (freqFitF Y).1 (freqFitF Y).2 rounds).probOf fun x => x = .ok none) *
          (2 * ((Y.nMajor * (10 * Y.nMajor + 75) + 12) / 2 ^ 53) /
            ((∑ G ∈ (itemsets Y).erase ∅, (supportCount Y G : ℝ)) / ∑ G ∈ itemsets Y, (supportCount Y G : ℝ))) := by
  obtain ⟨i₀, j₀, hij⟩ := hs
  have hi₀ := hij.major_lt hb.toWF
  have hn0 : 0 < Y.nMajor := lt_of_le_of_lt (Nat.zero_le _) hi₀
  obtain ⟨hf, hsum⟩ := freq_weights hb hlt
  have hlaw := law_freqRound ho hb hn0 hlt
  set rows := (List.range Y.nMajor).map (rowSet Y) with hrows
  set ws : List ℤ := rows.map fun r => (2 : ℤ) ^ r.card with hws
  have hrlen : rows.length = Y.nMajor := by simp [hrows]
  have hwlen : ws.length = Y.nMajor := by rw [hws, List.length_map, hrlen]
  have hrow : ∀ i < Y.nMajor, rows.getD i ∅ = rowSet Y i := by
    intro i hi
    rw [getD_lt (by omega)]
    simp [hrows]
  have hfF : freqFitF Y = (rows, normaliseF ws) := by
    unfold freqFitF
    rw [sets_binary hb, ← hrows]
    refine congrArg (fun w => (rows, normaliseF w)) ?_
    apply List.map_congr_left
    intro r hr
    rw [sum_supports hb.toWF] at hlt
    have h1 : 2 ^ r.card < 2 ^ 63 := lt_of_le_of_lt (List.single_le_sum (by simp) _
        (List.mem_map_of_mem (f := fun r : Finset ℕ => 2 ^ r.card) hr)) hlt
    exact i64_small (by positivity) (by exact_mod_cast h1)
  rw [hfF]
  have hmem : ∅ ∈ itemsets Y := by simp [itemsets]
  set T : ℝ := ∑ G ∈ itemsets Y, (supportCount Y G : ℝ) with hT
  set E : ℝ := ∑ G ∈ (itemsets Y).erase ∅, (supportCount Y G : ℝ) with hE
  have hsplit : T = Y.nMajor + E := by
    rw [hT, ← Finset.add_sum_erase _ _ hmem, supportCount_empty]
  have hjp : 0 < supportCount Y {j₀} := by
    unfold supportCount
    rw [Finset.card_pos]
    refine ⟨i₀, ?_⟩
    simp only [Finset.mem_filter, Finset.mem_range, Finset.mem_singleton, forall_eq]
    exact ⟨hi₀, hij⟩
  have hEp : 0 < E := by
    refine Finset.sum_pos' (fun _ _ => Nat.cast_nonneg _) ⟨{j₀}, ?_, by exact_mod_cast hjp⟩
    simp only [itemsets, Finset.mem_erase, Finset.mem_powerset, Finset.singleton_subset_iff, Finset.mem_range]
    exact ⟨by simp, hij.minor_lt hb.toWF⟩
  have hTp : 0 < T := by rw [hsplit]; positivity
  have hws0 : ∀ x ∈ ws, 0 ≤ x := by
    intro x hx
    obtain ⟨r, -, rfl⟩ := List.mem_map.mp hx
    positivity
  have hpos : 0 < ∑ F ∈ itemsets Y, supportCount Y F := by
    have : (0 : ℝ) < ((∑ F ∈ itemsets Y, supportCount Y F : ℕ) : ℝ) := by push_cast; exact hTp
    exact_mod_cast this
  have hwpos : 0 < ws.sum := by rw [hsum]; exact_mod_cast hpos
  have hwlt : ws.sum < 2 ^ 63 := by rw [hsum]; exact_mod_cast hlt
  have hwT : ((ws.sum : ℤ) : ℝ) = T := by rw [hsum, hT]; push_cast; rfl
  have hwget : ∀ i < Y.nMajor, ws.getD i 0 = 2 ^ (rowSet Y i).card := by
    intro i hi
    rw [hws, getD_map_row _ _ (by omega), hrow i hi]
  obtain ⟨c, l1, l2, l3, l4, l5, -⟩ := rowDraw_F hws0 hwpos hwlt (by omega)
  rw [hwlen] at l1 l3 l4 l5
  -- one round
  set w : Finset ℕ → ℝ := fun F => ∑ i ∈ Finset.range Y.nMajor,
    c i * (if F ⊆ rowSet Y i then 1 / 2 ^ (rowSet Y i).card else 0) with hw
  have hw0 : ∀ F, 0 ≤ w F := by
    intro F
    refine Finset.sum_nonneg fun i _ => mul_nonneg (l2 i) ?_
    split_ifs <;> positivity
  have hK : ∀ (i : ℕ) (f : Py (Finset ℕ) → ℝ), i < Y.nMajor →
      (coinSubset (order (rows.getD i ∅))).expect f =
        ∑ F ∈ itemsets Y, (if F ⊆ rowSet Y i then 1 / 2 ^ (rowSet Y i).card else 0) * f (.ok F) := by
    intro i f hi
    rw [hrow i hi, law_coin ho]
    simp only [ite_mul, zero_mul]
    rw [← Finset.sum_filter]
    apply Finset.sum_congr _ fun _ _ => rfl
    ext F
    simp only [Finset.mem_powerset, itemsets, Finset.mem_filter]
    exact ⟨fun hF => ⟨hF.trans (rowSet_subset hb.toWF i), hF⟩, fun hF => hF.2⟩
  have hround : (freqRoundF order rows (normaliseF ws)).Law (itemsets Y) w := by
    intro f
    unfold freqRoundF
    rw [bind_eq, l1.bind]
    have : ∀ i ∈ Finset.range Y.nMajor, c i * (coinSubset (order (rows.getD i ∅))).expect f =
        ∑ F ∈ itemsets Y, c i * (if F ⊆ rowSet Y i then 1 / 2 ^ (rowSet Y i).card else 0) * f (.ok F) := by
      intro i hi
      rw [hK i f (Finset.mem_range.mp hi), Finset.mul_sum]
      exact Finset.sum_congr rfl fun _ _ => by ring
    rw [Finset.sum_congr rfl this, Finset.sum_comm]
    apply Finset.sum_congr rfl
    intro F _
    rw [hw, Finset.sum_mul]
  set δ : ℝ := (Y.nMajor * (10 * Y.nMajor + 75) + 12) / 2 ^ 53 with hδ
  have hcoin : ∀ (f : Py (Finset ℕ) → ℝ), (∀ x, 0 ≤ f x ∧ f x ≤ 1) → ∀ i < ws.length,
      0 ≤ (coinSubset (order (rows.getD i ∅))).expect f ∧ (coinSubset (order (rows.getD i ∅))).expect f ≤ 1 := by
    intro f hf01 i _
    rw [law_coin ho]
    refine ⟨Finset.sum_nonneg fun F _ => mul_nonneg (by positivity) (hf01 _).1, ?_⟩
    refine (Finset.sum_le_sum fun F _ => mul_le_of_le_one_right (by positivity) (hf01 (.ok F)).2).trans ?_
    rw [Finset.sum_const, Finset.card_powerset, nsmul_eq_mul]
    push_cast
    rw [mul_one_div_cancel (by positivity)]
  have hclose : ∀ f : Finset ℕ → ℝ, (∀ x, 0 ≤ f x ∧ f x ≤ 1) →
      |∑ F ∈ itemsets Y, w F * f F - (∑ F ∈ itemsets Y, (supportCount Y F : ℝ) * f F) / T| ≤ δ := by
    intro f hf01
    set g : Py (Finset ℕ) → ℝ := fun x => match x with
      | .ok F => f F
      | .error _ => 0 with hg
    have hg01 : ∀ x, 0 ≤ g x ∧ g x ≤ 1 := by
      intro x
      cases x
      · simp [hg]
      · exact hf01 _
    have h := rows_close (b := 0) hws0 hwpos hwlt (by omega) (fun i => coinSubset (order (rows.getD i ∅)))
      (fun i => coinSubset (order (rows.getD i ∅))) g (hcoin g hg01) (fun i _ _ => by simp)
    change |(freqRoundF order rows (normaliseF ws)).expect g - (freqRound order rows (normaliseI64 ws)).expect g| ≤ _ at h
    rw [hf] at hlaw
    rw [hround, hlaw, add_zero, hwlen] at h
    rw [Finset.sum_div]
    refine le_trans (le_of_eq ?_) h
    congr 2
    exact Finset.sum_congr rfl fun F _ => by simp only [hg]; ring
  have htot : ∑ F ∈ itemsets Y, w F = 1 := by
    have h1 := hround fun _ => 1
    simp only [mul_one] at h1
    rw [← h1]
    unfold freqRoundF
    rw [bind_eq, l1.bind]
    refine Eq.trans (Finset.sum_congr rfl ?_) l3
    intro i hi
    rw [law_coin ho]
    simp only [mul_one]
    rw [Finset.sum_const, Finset.card_powerset, nsmul_eq_mul]
    push_cast
    rw [mul_one_div_cancel (by positivity), mul_one]
  set q : ℝ := w ∅ with hq
  set e : ℝ := ∑ F ∈ (itemsets Y).erase ∅, w F with he
  have hqe : q + e = 1 := by rw [← htot, ← Finset.add_sum_erase _ _ hmem]
  have he0 : 0 ≤ e := Finset.sum_nonneg fun F _ => hw0 F
  -- some non-empty itemset is drawn
  have hep : 0 < e := by
    obtain ⟨m, hm, hmax⟩ := Finset.exists_max_image (Finset.range Y.nMajor) (fun i => (rowSet Y i).card)
      ⟨i₀, Finset.mem_range.mpr hi₀⟩
    rw [Finset.mem_range] at hm
    have hcard : 0 < (rowSet Y m).card := by
      refine lt_of_lt_of_le ?_ (hmax i₀ (Finset.mem_range.mpr hi₀))
      rw [Finset.card_pos]
      exact ⟨j₀, mem_rowSet.mpr hij⟩
    have hTle : T ≤ Y.nMajor * 2 ^ (rowSet Y m).card := by
      have h1 : ((∑ F ∈ itemsets Y, supportCount Y F : ℕ)) ≤ Y.nMajor * 2 ^ (rowSet Y m).card := by
        rw [sum_supports hb.toWF]
        have := List.sum_le_card_nsmul (rows.map fun r => 2 ^ r.card) (2 ^ (rowSet Y m).card) (by
          intro x hx
          obtain ⟨r, hr, rfl⟩ := List.mem_map.mp hx
          obtain ⟨i, hi, rfl⟩ := List.mem_map.mp hr
          exact Nat.pow_le_pow_right (by norm_num) (hmax i (by simpa using hi)))
        rwa [List.length_map, hrlen, smul_eq_mul] at this
      have h2 : ((∑ F ∈ itemsets Y, supportCount Y F : ℕ) : ℝ) ≤ ((Y.nMajor * 2 ^ (rowSet Y m).card : ℕ) : ℝ) := by
        exact_mod_cast h1
      push_cast at h2
      exact h2
    have hc := l5 m hm
    rw [hwget m hm, hwT] at hc
    push_cast at hc
    set P : ℝ := 2 ^ (rowSet Y m).card / T with hP
    have hnR : (0 : ℝ) < Y.nMajor := by exact_mod_cast hn0
    have hPn : 1 ≤ P * Y.nMajor := by
      rw [hP, div_mul_eq_mul_div, le_div_iff₀ hTp]
      linarith
    have hn23 : (Y.nMajor : ℝ) ≤ 2 ^ 23 := by exact_mod_cast hn
    have hPpos : 0 < P := by positivity
    have hcm : 0 < c m := by
      have h1 := (abs_le.mp hc).1
      have h2 : (10 * (Y.nMajor : ℝ) + 75) / 2 ^ 53 + P * (12 / 2 ^ 53) < P := by
        have h3 : (10 * (Y.nMajor : ℝ) + 75) / 2 ^ 53 ≤ P / 4 := by
          have h4 : (10 * (Y.nMajor : ℝ) + 75) * Y.nMajor ≤ 2 ^ 51 := by
            have : (10 * (Y.nMajor : ℝ) + 75) * Y.nMajor ≤ (10 * 2 ^ 23 + 75) * 2 ^ 23 :=
              mul_le_mul (by linarith) hn23 hnR.le (by norm_num)
            refine this.trans ?_
            norm_num
          rw [div_le_iff₀ (by positivity)]
          have h5 : (10 * (Y.nMajor : ℝ) + 75) ≤ (10 * (Y.nMajor : ℝ) + 75) * (P * Y.nMajor) :=
            le_mul_of_one_le_right (by positivity) hPn
          calc (10 * (Y.nMajor : ℝ) + 75) ≤ (10 * (Y.nMajor : ℝ) + 75) * Y.nMajor * P := by
                calc _ ≤ _ := h5
                  _ = _ := by ring
            _ ≤ 2 ^ 51 * P := mul_le_mul_of_nonneg_right h4 hPpos.le
            _ = P / 4 * 2 ^ 53 := by ring
        have h6 : P * (12 / 2 ^ 53) ≤ P / 4 := by
          have : (12 : ℝ) / 2 ^ 53 ≤ 1 / 4 := by norm_num
          calc P * (12 / 2 ^ 53) ≤ P * (1 / 4) := mul_le_mul_of_nonneg_left this hPpos.le
            _ = P / 4 := by ring
        linarith
      linarith
    refine Finset.sum_pos' (fun F _ => hw0 F) ⟨rowSet Y m, ?_, ?_⟩
    · rw [Finset.mem_erase, itemsets, Finset.mem_powerset]
      exact ⟨by rw [← Finset.card_pos.trans Finset.nonempty_iff_ne_empty]; exact hcard, rowSet_subset hb.toWF m⟩
    · refine Finset.sum_pos' (fun i _ => mul_nonneg (l2 i) (by split_ifs <;> positivity))
        ⟨m, Finset.mem_range.mpr hm, mul_pos hcm ?_⟩
      rw [if_pos (Finset.Subset.refl _)]
      positivity
  have hq1 : q < 1 := by linarith
  have hrej : ∑ F ∈ (itemsets Y).filter (fun F => decide (0 < F.card) = false), w F = q := by
    have : (itemsets Y).filter (fun F => decide (0 < F.card) = false) = {∅} := filter_empty _
    rw [this, Finset.sum_singleton]
  have hacc : (itemsets Y).filter (fun F => decide (0 < F.card) = true) = (itemsets Y).erase ∅ := by
    ext F
    simp only [Finset.mem_filter, Finset.mem_erase, decide_eq_true_eq, Finset.card_pos, Finset.nonempty_iff_ne_empty]
    exact and_comm
  have hex : ∀ rounds (f : Py (Option (Finset ℕ)) → ℝ), (freqSampleOnceF order rows (normaliseF ws) rounds).expect f =
      (1 - q ^ rounds) / e * (∑ F ∈ (itemsets Y).erase ∅, w F * f (.ok (some F))) + q ^ rounds * f (.ok none) := by
    intro rounds f
    have h := expect_retry hround (fun res => decide (0 < res.card)) rounds f
    rw [hrej, hacc, geom _ _ hq1.ne, show 1 - q = e by linarith] at h
    exact h
  have hnone : ∀ rounds, (freqSampleOnceF order rows (normaliseF ws) rounds).probOf (fun x => x = .ok none) =
      q ^ rounds := by
    intro rounds
    unfold RandR.probOf
    rw [hex, Finset.sum_eq_zero]
    · simp
    · intro G _
      rw [if_neg]
      · ring
      · intro h
        injection h with h
        cases h
  refine ⟨⟨q, hw0 ∅, hq1, ?_, hnone⟩, ?_, ?_⟩
  · have h := hclose (fun F => if F = ∅ then 1 else 0) (by intro x; split_ifs <;> norm_num)
    simp only [mul_ite, mul_one, mul_zero, Finset.sum_ite_eq', if_pos hmem, supportCount_empty] at h
    exact h
  · intro rounds x hx
    have hr : ∀ y, (freqRoundF order rows (normaliseF ws)).Outcome y → ∃ F, y = .ok F ∧ 0 < supportCount Y F := by
      intro y hy
      unfold freqRoundF at hy
      rw [bind_eq, outcome_bind] at hy
      rcases hy with ⟨i, hi, hy⟩ | ⟨e, he, -⟩
      · obtain ⟨i', hil, e, -⟩ := l4 _ hi
        cases e
        obtain ⟨F, hF, rfl⟩ := outcome_coinSubset hy
        rw [(traverse_toFinset ho _).2.1, hrow i hil] at hF
        refine ⟨F, rfl, ?_⟩
        unfold supportCount
        rw [Finset.card_pos]
        refine ⟨i, ?_⟩
        simp only [Finset.mem_filter, Finset.mem_range]
        exact ⟨hil, fun j hj => mem_rowSet.mp (hF hj)⟩
      · obtain ⟨i', -, e', -⟩ := l4 _ he
        cases e'
    rcases outcome_retry rounds hx with h | ⟨F, hF, hok, rfl⟩ | ⟨e, he, -⟩
    · exact Or.inl h
    · obtain ⟨F', e, hp⟩ := hr _ hF
      cases e
      exact Or.inr ⟨F, rfl, by rintro rfl; simp at hok, hp⟩
    · obtain ⟨F', e', -⟩ := hr _ he
      cases e'
  · intro rounds A
    rw [hnone]
    set a' : ℝ := ∑ F ∈ (itemsets Y).erase ∅, w F * (if F ∈ A then 1 else 0) with ha'
    set a : ℝ := ∑ F ∈ (itemsets Y).erase ∅, (supportCount Y F : ℝ) * (if F ∈ A then 1 else 0) with ha
    have hev : (freqSampleOnceF order rows (normaliseF ws) rounds).probOf (fun x => ∃ F ∈ A, x = .ok (some F)) =
        (1 - q ^ rounds) * (a' / e) := by
      unfold RandR.probOf
      rw [hex, if_neg (by rintro ⟨F, -, h⟩; injection h with h; cases h), mul_zero, add_zero]
      have : ∑ F ∈ (itemsets Y).erase ∅, w F * (if ∃ G ∈ A, (Except.ok (some F) : Py (Option (Finset ℕ))) = .ok (some G)
          then 1 else 0) = a' := by
        rw [ha']
        apply Finset.sum_congr rfl
        intro F _
        simp only [Except.ok.injEq, Option.some.injEq, exists_eq_right']
      rw [this]
      ring
    have hshare : supportShare Y A = a / E := by
      unfold supportShare
      rw [← hE, ha]
      simp only [mul_ite, mul_one, mul_zero]
      rw [← Finset.sum_filter]
    rw [hev, hshare, ← mul_sub, abs_mul]
    have hpow : 0 ≤ 1 - q ^ rounds ∧ 1 - q ^ rounds ≤ 1 := by
      have h1 := pow_nonneg (hw0 ∅) rounds
      have h2 := pow_le_one₀ (n := rounds) (hw0 ∅) hq1.le
      exact ⟨by linarith, by linarith⟩
    rw [abs_of_nonneg hpow.1]
    have h0a : 0 ≤ a' := Finset.sum_nonneg fun F _ => mul_nonneg (hw0 F) (by split_ifs <;> norm_num)
    have hae : a' ≤ e := Finset.sum_le_sum fun F _ => mul_le_of_le_one_right (hw0 F) (by split_ifs <;> norm_num)
    have hda : |a' - a / T| ≤ δ := by
      have h := hclose (fun F => if F ≠ ∅ ∧ F ∈ A then 1 else 0) (by intro x; split_ifs <;> norm_num)
      have conv : ∀ u : Finset ℕ → ℝ, ∑ F ∈ itemsets Y, u F * (if F ≠ ∅ ∧ F ∈ A then 1 else 0) =
          ∑ F ∈ (itemsets Y).erase ∅, u F * (if F ∈ A then 1 else 0) := by
        intro u
        rw [← Finset.add_sum_erase _ _ hmem]
        simp only [ne_eq, not_true_eq_false, false_and, if_false, mul_zero, zero_add]
        apply Finset.sum_congr rfl
        intro F hF
        have := Finset.ne_of_mem_erase hF
        simp [this]
      rwa [conv, conv] at h
    have hde : |e - E / T| ≤ δ := by
      have h := hclose (fun F => if F ≠ ∅ then 1 else 0) (by intro x; split_ifs <;> norm_num)
      have conv : ∀ u : Finset ℕ → ℝ, ∑ F ∈ itemsets Y, u F * (if F ≠ ∅ then 1 else 0) =
          ∑ F ∈ (itemsets Y).erase ∅, u F := by
        intro u
        rw [← Finset.add_sum_erase _ _ hmem]
        simp only [ne_eq, not_true_eq_false, if_false, mul_zero, zero_add]
        apply Finset.sum_congr rfl
        intro F hF
        have := Finset.ne_of_mem_erase hF
        simp [this]
      rwa [conv, conv] at h
    have hs : 0 < E / T := div_pos hEp hTp
    have hfin : |a' / e - a / E| ≤ 2 * δ / (E / T) := by
      have e1 : a' / e - a / E = (a' - a / T) / (E / T) + a' / e * ((E / T - e) / (E / T)) := by
        field_simp
        ring
      rw [e1]
      have h1 : |(a' - a / T) / (E / T)| ≤ δ / (E / T) := by
        rw [abs_div, abs_of_pos hs]
        exact div_le_div_of_nonneg_right hda hs.le
      have h2 : |a' / e * ((E / T - e) / (E / T))| ≤ δ / (E / T) := by
        rw [abs_mul, abs_of_nonneg (div_nonneg h0a he0), abs_div, abs_of_pos hs, abs_sub_comm]
        have h3 : a' / e ≤ 1 := by rw [div_le_one hep]; exact hae
        calc a' / e * (|e - E / T| / (E / T)) ≤ 1 * (δ / (E / T)) :=
              mul_le_mul h3 (div_le_div_of_nonneg_right hde hs.le) (by positivity) zero_le_one
          _ = _ := one_mul _
      refine (abs_add_le _ _).trans ((add_le_add h1 h2).trans (le_of_eq ?_))
      ring
    exact mul_le_mul_of_nonneg_left hfin hpow.1

/-- On three rows `{0, 1}`, `{}`, `{1}`, given that the loop has ended, `{1}` has been returned with probability one half up to
`2^-42`: half of the support of the non-empty itemsets is its own. -/
example (order : Finset ℕ → List ℕ) (ho : Traverses order) (rounds : ℕ) :
    |(freqSampleOnceF order (freqFitF localMatrix).1 (freqFitF localMatrix).2 rounds).probOf
        (fun x => x = .ok (some {1})) -
      (1 - (freqSampleOnceF order (freqFitF localMatrix).1 (freqFitF localMatrix).2 rounds).probOf fun x => x = .ok none) *
        (1 / 2)| ≤
      (1 - (freqSampleOnceF order (freqFitF localMatrix).1 (freqFitF localMatrix).2 rounds).probOf fun x => x = .ok none) *
        (1 / 2 ^ 42) := by
  have hsum : ∑ F ∈ itemsets localMatrix, supportCount localMatrix F = 7 := by
    simp only [localMatrix_support]
    decide
  have hsumE : ∑ F ∈ (itemsets localMatrix).erase ∅, supportCount localMatrix F = 4 := by
    simp only [localMatrix_support]
    decide
  have hone : supportCount localMatrix {1} = 2 := by rw [localMatrix_support]; decide
  have hT : (∑ G ∈ itemsets localMatrix, (supportCount localMatrix G : ℝ)) = 7 := by exact_mod_cast hsum
  have hE : (∑ G ∈ (itemsets localMatrix).erase ∅, (supportCount localMatrix G : ℝ)) = 4 := by exact_mod_cast hsumE
  obtain ⟨⟨q, q0, q1, -, hq⟩, -, h⟩ := C141_frequency order ho localMatrix localMatrix_binary
    ⟨2, 1, (Cmp.mem_segIdx _ _ _).mp (by decide)⟩ (by rw [hsum]; norm_num) (by decide)
  specialize h rounds {{1}}
  have hshare : supportShare localMatrix {{1}} = 1 / 2 := by
    unfold supportShare
    rw [hE, Finset.sum_filter, Finset.sum_eq_single {1}]
    · rw [if_pos (Set.mem_singleton _), hone]; norm_num
    · intro F hF hne
      rw [if_neg (by simpa using hne)]
    · intro h
      exact absurd (by simp [itemsets, localMatrix]) h
  rw [hshare, hT, hE] at h
  simp only [Set.mem_singleton_iff, exists_eq_left] at h
  refine h.trans (mul_le_mul_of_nonneg_left ?_ ?_)
  · rw [show localMatrix.nMajor = 3 from rfl]
    norm_num
  · rw [hq, sub_nonneg]
    exact pow_le_one₀ q0 q1.le

/-! ### Sampling by frequency in a reduced sample space -/

open Classical in
/-- **C141** The frequency sampler of a reduced sample space in double precision, with the Trie-based assignment and at
most `2^23` rows: if some row contains a sample, nothing is ever raised, only samples that some row contains are drawn, and
the probability of every event differs from the share that the samples of the event have of all pairs of a row and a
sample it contains by at most `(n (10 n + 75) + 12) / 2^53`; if no row contains a sample, drawing raises `ValueError`. -/
theorem C141_reduced (Y : Cmp) (space : List (Finset ℤ)) (hnd : space.Nodup) (hne : ∀ s ∈ space, s ≠ ∅)
    (f : Finset (Option (List ℤ)) → List (Option (List ℤ))) (hf : Traverses f) (hn : Y.nMajor ≤ 2 ^ 23) :
    ∃ newRows, trieNewRows f Y space = .ok newRows ∧
      ((∃ s ∈ space, 0 < rowsContaining Y s) → ∑ s ∈ space.toFinset, rowsContaining Y s < 2 ^ 63 →
        (∀ x, (sursSampleOnceF space newRows (sursProbasF newRows)).Outcome x →
          ∃ s ∈ space, 0 < rowsContaining Y s ∧ x = .ok s) ∧
        ∀ A : Set (Finset ℤ), |(sursSampleOnceF space newRows (sursProbasF newRows)).probOf
            (fun x => ∃ s ∈ A, x = .ok s) - containedShare Y space A| ≤
          (Y.nMajor * (10 * Y.nMajor + 75) + 12) / 2 ^ 53) ∧
      ((∀ s ∈ space, rowsContaining Y s = 0) →
        ∀ x, (sursSampleOnceF space newRows (sursProbasF newRows)).Outcome x → x = .error .valueError) := by
  obtain ⟨newRows, hok, hlen, hids, hr, hcount, htot⟩ := assigned_rows Y space hnd hne f hf
  obtain ⟨newRows', hok', hex, -⟩ := C76_frequency_exact Y space hnd hne f hf
  rw [hok] at hok'
  cases hok'
  refine ⟨newRows, hok, ?_, ?_⟩
  · rintro ⟨s₀, hs₀, hpos₀⟩ hlt
    have hexact := (hex ⟨s₀, hs₀, hpos₀⟩ hlt).1
    have hpos : 0 < (newRows.map List.length).sum := by
      rw [htot]
      exact Finset.sum_pos' (fun _ _ => Nat.zero_le _) ⟨s₀, List.mem_toFinset.mpr hs₀, hpos₀⟩
    rw [← htot] at hlt
    set ws : List ℤ := newRows.map fun r => (r.length : ℤ) with hws
    have hsum : ws.sum = ((newRows.map List.length).sum : ℕ) := by
      rw [hws, Nat.cast_list_sum, List.map_map]
      rfl
    have hws0 : ∀ x ∈ ws, 0 ≤ x := by
      intro x hx
      obtain ⟨r, -, rfl⟩ := List.mem_map.mp hx
      exact Int.natCast_nonneg _
    have hwlen : ws.length = Y.nMajor := by rw [hws, List.length_map, hlen]
    have hwpos : 0 < ws.sum := by rw [hsum]; exact_mod_cast hpos
    have hwlt : ws.sum < 2 ^ 63 := by rw [hsum]; exact_mod_cast hlt
    have hwget : ∀ i < Y.nMajor, ws.getD i 0 = ((newRows.getD i []).length : ℤ) := by
      intro i hi
      rw [hws, getD_lt (by simpa [hlen] using hi), getD_lt (by omega)]
      simp
    obtain ⟨c, -, -, -, l4, -⟩ := rowDraw_F hws0 hwpos hwlt (by omega)
    rw [hwlen] at l4
    have hsample : ∀ i < Y.nMajor, ∀ j < (newRows.getD i []).length,
        ∃ s ∈ space, 0 < rowsContaining Y s ∧ pyGet space (((newRows.getD i []).getD j 0 : ℕ) : ℤ) = .ok s := by
      intro i hi j hj
      have hid : (newRows.getD i []).getD j 0 ∈ newRows.getD i [] := by rw [getD_lt hj]; exact List.getElem_mem hj
      obtain ⟨h1, h2⟩ := (hids i hi _).mp hid
      rw [pyGet_nat space _ h1]
      refine ⟨_, List.getElem_mem h1, ?_, rfl⟩
      rw [← getD_lt h1 ∅]
      unfold rowsContaining
      rw [Finset.card_pos]
      exact ⟨i, Finset.mem_filter.mpr ⟨Finset.mem_range.mpr hi, h2⟩⟩
    constructor
    · intro x hx
      unfold sursSampleOnceF sursProbasF at hx
      rw [bind_eq, outcome_bind] at hx
      rcases hx with ⟨i, hi, hx⟩ | ⟨e, he, -⟩
      · obtain ⟨i', hil, e, hw⟩ := l4 _ hi
        cases e
        rw [hwget i hil] at hw
        have h0 : (newRows.getD i []).length ≠ 0 := by exact_mod_cast hw
        rw [if_neg h0, bind_eq, outcome_bind] at hx
        rcases hx with ⟨j, hj, hx⟩ | ⟨e, he, -⟩
        · obtain ⟨j', hjl, e⟩ := outcome_bits h0 hj
          cases e
          obtain ⟨s, h1, h2, h3⟩ := hsample i hil j hjl
          refine ⟨s, h1, h2, ?_⟩
          rw [← h3]
          exact hx
        · obtain ⟨j', -, e'⟩ := outcome_bits h0 he
          cases e'
      · obtain ⟨i', -, e', -⟩ := l4 _ he
        cases e'
    · intro A
      set g : Py (Finset ℤ) → ℝ := fun x => if ∃ s ∈ A, x = .ok s then 1 else 0 with hg
      have hg01 : ∀ x, 0 ≤ g x ∧ g x ≤ 1 := by
        intro x
        simp only [hg]
        split_ifs <;> norm_num
      have hinner : ∀ i < ws.length,
          0 ≤ (do
            let j ← (if (newRows.getD i []).length = 0 then RandR.raise .valueError
              else pyChoiceIdx (newRows.getD i []).length)
            RandR.lift (pyGet space ((newRows.getD i []).getD j 0 : ℕ)) : RandR (Finset ℤ)).expect g ∧
          (do
            let j ← (if (newRows.getD i []).length = 0 then RandR.raise .valueError
              else pyChoiceIdx (newRows.getD i []).length)
            RandR.lift (pyGet space ((newRows.getD i []).getD j 0 : ℕ)) : RandR (Finset ℤ)).expect g ≤ 1 := by
        intro i _
        by_cases h0 : (newRows.getD i []).length = 0
        · rw [if_pos h0]
          exact hg01 _
        · rw [if_neg h0, bind_eq, (law_pyChoiceIdx h0).bind]
          refine ⟨Finset.sum_nonneg fun j _ => mul_nonneg (by positivity) (hg01 _).1, ?_⟩
          refine (Finset.sum_le_sum fun j _ => mul_le_of_le_one_right (by positivity) (hg01 _).2).trans ?_
          rw [Finset.sum_const, Finset.card_range, nsmul_eq_mul, mul_one_div_cancel (by exact_mod_cast h0)]
      have h := rows_close (b := 0) hws0 hwpos hwlt (by omega) _ _ g hinner (fun i _ _ => by rw [sub_self, abs_zero])
      change |(sursSampleOnceF space newRows (sursProbasF newRows)).expect g -
        (sursSampleOnce space newRows (sursProbas newRows)).expect g| ≤ _ at h
      rw [hwlen, add_zero] at h
      have hshare : (sursSampleOnce space newRows (sursProbas newRows)).expect g = containedShare Y space A := by
        have hlin : (sursSampleOnce space newRows (sursProbas newRows)).expect g =
            ∑ s ∈ space.toFinset.filter (· ∈ A), (sursSampleOnce space newRows (sursProbas newRows)).prob (.ok s) := by
          unfold RandR.prob
          simp only [expect_surs space newRows hpos hlt]
          rw [← Finset.sum_div, Finset.sum_comm]
          congr 1
          apply Finset.sum_congr rfl
          intro i hi
          have hmem : newRows.getD i [] ∈ newRows := by
            rw [getD_lt (Finset.mem_range.mp hi)]
            exact List.getElem_mem _
          have hlt' := (hr _ hmem).2
          generalize newRows.getD i [] = row at hlt'
          induction row with
          | nil => simp
          | cons a row ih =>
            simp only [List.map_cons, List.sum_cons]
            rw [Finset.sum_add_distrib, ih fun id hid => hlt' id (List.mem_cons_of_mem _ hid)]
            congr 1
            have ha := hlt' a List.mem_cons_self
            rw [pyGet_nat space a ha]
            simp only [hg, Except.ok.injEq, exists_eq_right']
            rw [Finset.sum_ite_eq]
            simp only [Finset.mem_filter, List.mem_toFinset, List.getElem_mem, true_and]
        rw [hlin]
        unfold containedShare
        rw [Finset.sum_div]
        apply Finset.sum_congr rfl
        intro s hs
        exact hexact s (List.mem_toFinset.mp (Finset.mem_filter.mp hs).1)
      rw [hshare] at h
      exact h
  · intro h0 x hx
    have hzero : ∀ r ∈ newRows, r.length = 0 := by
      have : (newRows.map List.length).sum = 0 := by
        rw [htot]
        exact Finset.sum_eq_zero fun s hs => h0 s (List.mem_toFinset.mp hs)
      intro r hrm
      have := List.single_le_sum (by simp) _ (List.mem_map_of_mem (f := List.length) hrm)
      omega
    have hp : sursProbasF newRows = List.replicate newRows.length 0 := by
      rw [List.eq_replicate_iff]
      refine ⟨by simp [sursProbasF, normaliseF], ?_⟩
      intro q hq
      simp only [sursProbasF, normaliseF, List.mem_map] at hq
      obtain ⟨z, ⟨r, hrm, rfl⟩, rfl⟩ := hq
      simp [hzero r hrm, fl_zero]
    have hch : ∀ k, choiceF (sursProbasF newRows) k = .error .valueError := by
      intro k
      rw [hp]
      unfold choiceF
      by_cases hl : newRows.length = 0
      · rw [if_pos (by simp [hl])]
      · rw [if_neg (by simpa using hl), if_neg (by simp)]
        have hk : ∀ n, kahanLoop 0 0 (List.replicate n 0) = 0 := by
          intro n
          induction n with
          | zero => rfl
          | succ n ih =>
            rw [List.replicate_succ, kahanLoop]
            simp only [sub_zero, fl_zero, add_zero]
            exact ih
        have hks : kahanSum (List.replicate newRows.length 0) = 0 := by
          obtain ⟨n, hn⟩ := Nat.exists_eq_succ_of_ne_zero hl
          rw [hn, List.replicate_succ]
          exact hk n
        rw [hks, if_pos]
        have h1 : fl (0 - 1) = -1 := by
          have := fl_int (n := -1) (by norm_num)
          push_cast at this
          rw [zero_sub, this]
        rw [h1]
        norm_num
    unfold sursSampleOnceF at hx
    rw [bind_eq, outcome_bind] at hx
    have hall : ∀ y, (npChoiceF (sursProbasF newRows)).Outcome y → y = .error .valueError := by
      intro y hy
      unfold npChoiceF at hy
      rw [bind_eq, outcome_bind] at hy
      rcases hy with ⟨k, -, hy⟩ | ⟨e, he, -⟩
      · rw [hch k] at hy
        exact hy
      · obtain ⟨k, -, e'⟩ := outcome_bits (by positivity) he
        cases e'
    rcases hx with ⟨i, hi, -⟩ | ⟨e, he, hx⟩
    · cases hall _ hi
    · have := hall _ he
      rw [hx]
      cases this
      rfl

/-- The example's rows and samples satisfy the hypotheses of the first case; with an item that no row contains, those of
the second. -/
example : (∃ s ∈ [({0, 1} : Finset ℤ), {1}], 0 < rowsContaining exampleRows s) ∧
    ∑ s ∈ [({0, 1} : Finset ℤ), {1}].toFinset, rowsContaining exampleRows s < 2 ^ 63 ∧
    ∀ s ∈ [({3} : Finset ℤ)], rowsContaining exampleRows s = 0 := by
  classical
  refine ⟨⟨{1}, by simp, ?_⟩, ?_, ?_⟩
  · unfold rowsContaining
    rw [Finset.card_pos]
    refine ⟨0, Finset.mem_filter.mpr ⟨by decide, ?_⟩⟩
    intro x hx
    rw [Finset.mem_singleton] at hx
    subst hx
    exact ⟨1, rfl, (Cmp.mem_segIdx _ _ _).mp (by decide)⟩
  · have h : ∀ s, rowsContaining exampleRows s ≤ 3 := fun s =>
      (Finset.card_filter_le _ _).trans (by rw [Finset.card_range]; decide)
    have := Finset.sum_le_card_nsmul ([({0, 1} : Finset ℤ), {1}].toFinset) (rowsContaining exampleRows) 3 fun s _ => h s
    have hc := List.toFinset_card_le [({0, 1} : Finset ℤ), {1}]
    simp only [List.length_cons, List.length_nil, smul_eq_mul] at this hc
    refine lt_of_le_of_lt (this.trans (Nat.mul_le_mul_right 3 hc)) (by norm_num)
  · intro s hs
    rw [List.mem_singleton] at hs
    subst hs
    unfold rowsContaining
    rw [Finset.card_eq_zero, Finset.filter_eq_empty_iff]
    intro i hi h
    obtain ⟨j, e, hj⟩ := h 3 (Finset.mem_singleton_self _)
    obtain rfl : j = 3 := by omega
    have hi3 : i < 3 := by simpa [exampleRows] using hi
    have := (Cmp.mem_segIdx exampleRows i 3).mpr hj
    interval_cases i <;> revert this <;> decide

end Verif
