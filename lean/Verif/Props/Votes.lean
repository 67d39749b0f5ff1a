/-
C87-C89: projection clustering with majority votes. The rounding threshold, the vote, the grid search, and the
whole of `PCV` followed by the viewer.
-/
import Verif.Props.Biclus

namespace Verif

namespace Biclus

/-! ### C87: the threshold and the vote -/

/-- C87. For 0 < q < p < 1 the rounding threshold exists and lies strictly between q and p. -/
theorem C87_threshold_between (p q : ℝ) (hq : 0 < q) (hqp : q < p) (hp : p < 1) :
    ∃ t, roundingThreshold p q = .ok t ∧ q < t ∧ t < p := by
  have hp0 : 0 < p := hq.trans hqp
  have h1p : 0 < 1 - p := by linarith
  have h1q : 0 < 1 - q := by linarith
  set L := Real.log ((1 - q) / (1 - p)) with hL
  set K := Real.log (p / q) with hK
  have hx : p * (1 - q) / q / (1 - p) = (p / q) * ((1 - q) / (1 - p)) := by
    field_simp
  have hlog : Real.log (p * (1 - q) / q / (1 - p)) = K + L := by
    rw [hx, Real.log_mul (by positivity) (by positivity)]
  have hL1 : (1 - p) * L < p - q := by
    have := Real.log_lt_sub_one_of_pos (show 0 < (1 - q) / (1 - p) by positivity)
      (by rw [ne_eq, div_eq_one_iff_eq h1p.ne']; intro h; linarith)
    calc (1 - p) * L < (1 - p) * ((1 - q) / (1 - p) - 1) := by
          exact mul_lt_mul_of_pos_left this h1p
      _ = p - q := by field_simp; ring
  have hL2 : p - q < (1 - q) * L := by
    have := Real.log_lt_sub_one_of_pos (show 0 < (1 - p) / (1 - q) by positivity)
      (by rw [ne_eq, div_eq_one_iff_eq h1q.ne']; intro h; linarith)
    have hinv : Real.log ((1 - p) / (1 - q)) = -L := by
      rw [hL, ← Real.log_inv, inv_div]
    rw [hinv] at this
    have h2 := mul_lt_mul_of_pos_left this h1q
    have h3 : (1 - q) * ((1 - p) / (1 - q) - 1) = q - p := by field_simp; ring
    rw [h3] at h2
    linarith
  have hK1 : q * K < p - q := by
    have := Real.log_lt_sub_one_of_pos (show 0 < p / q by positivity)
      (by rw [ne_eq, div_eq_one_iff_eq hq.ne']; intro h; linarith)
    calc q * K < q * (p / q - 1) := mul_lt_mul_of_pos_left this hq
      _ = p - q := by field_simp
  have hK2 : p - q < p * K := by
    have := Real.log_lt_sub_one_of_pos (show 0 < q / p by positivity)
      (by rw [ne_eq, div_eq_one_iff_eq hp0.ne']; intro h; linarith)
    have hinv : Real.log (q / p) = -K := by rw [hK, ← Real.log_inv, inv_div]
    rw [hinv] at this
    have h2 := mul_lt_mul_of_pos_left this hp0
    have h3 : p * (q / p - 1) = q - p := by field_simp
    rw [h3] at h2
    linarith
  have hKL : 0 < K + L := by
    have : 0 < (1 - q) * L := by linarith
    have hLpos : 0 < L := (mul_pos_iff_of_pos_left h1q).mp this
    have : 0 < p * K := by linarith
    have hKpos : 0 < K := (mul_pos_iff_of_pos_left hp0).mp this
    linarith
  have hlog2 : 0 < Real.log 2 := Real.log_pos (by norm_num)
  refine ⟨(L / Real.log 2) / ((K + L) / Real.log 2), ?_, ?_, ?_⟩
  · rw [roundingThreshold, if_neg, if_neg, if_neg, hlog]
    · rw [hlog]; positivity
    · rw [not_or, not_le, not_le]
      exact ⟨by positivity, by positivity⟩
    · rw [not_or]
      exact ⟨h1p.ne', hq.ne'⟩
  · rw [div_div_div_cancel_right₀ hlog2.ne', lt_div_iff₀ hKL]
    linarith
  · rw [div_div_div_cancel_right₀ hlog2.ne', div_lt_iff₀ hKL]
    linarith

theorem countNonzero_card (B : Dense ℚ) (c : ℕ) :
    countNonzero B c = ((Finset.range B.rows).filter fun r => B.at_ r c ≠ 0).card := by
  rw [countNonzero, ← List.toFinset_card_of_nodup (List.nodup_range.filter _)]
  congr 1
  ext r
  simp

/-- C87. The vote returns exactly the columns of which more than the given share of entries is not zero, in
increasing order. -/
theorem C87_vote (B : Dense ℚ) (t : ℝ) :
    (majorityVote B t).SortedLT ∧ (majorityVote B t).toFinset = voted B t := by
  constructor
  · exact (List.pairwise_lt_range.filter _).sortedLT
  · ext c
    rw [majorityVote, voted, List.mem_toFinset, List.mem_filter, Finset.mem_filter, List.mem_range,
      Finset.mem_range, decide_eq_true_eq, countNonzero_card, mul_comm]

theorem majorityVote_nodup (B : Dense ℚ) (t : ℝ) : (majorityVote B t).Nodup := List.nodup_range.filter _

theorem majorityVote_lt {B : Dense ℚ} {t : ℝ} {c : ℕ} (h : c ∈ majorityVote B t) : c < B.cols :=
  List.mem_range.mp (List.mem_filter.mp h).1

/-! ### C88: the grid search -/

theorem sumColumns_eq (B : Dense ℚ) (l : List ℕ) (h : l.Nodup) :
    ((sumColumns B l : ℚ) : ℝ) = ∑ r ∈ Finset.range B.rows, ∑ c ∈ l.toFinset, (B.at_ r c : ℝ) := by
  have inner : ∀ c, (((List.range B.rows).map fun r => B.at_ r c).sum) = ∑ r ∈ Finset.range B.rows, B.at_ r c := by
    intro c
    rw [Finset.sum_list_map_count]
    simp only [List.toFinset_range]
    apply Finset.sum_congr rfl
    intro r hr
    rw [List.count_eq_one_of_mem List.nodup_range (List.mem_range.mpr (Finset.mem_range.mp hr)), one_smul]
  rw [sumColumns, Finset.sum_comm, Finset.sum_list_map_count]
  push_cast
  apply Finset.sum_congr rfl
  intro c hc
  rw [List.count_eq_one_of_mem h (List.mem_toFinset.mp hc), inner]
  push_cast
  simp

/-- The discrepancy that the loop computes for one pair. -/
theorem estimateSingle_ok {p q t : ℝ} (B : Dense ℚ) (ht : roundingThreshold p q = .ok t) :
    ∃ eP eQ, estimateSingle p q B = .ok (eP, eQ, majorityVote B t) ∧
      eP = (if 0 < B.rows ∧ (voted B t).Nonempty then density B (voted B t) else 1) ∧
      eQ = (if 0 < B.rows ∧ (Finset.range B.cols \ voted B t).Nonempty then
        density B (Finset.range B.cols \ voted B t) else 0) := by
  have hv := (C87_vote B t).2
  have hcard : (majorityVote B t).length = (voted B t).card := by
    rw [← hv, List.toFinset_card_of_nodup (majorityVote_nodup B t)]
  have hsub : voted B t ⊆ Finset.range B.cols := by
    rw [← hv]
    intro c hc
    exact Finset.mem_range.mpr (majorityVote_lt (List.mem_toFinset.mp hc))
  have hin : ((sumColumns B (majorityVote B t) : ℚ) : ℝ) =
      ∑ r ∈ Finset.range B.rows, ∑ c ∈ voted B t, (B.at_ r c : ℝ) := by
    rw [sumColumns_eq _ _ (majorityVote_nodup B t), hv]
  have htot : ((sumColumns B (List.range B.cols) : ℚ) : ℝ) =
      ∑ r ∈ Finset.range B.rows, ∑ c ∈ Finset.range B.cols, (B.at_ r c : ℝ) := by
    rw [sumColumns_eq _ _ List.nodup_range, List.toFinset_range]
  have hout : ((sumColumns B (List.range B.cols) - sumColumns B (majorityVote B t) : ℚ) : ℝ) =
      ∑ r ∈ Finset.range B.rows, ∑ c ∈ Finset.range B.cols \ voted B t, (B.at_ r c : ℝ) := by
    push_cast
    rw [htot, hin, ← Finset.sum_sub_distrib]
    apply Finset.sum_congr rfl
    intro r _
    rw [← Finset.sum_sdiff hsub]
    ring
  have hcout : ((Finset.range B.cols \ voted B t).card : ℤ) = (B.cols : ℤ) - (voted B t).card := by
    rw [Finset.card_sdiff_of_subset hsub, Finset.card_range]
    have := Finset.card_le_card hsub
    rw [Finset.card_range] at this
    omega
  rw [estimateSingle, ht]
  refine ⟨_, _, rfl, ?_, ?_⟩
  · rw [hcard]
    by_cases h : 0 < B.rows ∧ (voted B t).Nonempty
    · rw [if_pos h, if_pos (Nat.mul_pos h.1 (Finset.card_pos.mpr h.2)), hin, density]
      push_cast
      rfl
    · rw [if_neg h, if_neg]
      intro h'
      exact h ⟨Nat.pos_of_mul_pos_right h' |> fun _ => Nat.pos_of_ne_zero (by rintro h0; simp [h0] at h'),
        Finset.card_pos.mp (Nat.pos_of_ne_zero (by rintro h0; simp [h0] at h'))⟩
  · rw [hcard, ← hcout]
    by_cases h : 0 < B.rows ∧ (Finset.range B.cols \ voted B t).Nonempty
    · rw [if_pos h, if_pos, hout, density]
      · push_cast
        rfl
      · have := Finset.card_pos.mpr h.2
        have := h.1
        positivity
    · rw [if_neg h, if_neg]
      intro h'
      refine h ⟨Nat.pos_of_ne_zero (by rintro h0; simp [h0] at h'),
        Finset.card_pos.mp (Nat.pos_of_ne_zero (by rintro h0; simp [h0] at h'))⟩

/-- Both parameters are usable and in the right order. -/
def Usable (pq : ℝ × ℝ) : Prop := 0 < pq.2 ∧ pq.2 < pq.1 ∧ pq.1 < 1

/-- What the loop variables hold after the pairs `l`. -/
def PQInv (B : Dense ℚ) (l : List (ℝ × ℝ)) (s : PQBest) : Prop :=
  ((∀ pq ∈ l, pq.1 ≤ pq.2) ∧ s.minDiff = none ∧ s.p = 1 ∧ s.q = 0 ∧ s.cluster = []) ∨
  ∃ l1 l2 t d, l = l1 ++ (s.p, s.q) :: l2 ∧ s.q < s.p ∧ roundingThreshold s.p s.q = .ok t ∧
    s.cluster = majorityVote B t ∧ s.minDiff = some d ∧ d = discrepancy B (voted B t) s.p s.q ∧
    (∀ pq ∈ l1, pq.2 < pq.1 → ∀ t', roundingThreshold pq.1 pq.2 = .ok t' →
      d < discrepancy B (voted B t') pq.1 pq.2) ∧
    ∀ pq ∈ l2, pq.2 < pq.1 → ∀ t', roundingThreshold pq.1 pq.2 = .ok t' →
      d ≤ discrepancy B (voted B t') pq.1 pq.2

theorem pqStep_inv {B : Dense ℚ} {l : List (ℝ × ℝ)} {s : PQBest} (h : PQInv B l s) (pq : ℝ × ℝ)
    (hu : pq.2 < pq.1 → Usable pq) : ∃ s', pqStep B s pq = .ok s' ∧ PQInv B (l ++ [pq]) s' := by
  rw [pqStep]
  by_cases hge : pq.2 ≥ pq.1
  · rw [if_pos hge]
    refine ⟨s, rfl, ?_⟩
    rcases h with ⟨h1, h2⟩ | ⟨l1, l2, t, d, rfl, h2, h3, h4, h5, h6, h7, h8⟩
    · refine Or.inl ⟨?_, h2⟩
      intro x hx
      rcases List.mem_append.mp hx with hx | hx
      · exact h1 x hx
      · rw [List.mem_singleton.mp hx]; exact hge
    · refine Or.inr ⟨l1, l2 ++ [pq], t, d, by simp, h2, h3, h4, h5, h6, h7, ?_⟩
      intro x hx hlt
      rcases List.mem_append.mp hx with hx | hx
      · exact h8 x hx hlt
      · rw [List.mem_singleton.mp hx] at hlt
        exact absurd hge (not_le.mpr hlt)
  · rw [if_neg hge]
    have hlt := not_le.mp hge
    obtain ⟨u1, u2, u3⟩ := hu hlt
    obtain ⟨t, ht, -, -⟩ := C87_threshold_between pq.1 pq.2 u1 u2 u3
    obtain ⟨eP, eQ, he, hP, hQ⟩ := estimateSingle_ok B ht
    rw [he]
    have hd : |pq.1 - eP| + |pq.2 - eQ| = discrepancy B (voted B t) pq.1 pq.2 := by
      rw [hP, hQ, discrepancy]
    refine ⟨_, rfl, ?_⟩
    dsimp only
    rw [hd]
    rcases h with ⟨h1, h2, h3⟩ | ⟨l1, l2, t0, d, rfl, h2, h3, h4, h5, h6, h7, h8⟩
    · rw [h2]
      rw [Option.elim_none, if_pos True.intro]
      refine Or.inr ⟨l, [], t, _, rfl, hlt, ht, rfl, rfl, rfl, ?_, by simp⟩
      intro x hx hxlt
      exact absurd (h1 x hx) (not_le.mpr hxlt)
    · rw [h5]
      by_cases hless : discrepancy B (voted B t) pq.1 pq.2 < d
      · rw [if_pos (by exact hless)]
        refine Or.inr ⟨l1 ++ (s.p, s.q) :: l2, [], t, _, rfl, hlt, ht, rfl, rfl, rfl, ?_, by simp⟩
        intro x hx hxlt t' ht'
        rcases List.mem_append.mp hx with hx | hx
        · exact hless.trans (h7 x hx hxlt t' ht')
        · rcases List.mem_cons.mp hx with rfl | hx
          · rw [h3] at ht'
            cases ht'
            rw [← h6]
            exact hless
          · exact lt_of_lt_of_le hless (h8 x hx hxlt t' ht')
      · rw [if_neg (by exact hless)]
        refine Or.inr ⟨l1, l2 ++ [pq], t0, d, by simp, h2, h3, h4, h5, h6, h7, ?_⟩
        intro x hx hxlt t' ht'
        rcases List.mem_append.mp hx with hx | hx
        · exact h8 x hx hxlt t' ht'
        · rw [List.mem_singleton] at hx
          subst hx
          rw [ht] at ht'
          cases ht'
          exact not_lt.mp hless

theorem pqLoop_inv {B : Dense ℚ} : ∀ (todo done : List (ℝ × ℝ)) (s : PQBest), PQInv B done s →
    (∀ pq ∈ todo, pq.2 < pq.1 → Usable pq) →
    ∃ s', todo.foldlM (pqStep B) s = .ok s' ∧ PQInv B (done ++ todo) s'
  | [], done, s, h, _ => ⟨s, rfl, by simpa using h⟩
  | pq :: todo, done, s, h, hu => by
    obtain ⟨s1, h1, h2⟩ := pqStep_inv h pq (hu pq (List.mem_cons_self ..))
    obtain ⟨s2, h3, h4⟩ := pqLoop_inv todo (done ++ [pq]) s1 h2 fun x hx => hu x (List.mem_cons_of_mem _ hx)
    refine ⟨s2, ?_, by simpa using h4⟩
    rw [List.foldlM_cons, h1]
    exact h3

/-- All pairs of the grid, in the order of the loops. -/
def grid (ps qs : List ℝ) : List (ℝ × ℝ) := ps.flatMap fun p => qs.map fun q => (p, q)

/-- C88. The grid search returns; unless no pair of the grid has q < p, the pair returned is the first one of
smallest discrepancy among those, and the columns returned are the vote at its threshold. -/
theorem C88_grid_search (ps qs : List ℝ) (B : Dense ℚ)
    (hu : ∀ p ∈ ps, ∀ q ∈ qs, 0 < q ∧ p < 1) :
    ∃ s, estimatePQ ps qs B = .ok s ∧
      (((∀ p ∈ ps, ∀ q ∈ qs, p ≤ q) ∧ s.p = 1 ∧ s.q = 0 ∧ s.cluster = []) ∨
      ∃ before after t, grid ps qs = before ++ (s.p, s.q) :: after ∧ s.q < s.p ∧
        roundingThreshold s.p s.q = .ok t ∧ s.cluster.toFinset = voted B t ∧ s.cluster.Nodup ∧
        (∀ pq ∈ before, pq.2 < pq.1 → ∀ t', roundingThreshold pq.1 pq.2 = .ok t' →
          discrepancy B (voted B t) s.p s.q < discrepancy B (voted B t') pq.1 pq.2) ∧
        ∀ pq ∈ after, pq.2 < pq.1 → ∀ t', roundingThreshold pq.1 pq.2 = .ok t' →
          discrepancy B (voted B t) s.p s.q ≤ discrepancy B (voted B t') pq.1 pq.2) := by
  have hu' : ∀ pq ∈ grid ps qs, pq.2 < pq.1 → Usable pq := by
    intro pq hpq hlt
    simp only [grid, List.mem_flatMap, List.mem_map] at hpq
    obtain ⟨p, hp, q, hq, rfl⟩ := hpq
    exact ⟨(hu p hp q hq).1, hlt, (hu p hp q hq).2⟩
  obtain ⟨s, h1, h2⟩ := pqLoop_inv (B := B) (grid ps qs) []
    { minDiff := none, p := 1, q := 0, cluster := [] }
    (Or.inl ⟨by simp, rfl, rfl, rfl, rfl⟩) hu'
  rw [List.nil_append] at h2
  refine ⟨s, h1, ?_⟩
  rcases h2 with ⟨h, -, h3⟩ | ⟨l1, l2, t, d, h3, h4, h5, h6, h7, h8, h9, h10⟩
  · refine Or.inl ⟨?_, h3⟩
    intro p hp q hq
    exact h (p, q) (by simp only [grid, List.mem_flatMap, List.mem_map]; exact ⟨p, hp, q, hq, rfl⟩)
  · subst h8
    refine Or.inr ⟨l1, l2, t, h3, h4, h5, ?_, ?_, h9, h10⟩
    · rw [h6]; exact (C87_vote B t).2
    · rw [h6]; exact majorityVote_nodup B t

/-- C88. On a 0/1 matrix with a row, the columns chosen are denser than the threshold and the others are not,
so that the estimates come out in the right order. -/
theorem C88_densities (B : Dense ℚ) (hB : ZeroOne B) (hr : 0 < B.rows) (t : ℝ) :
    ((voted B t).Nonempty → t < density B (voted B t)) ∧
    ((Finset.range B.cols \ voted B t).Nonempty → density B (Finset.range B.cols \ voted B t) ≤ t) := by
  have hcol : ∀ c < B.cols, ∑ r ∈ Finset.range B.rows, (B.at_ r c : ℝ) =
      (((Finset.range B.rows).filter fun r => B.at_ r c ≠ 0).card : ℝ) := by
    intro c hc
    rw [Finset.card_filter]
    push_cast
    apply Finset.sum_congr rfl
    intro r hr'
    rcases hB r (Finset.mem_range.mp hr') c hc with h | h <;> simp [h]
  have hR : (0 : ℝ) < B.rows := by exact_mod_cast hr
  constructor
  · intro hne
    rw [density, lt_div_iff₀ (mul_pos hR (by exact_mod_cast Finset.card_pos.mpr hne)), Finset.sum_comm]
    calc t * ((B.rows : ℝ) * ((voted B t).card : ℝ)) = ∑ c ∈ voted B t, t * (B.rows : ℝ) := by
          rw [Finset.sum_const, nsmul_eq_mul]; ring
      _ < ∑ c ∈ voted B t, ∑ r ∈ Finset.range B.rows, (B.at_ r c : ℝ) := by
          apply Finset.sum_lt_sum_of_nonempty hne
          intro c hc
          obtain ⟨h1, h2⟩ := Finset.mem_filter.mp hc
          rw [hcol c (Finset.mem_range.mp h1)]
          exact h2
  · intro hne
    rw [density, div_le_iff₀ (mul_pos hR (by exact_mod_cast Finset.card_pos.mpr hne)), Finset.sum_comm]
    calc ∑ c ∈ Finset.range B.cols \ voted B t, ∑ r ∈ Finset.range B.rows, (B.at_ r c : ℝ)
        ≤ ∑ c ∈ Finset.range B.cols \ voted B t, t * (B.rows : ℝ) := by
          apply Finset.sum_le_sum
          intro c hc
          obtain ⟨h1, h2⟩ := Finset.mem_sdiff.mp hc
          rw [hcol c (Finset.mem_range.mp h1)]
          by_contra hlt
          exact h2 (Finset.mem_filter.mpr ⟨h1, not_le.mp hlt⟩)
      _ = t * ((B.rows : ℝ) * ((Finset.range B.cols \ voted B t).card : ℝ)) := by
          rw [Finset.sum_const, nsmul_eq_mul]; ring

/-! ### C89: the whole pipeline -/

theorem groupByLabel_eq (labels : List ℕ) : groupByLabel labels = (group labels.zipIdx).map Prod.snd := rfl

/-- C89. The row clusters partition the rows by the label k-means gave them. -/
theorem C89_row_clusters (labels : List ℕ) :
    (groupByLabel labels).flatten.Perm (List.range labels.length) ∧ (∀ c ∈ groupByLabel labels, c ≠ []) ∧
    ∀ i < labels.length, ∀ j < labels.length,
      ((∃ c ∈ groupByLabel labels, i ∈ c ∧ j ∈ c) ↔ labels.getD i 0 = labels.getD j 0) := by
  have hmem : ∀ {k i}, (k, i) ∈ labels.zipIdx ↔ i < labels.length ∧ labels.getD i 0 = k := by
    intro k i
    rw [List.mem_zipIdx_iff_getElem?]
    constructor
    · intro h
      obtain ⟨hi, hk⟩ := List.getElem?_eq_some_iff.mp h
      exact ⟨hi, by rw [getD_lt hi]; exact hk⟩
    · rintro ⟨hi, hk⟩
      rw [List.getElem?_eq_some_iff]
      exact ⟨hi, by rw [getD_lt hi] at hk; exact hk⟩
  have hgrp : ∀ {c}, c ∈ groupByLabel labels ↔ ∃ k, k ∈ labels.zipIdx.map Prod.fst ∧
      c = (labels.zipIdx.filter fun e => decide (e.1 = k)).map Prod.snd := by
    intro c
    rw [groupByLabel_eq, List.mem_map]
    constructor
    · rintro ⟨⟨k, v⟩, he, rfl⟩
      exact ⟨k, mem_group.mp he⟩
    · rintro ⟨k, hk⟩
      exact ⟨(k, c), mem_group.mpr hk, rfl⟩
  have hin : ∀ {k i}, i ∈ (labels.zipIdx.filter fun e => decide (e.1 = k)).map Prod.snd ↔
      i < labels.length ∧ labels.getD i 0 = k := by
    intro k i
    rw [List.mem_map]
    constructor
    · rintro ⟨⟨k', i'⟩, he, rfl⟩
      obtain ⟨h1, h2⟩ := List.mem_filter.mp he
      have : k' = k := by simpa using h2
      subst this
      exact hmem.mp h1
    · intro h
      exact ⟨(k, i), List.mem_filter.mpr ⟨hmem.mpr h, by simp⟩, rfl⟩
  refine ⟨?_, ?_, ?_⟩
  · rw [groupByLabel_eq]
    refine (group_perm _).trans ?_
    rw [List.zipIdx_map_snd]
    rw [List.range_eq_range']
  · intro c hc
    obtain ⟨k, hk, rfl⟩ := hgrp.mp hc
    obtain ⟨⟨k', i⟩, he, rfl⟩ := List.mem_map.mp hk
    exact List.ne_nil_of_mem (hin.mpr (hmem.mp he))
  · intro i hi j hj
    constructor
    · rintro ⟨c, hc, h1, h2⟩
      obtain ⟨k, -, rfl⟩ := hgrp.mp hc
      rw [(hin.mp h1).2, (hin.mp h2).2]
    · intro h
      refine ⟨_, hgrp.mpr ⟨labels.getD i 0, ?_, rfl⟩, hin.mpr ⟨hi, rfl⟩, hin.mpr ⟨hj, h.symm⟩⟩
      exact List.mem_map.mpr ⟨_, hmem.mpr ⟨hi, rfl⟩, rfl⟩

theorem gridP_lt {p : ℝ} (h : p ∈ gridP) : 3 / 10 ≤ p ∧ p < 1 := by
  obtain ⟨i, hi, rfl⟩ := List.mem_map.mp h
  have : (i : ℝ) ≤ 6 := by exact_mod_cast Nat.lt_succ_iff.mp (List.mem_range.mp hi)
  have : (0 : ℝ) ≤ i := Nat.cast_nonneg i
  constructor <;> linarith

theorem gridQ_lt {q : ℝ} (h : q ∈ gridQ) : 0 < q ∧ q ≤ 1 / 10 := by
  obtain ⟨i, hi, rfl⟩ := List.mem_map.mp h
  have : (i : ℝ) ≤ 4 := by exact_mod_cast Nat.lt_succ_iff.mp (List.mem_range.mp hi)
  have : (0 : ℝ) ≤ i := Nat.cast_nonneg i
  constructor <;> linarith

/-- The rows of a matrix named in a list. -/
def rowsOf (B : Dense ℚ) (c : List ℕ) : Dense ℚ :=
  { rows := c.length, cols := B.cols, at_ := fun a b => B.at_ (c.getD a 0) b }

/-- What the vote on one cluster of rows returns: with the heuristic, the vote at a threshold between two
parameters of the grid; without, at the threshold given. -/
def VoteOn (B : Dense ℚ) (threshold : ℝ) (useHeuristic : Bool) (c right : List ℕ) : Prop :=
  right.Nodup ∧
  if useHeuristic then
    ∃ p ∈ gridP, ∃ q ∈ gridQ, ∃ t, q < t ∧ t < p ∧ right.toFinset = voted (rowsOf B c) t
  else right.toFinset = voted (rowsOf B c) threshold

theorem vote_ok (B : Dense ℚ) (threshold : ℝ) (useHeuristic : Bool) (c : List ℕ) (hc : ∀ r ∈ c, r < B.rows) :
    ∃ right, (if c.length < 0 then .ok none
      else do
        let S ← selectRows B c
        if useHeuristic then do
          let e ← estimatePQ gridP gridQ S
          return some e.cluster
        else return some (majorityVote S threshold) : Py (Option (List ℕ))) = .ok (some right) ∧
      VoteOn B threshold useHeuristic c right := by
  rw [if_neg (Nat.not_lt_zero _), selectRows, if_pos hc]
  cases useHeuristic with
  | false =>
    refine ⟨_, rfl, majorityVote_nodup _ _, ?_⟩
    rw [if_neg (by decide)]
    exact (C87_vote (rowsOf B c) threshold).2
  | true =>
    obtain ⟨s, hs, hcase⟩ := C88_grid_search gridP gridQ (rowsOf B c)
      fun p hp q hq => ⟨(gridQ_lt hq).1, (gridP_lt hp).2⟩
    refine ⟨s.cluster, ?_, ?_⟩
    · change (do let e ← estimatePQ gridP gridQ (rowsOf B c); return some e.cluster) = _
      rw [hs]
      rfl
    · rcases hcase with ⟨h, -⟩ | ⟨l1, l2, t, h1, h2, h3, h4, h5, -⟩
      · have hp : (3 / 10 : ℝ) ∈ gridP := List.mem_map.mpr ⟨0, by simp, by norm_num⟩
        have hq : (1 / 50 : ℝ) ∈ gridQ := List.mem_map.mpr ⟨0, by simp, by norm_num⟩
        have := h _ hp _ hq
        norm_num at this
      · refine ⟨h5, ?_⟩
        rw [if_pos rfl]
        have hmem : (s.p, s.q) ∈ grid gridP gridQ := by rw [h1]; simp
        simp only [grid, List.mem_flatMap, List.mem_map, Prod.mk.injEq] at hmem
        obtain ⟨p, hp, q, hq, e1, e2⟩ := hmem
        subst e1 e2
        obtain ⟨t', ht', g1, g2⟩ := C87_threshold_between s.p s.q (gridQ_lt hq).1 h2 (gridP_lt hp).2
        rw [h3] at ht'
        cases ht'
        exact ⟨s.p, hp, s.q, hq, t, g1, g2, h4⟩

theorem votes_ok (B : Dense ℚ) (threshold : ℝ) (useHeuristic : Bool) : ∀ (cs : List (List ℕ)),
    (∀ c ∈ cs, ∀ r ∈ c, r < B.rows) →
    ∃ rs : List (List ℕ), (cs.mapM fun c => (if c.length < 0 then .ok none
      else do
        let S ← selectRows B c
        if useHeuristic then do
          let e ← estimatePQ gridP gridQ S
          return some e.cluster
        else return some (majorityVote S threshold) : Py (Option (List ℕ)))) = .ok (rs.map some) ∧
      List.Forall₂ (VoteOn B threshold useHeuristic) cs rs
  | [], _ => ⟨[], rfl, .nil⟩
  | c :: cs, h => by
    obtain ⟨r, h1, h2⟩ := vote_ok B threshold useHeuristic c (h c (List.mem_cons_self ..))
    obtain ⟨rs, h3, h4⟩ := votes_ok B threshold useHeuristic cs fun d hd => h d (List.mem_cons_of_mem _ hd)
    refine ⟨r :: rs, ?_, .cons h2 h4⟩
    rw [List.mapM_cons, h1, h3]
    rfl

/-- C89. Whatever labels k-means assigns to the rows, `PCV` returns, with the row clusters and for each of them
the vote on its rows. -/
theorem C89_pcv (B : Dense ℚ) (labels : List ℕ) (h : labels.length = B.rows) (threshold : ℝ)
    (useHeuristic : Bool) :
    ∃ right, pcv B labels threshold useHeuristic = .ok (groupByLabel labels, right) ∧
      List.Forall₂ (VoteOn B threshold useHeuristic) (groupByLabel labels) right := by
  obtain ⟨rs, h1, h2⟩ := votes_ok B threshold useHeuristic (groupByLabel labels) (by
    intro c hc r hr
    have := (C89_row_clusters labels).1.mem_iff.mp (List.mem_flatten.mpr ⟨c, hc, hr⟩)
    rw [List.mem_range, h] at this
    exact this)
  refine ⟨rs, ?_, h2⟩
  rw [pcv, binaryMajorityVote, h1]
  simp [bind, Except.bind, pure, Except.pure, List.filterMap_map]

/-- C89. With the heuristic on, the threshold passed has no effect. -/
theorem C89_threshold_ignored (B : Dense ℚ) (labels : List ℕ) (t t' : ℝ) :
    pcv B labels t true = pcv B labels t' true := rfl

/-- C89. The viewer accepts what `PCV` returns: whatever the shuffles, it is constructed, all indices lie in
the matrix, and `order()` returns a viewer again. -/
theorem C89_viewer (B : Dense ℚ) (labels : List ℕ) (h : labels.length = B.rows) (threshold : ℝ)
    (useHeuristic : Bool) (left right : List (List ℕ))
    (hp : pcv B labels threshold useHeuristic = .ok (left, right)) (lp rp : List ℕ) :
    ∃ m, BlockMatrix.new left right B lp rp = .ok m ∧ InRange m ∧
      (Lists m.leftBlocks.length lp → Lists m.rightBlocks.length rp →
        Viewer left right B m ∧ ∃ m', order m = .ok m' ∧ Viewer left right B m' ∧ InRange m') := by
  obtain ⟨rs, h1, h2⟩ := C89_pcv B labels h threshold useHeuristic
  rw [hp] at h1
  obtain ⟨rfl, rfl⟩ := Prod.mk.inj (Except.ok.inj h1)
  have hl : ∀ c ∈ groupByLabel labels, ∀ r ∈ c, r < B.rows := by
    intro c hc r hr
    have := (C89_row_clusters labels).1.mem_iff.mp (List.mem_flatten.mpr ⟨c, hc, hr⟩)
    rw [List.mem_range, h] at this
    exact this
  have hv : ∀ (cs rs : List (List ℕ)), List.Forall₂ (VoteOn B threshold useHeuristic) cs rs →
      ∀ r ∈ rs, ∀ y ∈ r, y < B.cols := by
    intro cs rs hf
    induction hf with
    | nil => simp
    | cons hab _ ih =>
      intro r hr y hy
      rcases List.mem_cons.mp hr with rfl | hr
      · have key : ∀ (c : List ℕ) (t : ℝ), r.toFinset = voted (rowsOf B c) t → y < B.cols := by
          intro c t hrt
          have : y ∈ voted (rowsOf B c) t := hrt ▸ List.mem_toFinset.mpr hy
          exact Finset.mem_range.mp (Finset.mem_filter.mp this).1
        have hab2 := hab.2
        split at hab2
        · obtain ⟨p, -, q, -, t, -, -, ht⟩ := hab2
          exact key _ _ ht
        · exact key _ _ hab2
      · exact ih r hr y hy
  obtain ⟨kept, hk⟩ : ∃ kept, keepClusters (groupByLabel labels) right = .ok kept ∧
      ∀ c ∈ kept, c ∈ (groupByLabel labels).zip right := by
    refine ⟨_, keepClusters_ok ?_, fun c hc => (List.mem_filter.mp hc).1⟩
    intro i hi _
    rw [← h2.length_eq]
    exact hi
  have hnew : BlockMatrix.new (groupByLabel labels) right B lp rp = .ok
      { original := B, leftClusters := kept.map Prod.fst, rightClusters := kept.map Prod.snd,
        leftBlocks := createBlocks (kept.map Prod.fst), rightBlocks := createBlocks (kept.map Prod.snd),
        leftPerm := lp, rightPerm := rp } := by
    rw [BlockMatrix.new, hk.1]; rfl
  have hrange : ∀ m : BlockMatrix, m.original = B → m.leftClusters = kept.map Prod.fst →
      m.rightClusters = kept.map Prod.snd → InRange m := by
    intro m e1 e2 e3
    constructor
    · rintro x ⟨c, hc, hx⟩
      rw [e2] at hc
      obtain ⟨d, hd, rfl⟩ := List.mem_map.mp hc
      rw [e1]
      exact hl _ (List.of_mem_zip (hk.2 d hd)).1 x hx
    · rintro y ⟨c, hc, hy⟩
      rw [e3] at hc
      obtain ⟨d, hd, rfl⟩ := List.mem_map.mp hc
      rw [e1]
      exact hv _ _ h2 _ (List.of_mem_zip (hk.2 d hd)).2 y hy
  refine ⟨_, hnew, hrange _ rfl rfl rfl, ?_⟩
  intro h3 h4
  have hc : Constructed (groupByLabel labels) right B _ := ⟨lp, rp, hnew, h3, h4⟩
  refine ⟨Or.inl hc, _, order_ok (constructed_wf hc), Or.inr ⟨_, hc, order_ok (constructed_wf hc)⟩, ?_⟩
  exact hrange _ rfl rfl rfl

/-! ### Examples -/

/-- A pair of the grid meets the hypotheses of the threshold theorem. -/
example : ∃ t, roundingThreshold (3 / 10) (1 / 50) = .ok t ∧ 1 / 50 < t ∧ t < 3 / 10 :=
  C87_threshold_between _ _ (by norm_num) (by norm_num) (by norm_num)

/-- The grid of `BinaryMajorityVote` meets the hypotheses of the grid search. -/
example : ∀ p ∈ gridP, ∀ q ∈ gridQ, 0 < q ∧ p < 1 := fun _ hp _ hq => ⟨(gridQ_lt hq).1, (gridP_lt hp).2⟩

/-- The example matrix is a 0/1 matrix with rows, and labels for it exist. -/
example : ZeroOne exMatrix ∧ 0 < exMatrix.rows ∧ ([1, 0, 1, 2] : List ℕ).length = exMatrix.rows ∧
    groupByLabel [1, 0, 1, 2] = [[0, 2], [1], [3]] := by
  refine ⟨?_, by decide, rfl, rfl⟩
  intro a _ b _
  by_cases h : a = b
  · right; simp [exMatrix, h]
  · left; simp [exMatrix, h]

end Biclus

end Verif
