/-
Properties of the tail statistics as they are reported, in double precision (C148).
-/
import Verif.Model.FloatTail
import Verif.Props.TailEval
import Verif.Lemmas.FloatEvaluation
import Verif.Lemmas.FloatGraph

namespace Verif

/-- What the sum of the weights of a tail is in doubles. -/
noncomputable def roundedPairs (g : DiG) (l : List ℕ) : List ℝ :=
  (orderedPairs l).map fun e => fl (((g.weight e.1 e.2).getD 0 : ℚ) : ℝ)

theorem tailWeightSumF_ok (S : Summation) {order : Finset ℕ → List ℕ} (ho : Traverses order) {ev : TailEvalF} {g : DiG}
    (hg : ev.g = some g.rounded) {T : Finset ℕ} (hT : AllJoined g T) :
    tailWeightSumF S order ev T = .ok (S.sum (roundedPairs g (order T))) := by
  have hm : (orderedPairs (order T)).mapM (tailPairProbaF ev) = .ok (roundedPairs g (order T)) := by
    apply mapM_ok_of_forall
    rintro ⟨u, v⟩ he
    obtain ⟨h1, h2, h3⟩ := (mem_orderedPairs (ho T).1).mp he
    obtain ⟨p, hp⟩ := hT u (((ho T).2 u).mp h1) v (((ho T).2 v).mp h2) h3
    simp [tailPairProbaF, hg, weight_rounded, hp]
  unfold tailWeightSumF
  rw [hm]
  rfl

theorem tailWeightSumF_error (S : Summation) {order : Finset ℕ → List ℕ} (ho : Traverses order) {ev : TailEvalF}
    {g : DiG} (hg : ev.g = some g.rounded) {T : Finset ℕ} (hT : ¬ AllJoined g T) :
    tailWeightSumF S order ev T = .error .keyError := by
  unfold AllJoined at hT
  push Not at hT
  obtain ⟨u, hu, v, hv, hne, hno⟩ := hT
  have hw : g.weight u v = none := by
    rcases hw : g.weight u v with _ | p
    · rfl
    · exact absurd hw (hno p)
  have : (orderedPairs (order T)).mapM (tailPairProbaF ev) = .error .keyError := by
    apply mapM_error_of
    · intro e _
      simp only [tailPairProbaF, hg]
      split
      · exact Or.inl ⟨_, rfl⟩
      · exact Or.inr rfl
    · refine ⟨(u, v), (mem_orderedPairs (ho T).1).mpr ⟨((ho T).2 u).mpr hu, ((ho T).2 v).mpr hv, hne⟩, ?_⟩
      simp [tailPairProbaF, hg, weight_rounded, hw]
  unfold tailWeightSumF
  rw [this]
  rfl

theorem orderedPairs_length {l : List ℕ} (hn : l.Nodup) : (orderedPairs l).length = l.length * (l.length - 1) := by
  classical
  rw [← List.toFinset_card_of_nodup (orderedPairs_nodup hn)]
  have : (orderedPairs l).toFinset = l.toFinset.offDiag := by
    ext ⟨u, v⟩
    rw [List.mem_toFinset, mem_orderedPairs hn, Finset.mem_offDiag, List.mem_toFinset, List.mem_toFinset]
  rw [this, Finset.offDiag_card, List.toFinset_card_of_nodup hn, Nat.mul_sub_one]

theorem order_length {order : Finset ℕ → List ℕ} (ho : Traverses order) (T : Finset ℕ) : (order T).length = T.card := by
  rw [← List.toFinset_card_of_nodup (ho T).1]
  congr 1
  ext x
  rw [List.mem_toFinset, (ho T).2]

theorem orderedPairs_sum_real {order : Finset ℕ → List ℕ} (ho : Traverses order) (g : DiG) (T : Finset ℕ) :
    ((orderedPairs (order T)).map fun e => (((g.weight e.1 e.2).getD 0 : ℚ) : ℝ)).sum = (pairWeight g T : ℚ) := by
  have h := orderedPairs_sum (ho T).1 fun e => (g.weight e.1 e.2).getD 0
  have e : (order T).toFinset = T := by
    ext x
    rw [List.mem_toFinset, (ho T).2]
  rw [e] at h
  unfold pairWeight
  rw [← h]
  push_cast
  rw [List.map_map]
  rfl

theorem getD_weight_range {Y : Cmp} (h : Y.Binary) {g : DiG} (hg : confidenceGraph Y = .ok g) (u v : ℕ) :
    (0 : ℚ) ≤ (g.weight u v).getD 0 ∧ (g.weight u v).getD 0 ≤ 1 := by
  rcases hw : g.weight u v with _ | p
  · simp
  · obtain ⟨h1, h2⟩ := (C47_range_and_symmetry Y h g hg u v).1 p hw
    exact ⟨h1.le, h2⟩

/-- Bounds on the rounded sum of the weights of a tail. -/
theorem roundedPairs_sum (S : Summation) {Y : Cmp} (h : Y.Binary) {g : DiG} (hg : confidenceGraph Y = .ok g)
    {order : Finset ℕ → List ℕ} (ho : Traverses order) {T : Finset ℕ} (hk : T.card ≤ 2 ^ 24) :
    0 ≤ S.sum (roundedPairs g (order T)) ∧
    S.sum (roundedPairs g (order T)) ≤ ((T.card * (T.card - 1) : ℕ) : ℝ) ∧
    RelClose (2 * (T.card * (T.card - 1))) (S.sum (roundedPairs g (order T))) ((pairWeight g T : ℚ) : ℝ) := by
  have hlen : (roundedPairs g (order T)).length = T.card * (T.card - 1) := by
    unfold roundedPairs
    rw [List.length_map, orderedPairs_length (ho T).1, order_length ho]
  have hsmall : T.card * (T.card - 1) ≤ 2 ^ 48 := by
    calc T.card * (T.card - 1) ≤ 2 ^ 24 * 2 ^ 24 := Nat.mul_le_mul hk (by omega)
      _ = 2 ^ 48 := by norm_num
  have hw : ∀ e : ℕ × ℕ, (0 : ℝ) ≤ (((g.weight e.1 e.2).getD 0 : ℚ) : ℝ) ∧ (((g.weight e.1 e.2).getD 0 : ℚ) : ℝ) ≤ 1 := by
    intro e
    obtain ⟨h1, h2⟩ := getD_weight_range h hg e.1 e.2
    exact ⟨by exact_mod_cast h1, by exact_mod_cast h2⟩
  have hr : ∀ x ∈ roundedPairs g (order T), 0 ≤ x ∧ x ≤ 1 := by
    intro x hx
    obtain ⟨e, -, rfl⟩ := List.mem_map.mp hx
    exact ⟨fl_nonneg (hw e).1, fl_le_one (hw e).1 (hw e).2⟩
  obtain ⟨h1, h2⟩ := S.sum_le hr (by rw [hlen]; omega)
  rw [hlen] at h2
  refine ⟨h1, h2, ?_⟩
  by_cases hne : roundedPairs g (order T) = []
  · have hz : orderedPairs (order T) = [] := by simpa [roundedPairs] using hne
    have hp := orderedPairs_sum_real ho g T
    rw [hz] at hp
    simp only [List.map_nil, List.sum_nil] at hp
    rw [← hp, hne]
    simp [Summation.sum, RelClose]
  · have c1 := S.sum_close hne fun x hx => (hr x hx).1
    have c2 : RelClose 2 (roundedPairs g (order T)).sum ((pairWeight g T : ℚ) : ℝ) := by
      rw [← orderedPairs_sum_real ho g T]
      exact RelClose.list_sum _ _ _ fun e _ => RelClose.round (hw e).1
    have c3 := c1.trans c2
    rw [hlen] at c3
    have hpos : 0 < T.card * (T.card - 1) := by
      rw [← hlen]
      exact List.length_pos_iff.mpr hne
    rwa [show 2 * (T.card * (T.card - 1) - 1) + 2 = 2 * (T.card * (T.card - 1)) by omega] at c3

theorem pairWeight_nonneg {Y : Cmp} (h : Y.Binary) {g : DiG} (hg : confidenceGraph Y = .ok g) (T : Finset ℕ) :
    0 ≤ pairWeight g T := Finset.sum_nonneg fun e _ => (getD_weight_range h hg e.1 e.2).1

/-- The edge density of a joined tail in doubles. -/
theorem densityF_bounds (S : Summation) {Y : Cmp} (h : Y.Binary) {g : DiG} (hg : confidenceGraph Y = .ok g)
    {order : Finset ℕ → List ℕ} (ho : Traverses order) {T : Finset ℕ} (hk : T.card ≤ 2 ^ 24) (h0 : 0 < T.card) :
    0 ≤ fl (S.sum (roundedPairs g (order T)) / fl (T.card : ℝ)) ∧
    fl (S.sum (roundedPairs g (order T)) / fl (T.card : ℝ)) ≤ ((T.card - 1 : ℕ) : ℝ) ∧
    RelClose (2 * (T.card * (T.card - 1)) + 2) (fl (S.sum (roundedPairs g (order T)) / fl (T.card : ℝ)))
      ((pairWeight g T : ℚ) / T.card) := by
  obtain ⟨a1, a2, a3⟩ := roundedPairs_sum S h hg ho hk
  have hkr : (0 : ℝ) < T.card := by exact_mod_cast h0
  rw [fl_nat (hk.trans (by norm_num))]
  have hq : 0 ≤ S.sum (roundedPairs g (order T)) / T.card := div_nonneg a1 hkr.le
  refine ⟨fl_nonneg hq, ?_, ?_⟩
  · rw [← fl_nat (n := T.card - 1) (by omega)]
    apply fl_mono hq
    rw [div_le_iff₀ hkr]
    push_cast at a2
    linarith
  · have c := (RelClose.round hq).trans (a3.div (RelClose.refl hkr.le 0) a1
      (by exact_mod_cast pairWeight_nonneg h hg T) hkr hkr)
    rwa [show 2 + (2 * (T.card * (T.card - 1)) + 0) = 2 * (T.card * (T.card - 1)) + 2 by omega] at c

/-- The edge ratio of a joined tail in doubles. -/
theorem ratioF_bounds (S : Summation) {Y : Cmp} (h : Y.Binary) {g : DiG} (hg : confidenceGraph Y = .ok g)
    {order : Finset ℕ → List ℕ} (ho : Traverses order) {T : Finset ℕ} (hk : T.card ≤ 2 ^ 24) (h0 : 2 ≤ T.card) :
    0 ≤ fl (fl (S.sum (roundedPairs g (order T)) / fl (T.card : ℝ)) / fl ((T.card - 1 : ℕ) : ℝ)) ∧
    fl (fl (S.sum (roundedPairs g (order T)) / fl (T.card : ℝ)) / fl ((T.card - 1 : ℕ) : ℝ)) ≤ 1 ∧
    RelClose (2 * (T.card * (T.card - 1)) + 4)
      (fl (fl (S.sum (roundedPairs g (order T)) / fl (T.card : ℝ)) / fl ((T.card - 1 : ℕ) : ℝ)))
      ((pairWeight g T : ℚ) / (T.card * (T.card - 1))) := by
  obtain ⟨a1, a2, a3⟩ := densityF_bounds S h hg ho hk (by omega)
  have hkr : (0 : ℝ) < ((T.card - 1 : ℕ) : ℝ) := by exact_mod_cast (by omega : 0 < T.card - 1)
  have hd : (0 : ℝ) ≤ (pairWeight g T : ℚ) / T.card :=
    div_nonneg (by exact_mod_cast pairWeight_nonneg h hg T) (by positivity)
  rw [fl_nat (n := T.card - 1) (by omega)]
  have hq := div_nonneg a1 hkr.le
  refine ⟨fl_nonneg hq, fl_le_one hq (div_le_one_of_le₀ a2 hkr.le), ?_⟩
  have c := (RelClose.round hq).trans (a3.div (RelClose.refl hkr.le 0) a1 hd hkr hkr)
  rw [div_div, Nat.cast_sub (by omega), Nat.cast_one] at c
  rw [Nat.cast_sub (by omega), Nat.cast_one]
  rwa [show 2 + (2 * (T.card * (T.card - 1)) + 2 + 0) = 2 * (T.card * (T.card - 1)) + 4 by omega] at c

theorem card_pair_bound {k : ℕ} (h : k ≤ 2 ^ 24) : 2 * (k * (k - 1)) + 4 ≤ 2 ^ 52 := by
  calc 2 * (k * (k - 1)) + 4 ≤ 2 * (2 ^ 24 * 2 ^ 24) + 4 := by
        have := Nat.mul_le_mul h (by omega : k - 1 ≤ 2 ^ 24)
        omega
    _ ≤ 2 ^ 52 := by norm_num

/-- **C148** For tails of at most `2²⁴` labels whose labels are joined, the reported edge density and edge ratio are
NaN exactly where the exact ones are, differ from them by a factor of at most `4 |T|² 2⁻⁵³`, and stay in range:
density between 0 and `|T| - 1`, ratio between 0 and 1, whatever the order numpy adds in. -/
theorem C148_density_ratio (S : Summation) (order : Finset ℕ → List ℕ) (ho : Traverses order) (Y : Cmp) (h : Y.Binary)
    (g : DiG) (gF : DiGF) (hg : confidenceGraph Y = .ok g) (hgF : confidenceGraphF Y = .ok gF) (n : ℕ)
    (Ss : List (Finset ℕ)) (hJ : ∀ T ∈ Ss, AllJoined g T) (hk : ∀ T ∈ Ss, T.card ≤ 2 ^ 24) :
    ∃ dens ratio : Finset ℕ → Option ℝ,
      tailDensityF S order { Yc := Y, ntrn := n, g := some gF } Ss = .ok (Ss.map dens) ∧
      tailRatioF S order { Yc := Y, ntrn := n, g := some gF } Ss = .ok (Ss.map ratio) ∧
      ∀ T ∈ Ss,
        (dens T = none ↔ T = ∅) ∧ (ratio T = none ↔ T.card < 2) ∧
        (∀ d, dens T = some d → 0 ≤ d ∧ d ≤ T.card - 1 ∧
          |d - (pairWeight g T / T.card : ℚ)| ≤ (pairWeight g T / T.card : ℚ) * (4 * (T.card : ℝ) ^ 2 / 2 ^ 53)) ∧
        (∀ r, ratio T = some r → 0 ≤ r ∧ r ≤ 1 ∧
          |r - (pairWeight g T / (T.card * (T.card - 1)) : ℚ)| ≤
            (pairWeight g T / (T.card * (T.card - 1)) : ℚ) * (4 * (T.card : ℝ) ^ 2 / 2 ^ 53)) := by
  have hgF' : gF = g.rounded := by
    rw [confidenceGraphF_eq, hg] at hgF
    exact (Except.ok.inj hgF).symm
  subst hgF'
  have hev : (⟨Y, n, some g.rounded⟩ : TailEvalF).g = some g.rounded := rfl
  refine ⟨fun T => if T.card = 0 then none else some (fl (S.sum (roundedPairs g (order T)) / fl (T.card : ℝ))),
    fun T => if T.card ≤ 1 then none else
      some (fl (fl (S.sum (roundedPairs g (order T)) / fl (T.card : ℝ)) / fl ((T.card - 1 : ℕ) : ℝ))), ?_, ?_, ?_⟩
  · apply mapM_ok_of_forall
    intro T hT
    unfold densityOfF
    rw [tailWeightSumF_ok S ho hev (hJ T hT)]
    split <;> rfl
  · apply mapM_ok_of_forall
    intro T hT
    unfold ratioOfF
    rw [tailWeightSumF_ok S ho hev (hJ T hT)]
    split <;> rfl
  · intro T hT
    have hp : (0 : ℝ) ≤ (pairWeight g T : ℚ) := by exact_mod_cast pairWeight_nonneg h hg T
    have hb := card_pair_bound (hk T hT)
    refine ⟨by simp, ?_, ?_, ?_⟩
    · constructor
      · intro he
        by_contra hc
        simp only [if_neg (by omega : ¬ T.card ≤ 1)] at he
        cases he
      · intro hc
        simp only [if_pos (by omega : T.card ≤ 1)]
    · intro d hd
      by_cases h0 : T.card = 0
      · simp [h0] at hd
      simp only [if_neg h0, Option.some.injEq] at hd
      subst hd
      obtain ⟨a1, a2, a3⟩ := densityF_bounds S h hg ho (hk T hT) (by omega)
      rw [Nat.cast_sub (by omega), Nat.cast_one] at a2
      refine ⟨a1, a2, ?_⟩
      have hd0 : (0 : ℝ) ≤ (pairWeight g T : ℚ) / T.card := by positivity
      have c := rel_abs (by omega) a1 hd0 a3
      push_cast
      refine c.trans (mul_le_mul_of_nonneg_left ?_ hd0)
      have h1 : (1 : ℝ) ≤ T.card := by exact_mod_cast (by omega : 1 ≤ T.card)
      push_cast [Nat.cast_sub (by omega : 1 ≤ T.card)]
      rw [div_le_div_iff_of_pos_right (by positivity)]
      nlinarith
    · intro r hr
      by_cases h0 : T.card ≤ 1
      · simp [h0] at hr
      simp only [if_neg h0, Option.some.injEq] at hr
      subst hr
      obtain ⟨a1, a2, a3⟩ := ratioF_bounds S h hg ho (hk T hT) (by omega)
      refine ⟨a1, a2, ?_⟩
      have h2 : (2 : ℝ) ≤ T.card := by exact_mod_cast (by omega : 2 ≤ T.card)
      have hd0 : (0 : ℝ) ≤ (pairWeight g T : ℚ) / (T.card * (T.card - 1)) :=
        div_nonneg hp (mul_nonneg (by linarith) (by linarith))
      have c := rel_abs (by omega) a1 hd0 a3
      push_cast
      refine c.trans (mul_le_mul_of_nonneg_left ?_ hd0)
      push_cast [Nat.cast_sub (by omega : 1 ≤ T.card)]
      rw [div_le_div_iff_of_pos_right (by positivity)]
      nlinarith

/-- **C148** A tail with two labels that never occur together raises `KeyError`, in both statistics; a data set
without graph raises `AttributeError` as soon as a tail has two labels. -/
theorem C148_errors (S : Summation) (order : Finset ℕ → List ℕ) (ho : Traverses order) (Y : Cmp) (g : DiG) (gF : DiGF)
    (hg : confidenceGraph Y = .ok g) (hgF : confidenceGraphF Y = .ok gF) (n : ℕ) (Ss : List (Finset ℕ)) :
    ((∃ T ∈ Ss, ¬ AllJoined g T) →
      tailDensityF S order { Yc := Y, ntrn := n, g := some gF } Ss = .error .keyError ∧
      tailRatioF S order { Yc := Y, ntrn := n, g := some gF } Ss = .error .keyError) ∧
    ((∃ T ∈ Ss, 2 ≤ T.card) →
      tailDensityF S order { Yc := Y, ntrn := n, g := none } Ss = .error .attributeError ∧
      tailRatioF S order { Yc := Y, ntrn := n, g := none } Ss = .error .attributeError) := by
  have hgF' : gF = g.rounded := by
    rw [confidenceGraphF_eq, hg] at hgF
    exact (Except.ok.inj hgF).symm
  subst hgF'
  constructor
  · rintro ⟨T, hm, hno⟩
    have hev : (⟨Y, n, some g.rounded⟩ : TailEvalF).g = some g.rounded := rfl
    have hc : 2 ≤ T.card := by
      have hno' := hno
      unfold AllJoined at hno'
      push Not at hno'
      obtain ⟨u, hu, v, hv, hne, -⟩ := hno'
      exact Finset.one_lt_card.mpr ⟨u, hu, v, hv, hne⟩
    constructor
    · apply mapM_error_of
      · intro U _
        unfold densityOfF
        split
        · exact Or.inl ⟨_, rfl⟩
        · by_cases hU : AllJoined g U
          · rw [tailWeightSumF_ok S ho hev hU]
            exact Or.inl ⟨_, rfl⟩
          · rw [tailWeightSumF_error S ho hev hU]
            exact Or.inr rfl
      · refine ⟨T, hm, ?_⟩
        unfold densityOfF
        rw [if_neg (by omega), tailWeightSumF_error S ho hev hno]
        rfl
    · apply mapM_error_of
      · intro U _
        unfold ratioOfF
        split
        · exact Or.inl ⟨_, rfl⟩
        · by_cases hU : AllJoined g U
          · rw [tailWeightSumF_ok S ho hev hU]
            exact Or.inl ⟨_, rfl⟩
          · rw [tailWeightSumF_error S ho hev hU]
            exact Or.inr rfl
      · refine ⟨T, hm, ?_⟩
        unfold ratioOfF
        rw [if_neg (by omega), tailWeightSumF_error S ho hev hno]
        rfl
  · rintro ⟨T, hm, hc⟩
    have hsum : ∀ U : Finset ℕ, (∃ x, tailWeightSumF S order ⟨Y, n, none⟩ U = .ok x) ∨
        tailWeightSumF S order ⟨Y, n, none⟩ U = .error .attributeError := by
      intro U
      unfold tailWeightSumF
      rcases hl : orderedPairs (order U) with _ | ⟨e, l⟩
      · exact Or.inl ⟨_, rfl⟩
      · exact Or.inr rfl
    have hT : tailWeightSumF S order ⟨Y, n, none⟩ T = .error .attributeError := by
      obtain ⟨u, hu, v, hv, hne⟩ := Finset.one_lt_card.mp hc
      have hmem := (mem_orderedPairs (ho T).1).mpr ⟨((ho T).2 u).mpr hu, ((ho T).2 v).mpr hv, hne⟩
      unfold tailWeightSumF
      rcases hl : orderedPairs (order T) with _ | ⟨e, l⟩
      · rw [hl] at hmem
        cases hmem
      · rfl
    constructor
    · apply mapM_error_of
      · intro U _
        unfold densityOfF
        split
        · exact Or.inl ⟨_, rfl⟩
        · rcases hsum U with ⟨x, hx⟩ | hx <;> rw [hx]
          · exact Or.inl ⟨_, rfl⟩
          · exact Or.inr rfl
      · refine ⟨T, hm, ?_⟩
        unfold densityOfF
        rw [if_neg (by omega), hT]
        rfl
    · apply mapM_error_of
      · intro U _
        unfold ratioOfF
        split
        · exact Or.inl ⟨_, rfl⟩
        · rcases hsum U with ⟨x, hx⟩ | hx <;> rw [hx]
          · exact Or.inl ⟨_, rfl⟩
          · exact Or.inr rfl
      · refine ⟨T, hm, ?_⟩
        unfold ratioOfF
        rw [if_neg (by omega), hT]
        rfl

/-! ### Labels that always occur together -/

theorem conf_gap {Y : Cmp} {u v i : ℕ} (hi : i < Y.nMinor) (hu : Y.Stored u i) (hv : ¬ Y.Stored v i) :
    conf Y (u, v) ≤ 1 - 1 / (Y.nMinor : ℚ) := by
  classical
  have hlt : (commonRows Y u v).card < (commonRows Y u u).card := by
    apply Finset.card_lt_card
    rw [Finset.ssubset_iff_of_subset]
    · refine ⟨i, ?_, ?_⟩
      · simp [commonRows, hi, hu]
      · simp [commonRows, hv]
    · intro j hj
      simp only [commonRows, Finset.mem_filter] at hj ⊢
      exact ⟨hj.1, hj.2.1, hj.2.1⟩
  have hle : (commonRows Y u u).card ≤ Y.nMinor := by
    have : commonRows Y u u ⊆ Finset.range Y.nMinor := by
      intro j hj
      simp only [commonRows, Finset.mem_filter] at hj
      exact hj.1
    simpa using Finset.card_le_card this
  have hpos : (0 : ℚ) < (commonRows Y u u).card := by exact_mod_cast (by omega : 0 < (commonRows Y u u).card)
  have hN : ((commonRows Y u u).card : ℚ) ≤ Y.nMinor := by exact_mod_cast hle
  have h1 : ((commonRows Y u v).card : ℚ) + 1 ≤ (commonRows Y u u).card := by exact_mod_cast hlt
  unfold conf
  have h2 : 1 / (Y.nMinor : ℚ) ≤ 1 / (commonRows Y u u).card := one_div_le_one_div_of_le hpos hN
  have h3 : ((commonRows Y u v).card : ℚ) / (commonRows Y u u).card ≤ 1 - 1 / (commonRows Y u u).card := by
    rw [div_le_iff₀ hpos, sub_mul, one_mul, one_div, inv_mul_cancel₀ hpos.ne']
    linarith
  simp only
  linarith

theorem conf_one {Y : Cmp} {u v : ℕ} (hne : (commonRows Y u v).Nonempty)
    (h : ∀ i < Y.nMinor, Y.Stored u i ↔ Y.Stored v i) : conf Y (u, v) = 1 := by
  have e : commonRows Y u v = commonRows Y u u := by
    classical
    ext i
    simp only [commonRows, Finset.mem_filter, Finset.mem_range]
    constructor
    · rintro ⟨h1, h2, -⟩
      exact ⟨h1, h2, h2⟩
    · rintro ⟨h1, h2, -⟩
      exact ⟨h1, h2, (h i h1).mp h2⟩
  unfold conf
  rw [e] at hne ⊢
  exact div_self (by exact_mod_cast (Finset.card_pos.mpr hne).ne')

theorem offDiag_card_real (T : Finset ℕ) (h : 1 ≤ T.card) : ((T.offDiag.card : ℕ) : ℚ) = T.card * (T.card - 1) := by
  rw [Finset.offDiag_card]
  have : T.card ≤ T.card * T.card := Nat.le_mul_self _
  push_cast [this]
  ring

/-- **C148** On tails that are not too large for the number of rows, a reported edge ratio of 1.0 means that the labels
of the tail occur in exactly the same rows; conversely such a tail is reported with edge ratio 1.0 and edge density
`|T| - 1`, to the last bit. -/
theorem C148_same_rows (S : Summation) (order : Finset ℕ → List ℕ) (ho : Traverses order) (Y : Cmp) (h : Y.Binary)
    (g : DiG) (gF : DiGF) (hg : confidenceGraph Y = .ok g) (hgF : confidenceGraphF Y = .ok gF) (n : ℕ) (T : Finset ℕ)
    (hJ : AllJoined g T) (h2 : 2 ≤ T.card) (hN : 4 * (Y.nMinor * T.card ^ 4) ≤ 2 ^ 53) :
    (tailRatioF S order { Yc := Y, ntrn := n, g := some gF } [T] = .ok [some 1] ↔
      ∀ u ∈ T, ∀ v ∈ T, ∀ i < Y.nMinor, (Y.Stored u i ↔ Y.Stored v i)) ∧
    ((∀ u ∈ T, ∀ v ∈ T, ∀ i < Y.nMinor, (Y.Stored u i ↔ Y.Stored v i)) →
      tailDensityF S order { Yc := Y, ntrn := n, g := some gF } [T] = .ok [some (T.card - 1 : ℝ)]) := by
  have hgF' : gF = g.rounded := by
    rw [confidenceGraphF_eq, hg] at hgF
    exact (Except.ok.inj hgF).symm
  subst hgF'
  have hev : (⟨Y, n, some g.rounded⟩ : TailEvalF).g = some g.rounded := rfl
  have hn0 : 0 < Y.nMinor := by
    obtain ⟨u, hu, v, hv, hne⟩ := Finset.one_lt_card.mp h2
    obtain ⟨p, hp⟩ := hJ u hu v hv hne
    obtain ⟨i, hi⟩ := ((confidence_weight h hg u v p).mp hp).2.2.2.1
    classical
    simp only [commonRows, Finset.mem_filter, Finset.mem_range] at hi
    omega
  have hk : T.card ≤ 2 ^ 24 := by
    by_contra hc
    have h1 : (2 ^ 24) ^ 4 ≤ T.card ^ 4 := Nat.pow_le_pow_left (by omega) 4
    have h3 : T.card ^ 4 ≤ Y.nMinor * T.card ^ 4 := Nat.le_mul_of_pos_left _ hn0
    have h4 : (2 : ℕ) ^ 53 < (2 ^ 24) ^ 4 := by norm_num
    omega
  have hRat : tailRatioF S order { Yc := Y, ntrn := n, g := some g.rounded } [T] =
      .ok [some (fl (fl (S.sum (roundedPairs g (order T)) / fl (T.card : ℝ)) / fl ((T.card - 1 : ℕ) : ℝ)))] := by
    unfold tailRatioF ratioOfF
    rw [List.mapM_cons, List.mapM_nil, if_neg (by omega), tailWeightSumF_ok S ho hev hJ]
    rfl
  have hDen : tailDensityF S order { Yc := Y, ntrn := n, g := some g.rounded } [T] =
      .ok [some (fl (S.sum (roundedPairs g (order T)) / fl (T.card : ℝ)))] := by
    unfold tailDensityF densityOfF
    rw [List.mapM_cons, List.mapM_nil, if_neg (by omega), tailWeightSumF_ok S ho hev hJ]
    rfl
  have hkr : (0 : ℝ) < T.card := by exact_mod_cast (by omega : 0 < T.card)
  have hall : (∀ u ∈ T, ∀ v ∈ T, ∀ i < Y.nMinor, (Y.Stored u i ↔ Y.Stored v i)) →
      fl (S.sum (roundedPairs g (order T)) / fl (T.card : ℝ)) = ((T.card - 1 : ℕ) : ℝ) := by
    intro hs
    have e : roundedPairs g (order T) = List.replicate (T.card * (T.card - 1)) 1 := by
      rw [List.eq_replicate_iff]
      refine ⟨by unfold roundedPairs; rw [List.length_map, orderedPairs_length (ho T).1, order_length ho], ?_⟩
      intro x hx
      obtain ⟨⟨u, v⟩, he, rfl⟩ := List.mem_map.mp hx
      obtain ⟨h1, h3, h4⟩ := (mem_orderedPairs (ho T).1).mp he
      have hu := ((ho T).2 u).mp h1
      have hv := ((ho T).2 v).mp h3
      obtain ⟨p, hp⟩ := hJ u hu v hv h4
      obtain ⟨-, -, -, hne, hpe⟩ := (confidence_weight h hg u v p).mp hp
      rw [conf_one hne (hs u hu v hv)] at hpe
      simp [hp, hpe, fl_one]
    have hsmall : T.card * (T.card - 1) ≤ 2 ^ 53 := by
      calc T.card * (T.card - 1) ≤ 2 ^ 24 * 2 ^ 24 := Nat.mul_le_mul hk (by omega)
        _ ≤ 2 ^ 53 := by norm_num
    rw [e, S.sum_nat (fun x hx => ⟨1, by simpa using List.eq_of_mem_replicate hx⟩)
      (by simp only [List.sum_replicate, nsmul_eq_mul, mul_one]; exact_mod_cast hsmall), fl_nat (hk.trans (by norm_num))]
    simp only [List.sum_replicate, nsmul_eq_mul, mul_one]
    rw [Nat.cast_mul, mul_div_assoc, mul_div_cancel₀ _ hkr.ne', fl_nat (by omega)]
  refine ⟨⟨?_, ?_⟩, ?_⟩
  · intro hr
    rw [hRat] at hr
    have hr1 := Option.some.inj (List.cons.inj (Except.ok.inj hr)).1
    obtain ⟨a1, -, a3⟩ := ratioF_bounds S h hg ho hk h2
    have h2r : (2 : ℝ) ≤ T.card := by exact_mod_cast h2
    have hm0 : (0 : ℝ) < T.card * (T.card - 1) := mul_pos hkr (by linarith)
    have hp : (0 : ℝ) ≤ (pairWeight g T : ℚ) := by exact_mod_cast pairWeight_nonneg h hg T
    have c := rel_abs (card_pair_bound hk) a1 (div_nonneg hp hm0.le) a3
    rw [hr1] at c
    by_contra hcon
    -- some label of the tail is missing in a row of another one
    obtain ⟨u, hu, v, hv, i, hi, hui, hvi⟩ : ∃ u ∈ T, ∃ v ∈ T, ∃ i < Y.nMinor, Y.Stored u i ∧ ¬ Y.Stored v i := by
      by_contra hno
      push Not at hno
      exact hcon fun u hu v hv i hi => ⟨hno u hu v hv i hi, hno v hv u hu i hi⟩
    have huv : u ≠ v := by
      rintro rfl
      exact hvi hui
    have hmem : (u, v) ∈ T.offDiag := Finset.mem_offDiag.mpr ⟨hu, hv, huv⟩
    have hgap : pairWeight g T ≤ T.card * (T.card - 1) - 1 / (Y.nMinor : ℚ) := by
      unfold pairWeight
      rw [← Finset.add_sum_erase _ _ hmem]
      obtain ⟨p, hpw⟩ := hJ u hu v hv huv
      obtain ⟨-, -, -, -, hpe⟩ := (confidence_weight h hg u v p).mp hpw
      have g1 : (g.weight u v).getD 0 ≤ 1 - 1 / (Y.nMinor : ℚ) := by
        rw [hpw, Option.getD_some, hpe]
        exact conf_gap hi hui hvi
      have g2 : ∑ e ∈ T.offDiag.erase (u, v), (g.weight e.1 e.2).getD 0 ≤ ∑ e ∈ T.offDiag.erase (u, v), (1 : ℚ) :=
        Finset.sum_le_sum fun e _ => (getD_weight_range h hg e.1 e.2).2
      rw [Finset.sum_const, nsmul_eq_mul, mul_one, Finset.card_erase_of_mem hmem,
        Nat.cast_sub (Finset.card_pos.mpr ⟨_, hmem⟩), offDiag_card_real T (by omega), Nat.cast_one] at g2
      linarith
    have hgapr : ((pairWeight g T : ℚ) : ℝ) ≤ T.card * (T.card - 1) - 1 / (Y.nMinor : ℝ) := by
      have := (Rat.cast_le (K := ℝ)).mpr hgap
      push_cast at this
      linarith
    have hnr : (0 : ℝ) < Y.nMinor := by exact_mod_cast hn0
    set m : ℝ := T.card * (T.card - 1) with hm
    set w : ℝ := ((pairWeight g T : ℚ) : ℝ) with hw
    have hx : w / m ≤ 1 - 1 / (Y.nMinor * m) := by
      rw [div_le_iff₀ hm0, sub_mul, one_mul]
      have : 1 / ((Y.nMinor : ℝ) * m) * m = 1 / Y.nMinor := by field_simp
      linarith
    have hx0 : 0 ≤ w / m := div_nonneg hp hm0.le
    have hnm : 0 < 1 / (Y.nMinor * m) := by positivity
    have c1 := (abs_le.mp c).2
    have hE : 2 * ((2 * (T.card * (T.card - 1)) + 4 : ℕ) : ℝ) / 2 ^ 53 ≤ 4 * (T.card : ℝ) ^ 2 / 2 ^ 53 := by
      push_cast [Nat.cast_sub (by omega : 1 ≤ T.card)]
      rw [div_le_div_iff_of_pos_right (by positivity)]
      nlinarith
    have c2 : w / m * (2 * ((2 * (T.card * (T.card - 1)) + 4 : ℕ) : ℝ) / 2 ^ 53) < 4 * (T.card : ℝ) ^ 2 / 2 ^ 53 := by
      have hpos : (0 : ℝ) < 4 * (T.card : ℝ) ^ 2 / 2 ^ 53 := by positivity
      calc _ ≤ w / m * (4 * (T.card : ℝ) ^ 2 / 2 ^ 53) := mul_le_mul_of_nonneg_left hE hx0
        _ < 1 * (4 * (T.card : ℝ) ^ 2 / 2 ^ 53) := mul_lt_mul_of_pos_right (by linarith) hpos
        _ = _ := one_mul _
    have c3 : 1 / (Y.nMinor * m) < 4 * (T.card : ℝ) ^ 2 / 2 ^ 53 := by linarith
    rw [div_lt_div_iff₀ (by positivity) (by positivity)] at c3
    have hNr : 4 * ((Y.nMinor : ℝ) * T.card ^ 4) ≤ 2 ^ 53 := by exact_mod_cast hN
    have c4 : 4 * (T.card : ℝ) ^ 2 * (Y.nMinor * m) ≤ 4 * (Y.nMinor * (T.card : ℝ) ^ 4) := by
      have : m ≤ (T.card : ℝ) ^ 2 := by
        rw [hm]
        nlinarith
      have h5 : (Y.nMinor : ℝ) * m ≤ Y.nMinor * (T.card : ℝ) ^ 2 := mul_le_mul_of_nonneg_left this hnr.le
      have h6 := mul_le_mul_of_nonneg_left h5 (by positivity : (0 : ℝ) ≤ 4 * (T.card : ℝ) ^ 2)
      nlinarith
    linarith
  · intro hs
    rw [hRat, hall hs, fl_nat (n := T.card - 1) (by omega), div_self (by exact_mod_cast (by omega : T.card - 1 ≠ 0)), fl_one]
  · intro hs
    rw [hDen, hall hs, Nat.cast_sub (by omega), Nat.cast_one]

/-! ### Frequencies -/

theorem fl_share_lt {a b n : ℕ} (hn : n ≤ 2 ^ 51) (hb : b ≤ n) (hab : a < b) : fl ((a : ℝ) / n) < fl ((b : ℝ) / n) := by
  have hn0 : (0 : ℝ) < n := by exact_mod_cast (by omega : 0 < n)
  have ha : |fl ((a : ℝ) / n) - a / n| ≤ 1 / 2 ^ 53 := by
    refine (fl_error _).trans ?_
    rw [abs_of_nonneg (by positivity)]
    have : (a : ℝ) / n ≤ 1 := (div_le_one hn0).mpr (by exact_mod_cast (by omega : a ≤ n))
    nlinarith
  have hb' : |fl ((b : ℝ) / n) - b / n| ≤ 1 / 2 ^ 53 := by
    refine (fl_error _).trans ?_
    rw [abs_of_nonneg (by positivity)]
    have : (b : ℝ) / n ≤ 1 := (div_le_one hn0).mpr (by exact_mod_cast hb)
    nlinarith
  have hgap : (a : ℝ) / n + 1 / n ≤ b / n := by
    rw [← add_div, div_le_div_iff_of_pos_right hn0]
    exact_mod_cast hab
  have hinv : (1 : ℝ) / 2 ^ 51 ≤ 1 / n := one_div_le_one_div_of_le hn0 (by exact_mod_cast hn)
  have h1 := (abs_le.mp ha).2
  have h2 := (abs_le.mp hb').1
  have h3 : (2 : ℝ) * (1 / 2 ^ 53) < 1 / 2 ^ 51 := by norm_num
  linarith

/-- **C148** On at most `2⁵¹` training rows the reported frequency of a tail is the double nearest to the exact one,
lies between 0 and 1, and ranks tails exactly as their supports do: a larger support is a larger reported frequency,
equal supports are reported equal, 1.0 is reported exactly for tails in every row and 0.0 for tails in none. -/
theorem C148_frequency (order : Finset ℕ → List ℕ) (ho : Traverses order) (Y : Cmp) (h : Y.Binary) (gF : Option DiGF)
    (Ss : List (Finset ℕ)) (hS : ∀ T ∈ Ss, ∀ c ∈ T, c < Y.nMajor) (hn0 : 0 < Y.nMinor) (hn : Y.nMinor ≤ 2 ^ 51) :
    ∃ freq : Finset ℕ → ℝ,
      tailFrequencyF order { Yc := Y, ntrn := Y.nMinor, g := gF } Ss = .ok (Ss.map fun T => some (freq T)) ∧
      ∀ T ∈ Ss, freq T = fl (((rowsWithAll Y T).card : ℝ) / Y.nMinor) ∧ 0 ≤ freq T ∧ freq T ≤ 1 ∧
        (freq T = 1 ↔ (rowsWithAll Y T).card = Y.nMinor) ∧ (freq T = 0 ↔ rowsWithAll Y T = ∅) ∧
        ∀ U ∈ Ss, freq T < freq U ↔ (rowsWithAll Y T).card < (rowsWithAll Y U).card := by
  have hle : ∀ T, (rowsWithAll Y T).card ≤ Y.nMinor := fun T => (C68_frequency_range Y T T (Finset.Subset.refl T)).2.1
  have hpos : (0 : ℝ) < Y.nMinor := by exact_mod_cast hn0
  have hlt : ∀ T U, fl (((rowsWithAll Y T).card : ℝ) / Y.nMinor) < fl (((rowsWithAll Y U).card : ℝ) / Y.nMinor) ↔
      (rowsWithAll Y T).card < (rowsWithAll Y U).card := by
    intro T U
    constructor
    · intro hlt
      by_contra hc
      refine absurd (fl_mono (by positivity) ?_) (not_le.mpr hlt)
      rw [div_le_div_iff_of_pos_right hpos]
      exact_mod_cast not_lt.mp hc
    · exact fun hc => fl_share_lt hn (hle U) hc
  refine ⟨fun T => fl (((rowsWithAll Y T).card : ℝ) / Y.nMinor), ?_, ?_⟩
  · unfold tailFrequencyF
    have hsup : Ss.mapM (fun T => supportSize Y (tailList order T)) = .ok (Ss.map fun T => (rowsWithAll Y T).card) :=
      mapM_ok_of_forall fun T hm => supportSize_ok h ho (hS T hm)
    simp only [hsup]
    simp only [bind, Except.bind, pure, Except.pure, List.map_map, Function.comp_def, if_neg hn0.ne', Except.ok.injEq]
    apply List.map_congr_left
    intro T _
    rw [fl_nat ((hle T).trans (hn.trans (by norm_num))), fl_nat (hn.trans (by norm_num))]
  · intro T _
    have hq : (0 : ℝ) ≤ ((rowsWithAll Y T).card : ℝ) / Y.nMinor := by positivity
    have hq1 : ((rowsWithAll Y T).card : ℝ) / Y.nMinor ≤ 1 := (div_le_one hpos).mpr (by exact_mod_cast hle T)
    have hfull : ((rowsWithAll Y ∅).card : ℝ) / Y.nMinor = 1 := by
      rw [(C68_frequency_range Y ∅ ∅ (Finset.Subset.refl ∅)).2.2]
      exact div_self hpos.ne'
    refine ⟨rfl, fl_nonneg hq, fl_le_one hq hq1, ?_, ?_, fun U _ => hlt T U⟩
    · constructor
      · intro he
        by_contra hc
        have h1 := (hlt T ∅).mpr (by
          rw [(C68_frequency_range Y ∅ ∅ (Finset.Subset.refl ∅)).2.2]
          have := hle T
          omega)
        simp only at he
        rw [he, hfull, fl_one] at h1
        exact lt_irrefl _ h1
      · intro he
        simp only [he]
        rw [div_self hpos.ne', fl_one]
    · constructor
      · intro he
        by_contra hc
        have h1 : 0 < ((rowsWithAll Y T).card : ℝ) / Y.nMinor :=
          div_pos (by exact_mod_cast Finset.card_pos.mpr (Finset.nonempty_iff_ne_empty.mpr hc)) hpos
        exact (fl_pos h1).ne' he
      · intro he
        simp [he, fl_zero]

/-- **C148** Without training rows every frequency is NaN; a label that is not a column raises `IndexError`. -/
theorem C148_frequency_edge (order : Finset ℕ → List ℕ) (ho : Traverses order) (Y : Cmp) (h : Y.Binary)
    (gF : Option DiGF) (n : ℕ) (Ss : List (Finset ℕ)) :
    ((∀ T ∈ Ss, ∀ c ∈ T, c < Y.nMajor) →
      tailFrequencyF order { Yc := Y, ntrn := 0, g := gF } Ss = .ok (Ss.map fun _ => none)) ∧
    ((∃ T ∈ Ss, ∃ c ∈ T, Y.nMajor ≤ c) →
      tailFrequencyF order { Yc := Y, ntrn := n, g := gF } Ss = .error .indexError) := by
  constructor
  · intro hS
    unfold tailFrequencyF
    have hsup : Ss.mapM (fun T => supportSize Y (tailList order T)) = .ok (Ss.map fun T => (rowsWithAll Y T).card) :=
      mapM_ok_of_forall fun T hm => supportSize_ok h ho (hS T hm)
    simp only [hsup]
    simp only [bind, Except.bind, pure, Except.pure, List.map_map, Function.comp_def, if_true]
  · intro hS
    have hsup := (C68_support order ho ⟨Y, n, none⟩ h Ss).2 hS
    unfold tailSupport at hsup
    unfold tailFrequencyF
    simp only at hsup ⊢
    rw [hsup]
    rfl

/-! ### The hypotheses are met -/

theorem tailLabels_joined {g : DiG} (hg : confidenceGraph tailLabels = .ok g) : AllJoined g {0, 1} := by
  refine ((C68_ratio_range tailLabels tailLabels_binary g hg {0, 1} (by decide)).1).mpr ?_
  classical
  have h1 : ∀ u, u < 3 → tailLabels.Stored u 1 := by
    intro u hu
    rw [← Cmp.mem_segIdx]
    interval_cases u <;> decide
  intro u hu v hv _
  refine ⟨1, ?_⟩
  simp only [commonRows, Finset.mem_filter, Finset.mem_range]
  refine ⟨by decide, h1 u ?_, h1 v ?_⟩
  · simp at hu; omega
  · simp at hv; omega

/-- Labels 0 and 1 occur in the same two rows, so their edge ratio is reported as 1.0. -/
example (S : Summation) (order : Finset ℕ → List ℕ) (ho : Traverses order) (g : DiG) (gF : DiGF)
    (hg : confidenceGraph tailLabels = .ok g) (hgF : confidenceGraphF tailLabels = .ok gF) :
    tailRatioF S order { Yc := tailLabels, ntrn := 3, g := some gF } [{0, 1}] = .ok [some 1] := by
  refine (C148_same_rows S order ho tailLabels tailLabels_binary g gF hg hgF 3 {0, 1} (tailLabels_joined hg) (by decide)
    (by decide)).1.mpr ?_
  intro u hu v hv i hi
  have hi' : i < 3 := hi
  simp only [Finset.mem_insert, Finset.mem_singleton] at hu hv
  rw [← Cmp.mem_segIdx, ← Cmp.mem_segIdx]
  rcases hu with rfl | rfl <;> rcases hv with rfl | rfl <;> interval_cases i <;> decide

example : ∃ g gF, confidenceGraph tailLabels = .ok g ∧ confidenceGraphF tailLabels = .ok gF ∧ AllJoined g {0, 1} := by
  obtain ⟨g, hg, -⟩ := C47_confidence_graph tailLabels tailLabels_binary
  exact ⟨g, g.rounded, hg, by rw [confidenceGraphF_eq, hg]; rfl, tailLabels_joined hg⟩

end Verif
