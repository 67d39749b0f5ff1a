/-
Property C128: rounding in the tail sampler.

`sampleOnceF S st k₁ k₂` is `sample_once` computed in double precision when the random generator delivers the
variates `k₁ / 2⁵³` and `k₂ / 2⁵³`; both are uniform on the multiples of 2⁻⁵³ in [0, 1). `S` is the order in which
`numpy.sum` adds, which the theorems leave open.
-/
import Verif.Lemmas.Float
import Verif.Props.Uncovered

set_option linter.constructorNameAsVariable false

namespace Verif

open Classical in
/-- The probability that the call in double precision returns `s`: the share of the pairs of variates for which it
does. -/
noncomputable def tailChanceF (S : Summation) (st : UState) (s : Finset ℤ) : ℝ :=
  (((Finset.range (2 ^ 53) ×ˢ Finset.range (2 ^ 53)).filter fun k => sampleOnceF S st k.1 k.2 = .ok s).card : ℝ) /
    (2 ^ 53 * 2 ^ 53)

/-! ### Closed forms -/

theorem normF_eq (S : Summation) (w : List ℕ) (h : w.sum ≤ 2 ^ 53) :
    S.sum ((w.map fun x : ℕ => (x : ℤ)).map fun x : ℤ => (x : ℝ)) = (w.sum : ℕ) ∧
    normF S (w.map fun x : ℕ => (x : ℤ)) = probsF w := by
  have e : ((w.map fun x : ℕ => (x : ℤ)).map fun x : ℤ => (x : ℝ)) = w.map fun x : ℕ => (x : ℝ) := by
    rw [List.map_map]
    apply List.map_congr_left
    intro x _
    simp
  have es : (w.map fun x : ℕ => (x : ℝ)).sum = (w.sum : ℕ) := by
    rw [Nat.cast_list_sum]
  have h1 : S.sum ((w.map fun x : ℕ => (x : ℤ)).map fun x : ℤ => (x : ℝ)) = (w.sum : ℕ) := by
    rw [e, Summation.sum_nat, es]
    · intro x hx
      obtain ⟨n, -, rfl⟩ := List.mem_map.mp hx
      exact ⟨n, rfl⟩
    · rw [es]
      exact_mod_cast h
  refine ⟨h1, ?_⟩
  unfold normF probsF
  rw [h1, List.map_map]
  apply List.map_congr_left
  intro x _
  simp

/-- The weights of a row's samples. -/
def rowWts (space : List (Finset ℤ)) (newRows : List (List ℕ)) (us : List (List ℕ × List ℤ)) (i : ℕ) : List ℕ :=
  (newRows.getD i []).map fun id => (uncoveredPart us i (space.getD id ∅)).card

/-- The weights of the rows. -/
def areaWts (space : List (Finset ℤ)) (newRows : List (List ℕ)) (us : List (List ℕ × List ℤ)) : List ℕ :=
  (List.range newRows.length).map fun i => rowArea space newRows us i

theorem areaWts_sum (space : List (Finset ℤ)) (newRows : List (List ℕ)) (us : List (List ℕ × List ℤ)) :
    (areaWts space newRows us).sum = totalArea space newRows us := by
  have := ws_sum space newRows us
  rw [ws_eq] at this
  have h2 : (((areaWts space newRows us).sum : ℕ) : ℤ) = totalArea space newRows us := by
    rw [← this, areaWts, Nat.cast_list_sum, List.map_map]
    rfl
  exact_mod_cast h2

theorem rowArea_le (space : List (Finset ℤ)) (newRows : List (List ℕ)) (us : List (List ℕ × List ℤ)) {i : ℕ}
    (hi : i < newRows.length) : rowArea space newRows us i ≤ totalArea space newRows us :=
  Finset.single_le_sum (f := fun i => rowArea space newRows us i) (fun _ _ => Nat.zero_le _) (Finset.mem_range.mpr hi)

theorem allcloseF_self (a : ℝ) : allcloseF a a := by
  unfold allcloseF
  rw [sub_self, fl_zero, abs_zero]
  exact fl_nonneg (add_nonneg (fl_nonneg (by positivity))
    (fl_nonneg (mul_nonneg (fl_nonneg (by positivity)) (abs_nonneg _))))

theorem sampleItemsetF_closed (S : Summation) (space : List (Finset ℤ)) (newRows : List (List ℕ))
    (us : List (List ℕ × List ℤ)) (hT : totalArea space newRows us ≤ 2 ^ 53) (i : ℕ) (hi : i < newRows.length)
    (k : ℕ) :
    sampleItemsetF S (stateAfter space newRows us) i k =
      if rowArea space newRows us i = 0 then .error .noMoreSamples
      else (choiceF (probsF (rowWts space newRows us i)) k).bind
        fun idx => .ok (space.getD ((newRows.getD i []).getD idx 0) ∅) := by
  have hw : sampleWeights (stateAfter space newRows us) i =
      (rowWts space newRows us i).map fun x : ℕ => (x : ℤ) := by
    rw [sampleWeights_eq, rowWts, List.map_map]
    rfl
  have hs : (rowWts space newRows us i).sum = rowArea space newRows us i := rfl
  obtain ⟨h1, h2⟩ := normF_eq S (rowWts space newRows us i)
    (by rw [hs]; exact (rowArea_le space newRows us hi).trans hT)
  unfold sampleItemsetF
  rw [hw, h1, h2, weights_getD space newRows us i hi, hs, if_neg]
  · by_cases h0 : rowArea space newRows us i = 0
    · rw [if_pos h0, if_pos (by exact_mod_cast h0)]
    · rw [if_neg h0, if_neg (by exact_mod_cast h0)]
      rfl
  · rw [not_not]
    simpa using allcloseF_self _

theorem rowProbasF_closed (S : Summation) (space : List (Finset ℤ)) (newRows : List (List ℕ))
    (us : List (List ℕ × List ℤ)) (hT : totalArea space newRows us ≤ 2 ^ 53) :
    rowProbasF S (stateAfter space newRows us).weights =
      if totalArea space newRows us = 0 then probsF (List.replicate newRows.length 1)
      else probsF (areaWts space newRows us) := by
  have hw : (stateAfter space newRows us).weights = (areaWts space newRows us).map fun x : ℕ => (x : ℤ) := by
    show wsOf space newRows (coveredElems us) = _
    rw [ws_eq, areaWts, List.map_map]
    rfl
  obtain ⟨h1, h2⟩ := normF_eq S (areaWts space newRows us) (by rw [areaWts_sum]; exact hT)
  unfold rowProbasF
  rw [hw, h1, h2, areaWts_sum]
  by_cases h0 : totalArea space newRows us = 0
  · rw [if_pos h0, if_pos (by exact_mod_cast h0)]
    simp [probsF, areaWts]
  · rw [if_neg h0, if_neg (by exact_mod_cast h0)]

/-! ### C128 -/

/-- **C128.** With uncovered area left, no pair of variates makes the call raise, neither the check of the
probabilities nor the check of the weights: it returns a tail listed for a row, with a label that is not yet
covered for that row. -/
theorem C128_returns (S : Summation) (space : List (Finset ℤ)) (newRows : List (List ℕ))
    (us : List (List ℕ × List ℤ)) (st : UState) (h : applyUpdates (freshSampler space newRows) us = .ok st)
    (hpos : 0 < totalArea space newRows us) (hT : totalArea space newRows us ≤ 2 ^ 53)
    (hn : newRows.length ≤ 2 ^ 23) (hm : ∀ r ∈ newRows, r.length ≤ 2 ^ 23)
    (k₁ k₂ : ℕ) (h₁ : k₁ < 2 ^ 53) (h₂ : k₂ < 2 ^ 53) :
    ∃ s, sampleOnceF S st k₁ k₂ = .ok s ∧
      ∃ i < newRows.length, ∃ id ∈ newRows.getD i [], space[id]? = some s ∧ ∃ el ∈ s, ¬ CoveredBy us i el := by
  obtain ⟨-, rfl⟩ := fresh_applyUpdates_inv h
  obtain ⟨i, hi, hil, hip⟩ := choiceF_positive (areaWts space newRows us) (by rw [areaWts_sum]; exact hpos)
    (by simpa [areaWts] using hn) k₁ h₁
  have hil' : i < newRows.length := by simpa [areaWts] using hil
  have hra : 0 < rowArea space newRows us i := by
    rw [List.getD_eq_getElem _ _ hil] at hip
    simpa [areaWts] using hip
  obtain ⟨j, hj, hjl, hjp⟩ := choiceF_positive (rowWts space newRows us i) hra
    (by
      simp only [rowWts, List.length_map]
      rw [List.getD_eq_getElem _ _ hil']
      exact hm _ (List.getElem_mem hil')) k₂ h₂
  have hjl' : j < (newRows.getD i []).length := by simpa [rowWts] using hjl
  rw [List.getD_eq_getElem _ _ hjl] at hjp
  simp only [rowWts, List.getElem_map, Finset.card_pos] at hjp
  obtain ⟨el, hel⟩ := hjp
  simp only [uncoveredPart, Finset.mem_filter] at hel
  have hid : (newRows.getD i []).getD j 0 = (newRows.getD i [])[j] := List.getD_eq_getElem _ _ hjl'
  refine ⟨space.getD ((newRows.getD i []).getD j 0) ∅, ?_, i, hil', _, List.getElem_mem hjl', ?_, el, ?_, hel.2⟩
  · unfold sampleOnceF
    rw [rowProbasF_closed S space newRows us hT, if_neg hpos.ne', hi]
    show sampleItemsetF S _ i k₂ = _
    rw [sampleItemsetF_closed S space newRows us hT i hil', if_neg hra.ne', hj]
    rfl
  · rw [hid]
    rcases hs : space[(newRows.getD i [])[j]]? with _ | a
    · rw [List.getD_eq_getElem?_getD, hs] at hel; simp at hel
    · rw [List.getD_eq_getElem?_getD, hs]; rfl
  · rw [hid]; exact hel.1

/-- **C128.** With no uncovered area left, every pair of variates makes the call raise `NoMoreSamples`. -/
theorem C128_exhausted (S : Summation) (space : List (Finset ℤ)) (newRows : List (List ℕ))
    (us : List (List ℕ × List ℤ)) (st : UState) (h : applyUpdates (freshSampler space newRows) us = .ok st)
    (hne : newRows ≠ []) (h0 : totalArea space newRows us = 0) (hn : newRows.length ≤ 2 ^ 23)
    (k₁ k₂ : ℕ) (h₁ : k₁ < 2 ^ 53) : sampleOnceF S st k₁ k₂ = .error .noMoreSamples := by
  obtain ⟨-, rfl⟩ := fresh_applyUpdates_inv h
  have hT : totalArea space newRows us ≤ 2 ^ 53 := by rw [h0]; exact Nat.zero_le _
  obtain ⟨i, hi, hil, -⟩ := choiceF_positive (List.replicate newRows.length 1)
    (by rw [List.sum_replicate]; simpa using List.length_pos_of_ne_nil hne) (by simpa using hn) k₁ h₁
  have hil' : i < newRows.length := by simpa using hil
  unfold sampleOnceF
  rw [rowProbasF_closed S space newRows us hT, if_pos h0, hi]
  show sampleItemsetF S _ i k₂ = _
  rw [sampleItemsetF_closed S space newRows us hT i hil',
    if_pos ((totalArea_eq_zero_iff space newRows us).mp h0 i hil')]

/-! ### The law -/

open Classical in
/-- The share of the variates for which sampling from a row returns `s`. -/
noncomputable def rowChanceF (S : Summation) (st : UState) (i : ℕ) (s : Finset ℤ) : ℝ :=
  (((Finset.range (2 ^ 53)).filter fun k => sampleItemsetF S st i k = .ok s).card : ℝ) / 2 ^ 53

theorem share_le_one (p : ℕ → Prop) [DecidablePred p] :
    (((Finset.range (2 ^ 53)).filter p).card : ℝ) / 2 ^ 53 ≤ 1 := by
  rw [div_le_one (by positivity)]
  have := Finset.card_filter_le (Finset.range (2 ^ 53)) p
  rw [Finset.card_range] at this
  exact_mod_cast this

theorem rowChanceF_error (S : Summation) (space : List (Finset ℤ)) (newRows : List (List ℕ))
    (us : List (List ℕ × List ℤ)) (hT : totalArea space newRows us ≤ 2 ^ 53) (i : ℕ) (hi : i < newRows.length)
    (m : ℕ) (hm : (newRows.getD i []).length ≤ m) (hm2 : m ≤ 2 ^ 23) (h0 : 0 < rowArea space newRows us i)
    (s : Finset ℤ) :
    |rowChanceF S (stateAfter space newRows us) i s -
      (((newRows.getD i []).filter fun id => decide (space.getD id ∅ = s)).length *
        (uncoveredPart us i s).card : ℕ) / rowArea space newRows us i| ≤ m * ((10 * m + 11) / 2 ^ 53) := by
  classical
  set w := rowWts space newRows us i with hw
  set row := newRows.getD i [] with hrow
  have hwl : w.length = row.length := by simp [hw, rowWts, hrow]
  have hws : w.sum = rowArea space newRows us i := rfl
  have hcl := sampleItemsetF_closed S space newRows us hT i hi
  have hset : ((Finset.range (2 ^ 53)).filter fun k => sampleItemsetF S (stateAfter space newRows us) i k = .ok s) =
      ((Finset.range row.length).filter fun j => space.getD (row.getD j 0) ∅ = s).biUnion fun j =>
        (Finset.range (2 ^ 53)).filter fun k => choiceF (probsF w) k = .ok j := by
    ext k
    simp only [Finset.mem_filter, Finset.mem_biUnion]
    constructor
    · rintro ⟨hk, hx⟩
      obtain ⟨j, hj, hjl, -⟩ := choiceF_spec w (by rw [hws]; exact h0) (by rw [hwl]; omega) k (Finset.mem_range.mp hk)
      rw [hcl k, if_neg h0.ne', hj] at hx
      exact ⟨j, ⟨Finset.mem_range.mpr (by omega), Except.ok.inj hx⟩, hk, hj⟩
    · rintro ⟨j, ⟨hj, hs⟩, hk, hx⟩
      refine ⟨hk, ?_⟩
      rw [hcl k, if_neg h0.ne', hx]
      show Except.ok _ = _
      rw [hs]
  have hcard : rowChanceF S (stateAfter space newRows us) i s =
      ∑ j ∈ (Finset.range row.length).filter (fun j => space.getD (row.getD j 0) ∅ = s), chanceF (probsF w) j := by
    unfold rowChanceF chanceF
    rw [hset, Finset.card_biUnion]
    · rw [Nat.cast_sum, Finset.sum_div]
    · intro a _ b _ hab
      rw [Function.onFun, Finset.disjoint_left]
      intro k hka hkb
      simp only [Finset.mem_filter] at hka hkb
      exact hab (Except.ok.inj (hka.2.symm.trans hkb.2))
  have hexact : (((row.filter fun id => decide (space.getD id ∅ = s)).length *
      (uncoveredPart us i s).card : ℕ) : ℝ) =
      ∑ j ∈ (Finset.range row.length).filter (fun j => space.getD (row.getD j 0) ∅ = s), (w.getD j 0 : ℝ) := by
    have key : ∀ r : List ℕ, (((r.filter fun id => decide (space.getD id ∅ = s)).length *
        (uncoveredPart us i s).card : ℕ) : ℝ) =
        ∑ j ∈ Finset.range r.length, if space.getD (r.getD j 0) ∅ = s then
          (((r.map fun id => (uncoveredPart us i (space.getD id ∅)).card).getD j 0 : ℕ) : ℝ) else 0 := by
      intro r
      induction r with
      | nil => simp
      | cons id r ih =>
        rw [List.length_cons, Finset.sum_range_succ']
        simp only [List.map_cons, List.getD_cons_succ, List.getD_cons_zero]
        rw [← ih]
        by_cases hid : space.getD id ∅ = s
        · rw [if_pos hid, hid, List.filter_cons_of_pos (by simpa using hid), List.length_cons]
          push_cast
          ring
        · rw [if_neg hid, List.filter_cons_of_neg (by simpa using hid), add_zero]
    rw [key, Finset.sum_filter]
    rfl
  rw [hcard, hexact, Finset.sum_div, ← Finset.sum_sub_distrib]
  refine (Finset.abs_sum_le_sum_abs _ _).trans ?_
  have hb : ∀ j ∈ (Finset.range row.length).filter (fun j => space.getD (row.getD j 0) ∅ = s),
      |chanceF (probsF w) j - (w.getD j 0 : ℝ) / rowArea space newRows us i| ≤ (10 * m + 11) / 2 ^ 53 := by
    intro j hj
    simp only [Finset.mem_filter, Finset.mem_range] at hj
    have := chanceF_error w (by rw [hws]; exact h0) (by rw [hwl]; omega) j (by omega)
    rw [hws] at this
    refine this.trans (div_le_div_of_nonneg_right ?_ (by positivity))
    have : (w.length : ℝ) ≤ m := by rw [hwl]; exact_mod_cast hm
    linarith
  refine (Finset.sum_le_card_nsmul _ _ _ hb).trans ?_
  rw [nsmul_eq_mul]
  refine mul_le_mul_of_nonneg_right ?_ (div_nonneg (by linarith [Nat.cast_nonneg (α := ℝ) m]) (by positivity))
  have h1 := Finset.card_filter_le (Finset.range row.length) (fun j => space.getD (row.getD j 0) ∅ = s)
  rw [Finset.card_range] at h1
  exact_mod_cast h1.trans hm

theorem tailChanceF_eq (S : Summation) (space : List (Finset ℤ)) (newRows : List (List ℕ))
    (us : List (List ℕ × List ℤ)) (hpos : 0 < totalArea space newRows us)
    (hT : totalArea space newRows us ≤ 2 ^ 53) (hn : newRows.length ≤ 2 ^ 23) (s : Finset ℤ) :
    tailChanceF S (stateAfter space newRows us) s =
      ∑ i ∈ Finset.range newRows.length,
        chanceF (probsF (areaWts space newRows us)) i * rowChanceF S (stateAfter space newRows us) i s := by
  classical
  have hset : ((Finset.range (2 ^ 53) ×ˢ Finset.range (2 ^ 53)).filter
        fun k => sampleOnceF S (stateAfter space newRows us) k.1 k.2 = .ok s) =
      (Finset.range newRows.length).biUnion fun i =>
        ((Finset.range (2 ^ 53)).filter fun k => choiceF (probsF (areaWts space newRows us)) k = .ok i) ×ˢ
          (Finset.range (2 ^ 53)).filter fun k => sampleItemsetF S (stateAfter space newRows us) i k = .ok s := by
    ext ⟨k₁, k₂⟩
    simp only [Finset.mem_filter, Finset.mem_biUnion, Finset.mem_product, Finset.mem_range]
    unfold sampleOnceF
    rw [rowProbasF_closed S space newRows us hT, if_neg hpos.ne']
    constructor
    · rintro ⟨⟨h₁, h₂⟩, hx⟩
      obtain ⟨i, hi, hil, -⟩ := choiceF_spec (areaWts space newRows us) (by rw [areaWts_sum]; exact hpos)
        (by simpa [areaWts] using hn) k₁ h₁
      rw [hi] at hx
      exact ⟨i, by simpa [areaWts] using hil, ⟨h₁, hi⟩, h₂, hx⟩
    · rintro ⟨i, -, ⟨h₁, hi⟩, h₂, hx⟩
      refine ⟨⟨h₁, h₂⟩, ?_⟩
      rw [hi]
      exact hx
  unfold tailChanceF
  rw [hset, Finset.card_biUnion]
  · rw [Nat.cast_sum, Finset.sum_div]
    apply Finset.sum_congr rfl
    intro i _
    rw [Finset.card_product, Nat.cast_mul]
    unfold chanceF rowChanceF
    rw [div_mul_div_comm]
  · intro a _ b _ hab
    rw [Function.onFun, Finset.disjoint_left]
    rintro ⟨k₁, k₂⟩ hka hkb
    simp only [Finset.mem_filter, Finset.mem_product] at hka hkb
    exact hab (Except.ok.inj (hka.1.2.symm.trans hkb.1.2))

/-- **C128.** The law. With `n` rows of at most `m` samples each, the probability that the call in double
precision returns `s` differs from the uncovered area of `s` divided by the total uncovered area by at most
`(n (10 n + 11) + m (10 m + 11)) 2⁻⁵³`. -/
theorem C128_law (S : Summation) (space : List (Finset ℤ)) (newRows : List (List ℕ))
    (us : List (List ℕ × List ℤ)) (st : UState) (h : applyUpdates (freshSampler space newRows) us = .ok st)
    (hpos : 0 < totalArea space newRows us) (hT : totalArea space newRows us ≤ 2 ^ 53)
    (hn : newRows.length ≤ 2 ^ 23) (m : ℕ) (hm : ∀ r ∈ newRows, r.length ≤ m) (hm2 : m ≤ 2 ^ 23) (s : Finset ℤ) :
    |tailChanceF S st s - (sampleArea space newRows us s : ℝ) / totalArea space newRows us| ≤
      (newRows.length * (10 * newRows.length + 11) + m * (10 * m + 11)) / 2 ^ 53 := by
  classical
  obtain ⟨-, rfl⟩ := fresh_applyUpdates_inv h
  have hTr : (0 : ℝ) < totalArea space newRows us := by exact_mod_cast hpos
  have hal : (areaWts space newRows us).length = newRows.length := by simp [areaWts]
  have hag : ∀ i < newRows.length, (areaWts space newRows us).getD i 0 = rowArea space newRows us i := by
    intro i hi
    rw [List.getD_eq_getElem _ _ (by rw [hal]; exact hi)]
    simp [areaWts]
  rw [tailChanceF_eq S space newRows us hpos hT hn s, sampleArea, Nat.cast_sum, Finset.sum_div,
    ← Finset.sum_sub_distrib]
  refine (Finset.abs_sum_le_sum_abs _ _).trans ?_
  have hb : ∀ i ∈ Finset.range newRows.length,
      |chanceF (probsF (areaWts space newRows us)) i * rowChanceF S (stateAfter space newRows us) i s -
        ((((newRows.getD i []).filter fun id => decide (space.getD id ∅ = s)).length *
          (uncoveredPart us i s).card : ℕ) : ℝ) / totalArea space newRows us| ≤
      (10 * newRows.length + 11) / 2 ^ 53 +
        (rowArea space newRows us i : ℝ) / totalArea space newRows us * (m * ((10 * m + 11) / 2 ^ 53)) := by
    intro i hi
    rw [Finset.mem_range] at hi
    have h1 := chanceF_error (areaWts space newRows us) (by rw [areaWts_sum]; exact hpos) (by rw [hal]; exact hn) i
      (by rw [hal]; exact hi)
    rw [hag i hi, areaWts_sum, hal] at h1
    set c := chanceF (probsF (areaWts space newRows us)) i
    set R := rowChanceF S (stateAfter space newRows us) i s with hR
    have hR0 : 0 ≤ R := div_nonneg (Nat.cast_nonneg _) (by positivity)
    have hR1 : R ≤ 1 := share_le_one _
    set a : ℕ := ((newRows.getD i []).filter fun id => decide (space.getD id ∅ = s)).length *
          (uncoveredPart us i s).card with ha
    set r := rowArea space newRows us i with hr
    set T : ℝ := (totalArea space newRows us : ℝ) with hTdef
    have hterm1 : |(c - r / T) * R| ≤ (10 * newRows.length + 11) / 2 ^ 53 := by
      rw [abs_mul, abs_of_nonneg hR0]
      calc |c - r / T| * R ≤ |c - r / T| * 1 := mul_le_mul_of_nonneg_left hR1 (abs_nonneg _)
        _ ≤ _ := by rw [mul_one]; exact h1
    have hterm2 : |(r : ℝ) / T * R - a / T| ≤ (r : ℝ) / T * (m * ((10 * m + 11) / 2 ^ 53)) := by
      by_cases h0 : r = 0
      · have ha0 : a = 0 := by
          by_cases hex : ∃ id ∈ newRows.getD i [], space.getD id ∅ = s
          · obtain ⟨id, hid, rfl⟩ := hex
            have : uncoveredPart us i (space.getD id ∅) = ∅ := by
              rw [Finset.eq_empty_iff_forall_notMem]
              intro el hel
              simp only [uncoveredPart, Finset.mem_filter] at hel
              exact hel.2 ((rowArea_eq_zero_iff space newRows us i).mp h0 id hid el hel.1)
            rw [ha, this]; simp
          · have : ((newRows.getD i []).filter fun id => decide (space.getD id ∅ = s)) = [] := by
              rw [List.filter_eq_nil_iff]
              intro id hid hc
              exact hex ⟨id, hid, by simpa using hc⟩
            rw [ha, this]; simp
        rw [ha0, h0]
        simp
      · have h2 := rowChanceF_error S space newRows us hT i hi m
          (by rw [List.getD_eq_getElem _ _ hi]; exact hm _ (List.getElem_mem hi)) hm2 (Nat.pos_of_ne_zero h0) s
        rw [← hR, ← ha, ← hr] at h2
        have hr0 : (0 : ℝ) < r := by exact_mod_cast Nat.pos_of_ne_zero h0
        have e : (r : ℝ) / T * R - a / T = (r : ℝ) / T * (R - a / r) := by
          field_simp
        rw [e, abs_mul, abs_of_nonneg (a := (r : ℝ) / T) (by positivity)]
        exact mul_le_mul_of_nonneg_left h2 (by positivity)
    have e : c * R - a / T = (c - r / T) * R + ((r : ℝ) / T * R - a / T) := by ring
    rw [e]
    exact (abs_add_le _ _).trans (add_le_add hterm1 hterm2)
  refine (Finset.sum_le_sum hb).trans (le_of_eq ?_)
  rw [Finset.sum_add_distrib, ← Finset.sum_mul, Finset.sum_const, Finset.card_range, nsmul_eq_mul,
    ← Finset.sum_div, ← Nat.cast_sum]
  have : ((∑ i ∈ Finset.range newRows.length, rowArea space newRows us i : ℕ) : ℝ) / totalArea space newRows us = 1 :=
    div_self hTr.ne'
  rw [this]
  ring

/-- **C128.** Nothing becomes unreachable: as long as the total uncovered area is below
`2⁵³ / (n (10 n + 11) + m (10 m + 11))`, every tail that the exact sampler can return is returned for some pair of
variates. -/
theorem C128_reachable (S : Summation) (space : List (Finset ℤ)) (newRows : List (List ℕ))
    (us : List (List ℕ × List ℤ)) (st : UState) (h : applyUpdates (freshSampler space newRows) us = .ok st)
    (hn : newRows.length ≤ 2 ^ 23) (m : ℕ) (hm : ∀ r ∈ newRows, r.length ≤ m) (hm2 : m ≤ 2 ^ 23)
    (hT : (newRows.length * (10 * newRows.length + 11) + m * (10 * m + 11)) * totalArea space newRows us < 2 ^ 53)
    (s : Finset ℤ) (i : ℕ) (hi : i < newRows.length) (id : ℕ) (hid : id ∈ newRows.getD i [])
    (hs : space[id]? = some s) (el : ℤ) (hel : el ∈ s) (hc : ¬ CoveredBy us i el) :
    ∃ k₁ < 2 ^ 53, ∃ k₂ < 2 ^ 53, sampleOnceF S st k₁ k₂ = .ok s := by
  classical
  have hsp : space.getD id ∅ = s := by rw [List.getD_eq_getElem?_getD, hs]; rfl
  have hsa : 0 < sampleArea space newRows us s := by
    unfold sampleArea
    refine Finset.sum_pos' (fun _ _ => Nat.zero_le _) ⟨i, Finset.mem_range.mpr hi, Nat.mul_pos ?_ ?_⟩
    · exact List.length_pos_of_mem (List.mem_filter.mpr ⟨hid, by simpa using hsp⟩)
    · refine Finset.card_pos.mpr ⟨el, ?_⟩
      simp only [uncoveredPart, Finset.mem_filter]
      exact ⟨hel, hc⟩
  have hpos : 0 < totalArea space newRows us := by
    refine Nat.pos_of_ne_zero fun h0 => hc ?_
    exact (rowArea_eq_zero_iff space newRows us i).mp
      ((totalArea_eq_zero_iff space newRows us).mp h0 i hi) id hid el (by rw [hsp]; exact hel)
  have hn1 : 1 ≤ newRows.length := by omega
  have hT' : totalArea space newRows us ≤ 2 ^ 53 := by
    have h1 : 1 ≤ newRows.length * (10 * newRows.length + 11) + m * (10 * m + 11) :=
      Nat.le_add_right_of_le (Nat.mul_pos (by omega) (by omega))
    calc totalArea space newRows us = 1 * totalArea space newRows us := (one_mul _).symm
      _ ≤ _ := Nat.mul_le_mul_right _ h1
      _ ≤ 2 ^ 53 := hT.le
  have hlaw := C128_law S space newRows us st h hpos hT' hn m hm hm2 s
  have hTr : (0 : ℝ) < totalArea space newRows us := by exact_mod_cast hpos
  have hlow : (newRows.length * (10 * newRows.length + 11) + m * (10 * m + 11)) / 2 ^ 53 <
      (sampleArea space newRows us s : ℝ) / totalArea space newRows us := by
    rw [div_lt_div_iff₀ (by positivity) hTr]
    have h1 : (((newRows.length * (10 * newRows.length + 11) + m * (10 * m + 11)) * totalArea space newRows us : ℕ) : ℝ)
        < ((2 ^ 53 : ℕ) : ℝ) := Nat.cast_lt.mpr hT
    have h2 : (1 : ℝ) ≤ sampleArea space newRows us s := by exact_mod_cast hsa
    rw [Nat.cast_pow, Nat.cast_ofNat] at h1
    have h3 : (2 : ℝ) ^ 53 ≤ sampleArea space newRows us s * 2 ^ 53 := le_mul_of_one_le_left (by positivity) h2
    refine lt_of_lt_of_le ?_ h3
    refine lt_of_le_of_lt (le_of_eq ?_) h1
    push_cast
    rfl
  have hch : 0 < tailChanceF S st s := by
    rw [abs_le] at hlaw
    linarith [hlaw.1]
  by_contra hcon
  push Not at hcon
  have : tailChanceF S st s = 0 := by
    unfold tailChanceF
    rw [Finset.card_eq_zero.mpr, Nat.cast_zero, zero_div]
    rw [Finset.filter_eq_empty_iff]
    rintro ⟨k₁, k₂⟩ hk
    simp only [Finset.mem_product, Finset.mem_range] at hk
    exact hcon k₁ hk.1 k₂ hk.2
  exact hch.ne' this

/-- Adding from the right. -/
def rightTree : ℝ → List ℝ → FTree
  | x, [] => .leaf x
  | x, y :: l => .node (.leaf x) (rightTree y l)

theorem rightTree_leaves : ∀ (l : List ℝ) (x : ℝ), (rightTree x l).leaves = x :: l
  | [], _ => rfl
  | y :: l, x => by
    show [x] ++ (rightTree y l).leaves = _
    rw [rightTree_leaves l y]
    rfl

/-- One order of additions. -/
theorem exists_summation : Nonempty Summation := by
  refine ⟨⟨fun l => match l with | [] => .leaf 0 | x :: l => rightTree x l, fun l hl => ?_⟩⟩
  cases l with
  | nil => exact absurd rfl hl
  | cons x l => exact List.Perm.of_eq (rightTree_leaves l x)

example : ∃ (S : Summation) (st : UState),
    applyUpdates (freshSampler demoSpace demoRows) [([0], [1])] = .ok st ∧
    (∀ k₁ < 2 ^ 53, ∀ k₂ < 2 ^ 53, ∃ s, sampleOnceF S st k₁ k₂ = .ok s) ∧
    (∃ k₁ < 2 ^ 53, ∃ k₂ < 2 ^ 53, sampleOnceF S st k₁ k₂ = .ok {0, 1}) ∧
    |tailChanceF S st {0, 1} - 1 / 3| ≤ 185 / 2 ^ 53 := by
  obtain ⟨S⟩ := exists_summation
  obtain ⟨st, h⟩ := (C32_updates_succeed_iff demoSpace demoRows [([0], [1])]).mpr (by decide)
  have hT : totalArea demoSpace demoRows [([0], [1])] = 3 := by decide
  have hA : sampleArea demoSpace demoRows [([0], [1])] {0, 1} = 1 := by decide
  have hl : demoRows.length = 2 := rfl
  refine ⟨S, st, h, fun k₁ h₁ k₂ h₂ => ?_, ?_, ?_⟩
  · obtain ⟨s, hs, -⟩ := C128_returns S demoSpace demoRows _ st h (by rw [hT]; norm_num) (by rw [hT]; norm_num)
      (by rw [hl]; norm_num) (fun r hr => by
        have : r.length ≤ 3 := by revert r; decide
        exact this.trans (by norm_num)) k₁ k₂ h₁ h₂
    exact ⟨s, hs⟩
  · exact C128_reachable S demoSpace demoRows _ st h (by rw [hl]; norm_num) 3 (by decide) (by norm_num)
      (by rw [hT, hl]; norm_num) {0, 1} 0 (by decide) 2 (by decide) rfl 0 (by decide) (by decide)
  · have := C128_law S demoSpace demoRows _ st h (by rw [hT]; norm_num) (by rw [hT]; norm_num)
      (by rw [hl]; norm_num) 3 (by decide) (by norm_num) {0, 1}
    rw [hT, hA, hl] at this
    norm_num at this ⊢
    exact this

end Verif
