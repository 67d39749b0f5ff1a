/-
Integer overflow in the row weights of the frequency and area samplers (C75).
-/
import Verif.Props.Local

namespace Verif

open RandR Cftp

theorem npChoiceR_outcome_any {p : List ℝ} {x : Py ℕ} (h : (npChoiceR p).Outcome x) :
    x = .error .valueError ∨ ∃ i, ∃ h : i < p.length, 0 < p[i] ∧ x = .ok i := by
  by_cases hc : p ≠ [] ∧ (∀ q ∈ p, 0 ≤ q) ∧ p.sum = 1
  · exact Or.inr ((npChoiceR_outcome hc.1 hc.2.1 hc.2.2).mp h)
  · unfold npChoiceR at h
    rw [if_neg hc] at h
    exact Or.inl h

/-- Weights of both signs, or of sum zero, are no distribution. -/
theorem npChoiceR_bad {ws : List ℤ} (h : ((∃ a ∈ ws, 0 < a) ∧ ∃ b ∈ ws, b < 0) ∨ ∀ a ∈ ws, a = 0) :
    npChoiceR (normaliseI64 ws) = .raise .valueError := by
  refine if_neg ?_
  rintro ⟨-, hnn, hsum⟩
  have hq : ∀ a ∈ ws, 0 ≤ (a : ℝ) / ((i64 ws.sum : ℤ) : ℝ) := fun a ha =>
    hnn _ (List.mem_map.mpr ⟨a, ha, rfl⟩)
  have hzero : (normaliseI64 ws).sum = (ws.map fun x : ℤ => (x : ℝ)).sum / ((i64 ws.sum : ℤ) : ℝ) := by
    rw [← sum_map_div, List.map_map]
    rfl
  rcases h with ⟨⟨a, ha, hpos⟩, b, hb, hneg⟩ | h0
  · have h1 := hq a ha
    have h2 := hq b hb
    have ha' : (0 : ℝ) < a := by exact_mod_cast hpos
    have hb' : (b : ℝ) < 0 := by exact_mod_cast hneg
    rcases lt_trichotomy ((i64 ws.sum : ℤ) : ℝ) 0 with hs | hs | hs
    · exact absurd h1 (not_le.mpr (div_neg_of_pos_of_neg ha' hs))
    · rw [hzero, hs, div_zero] at hsum
      norm_num at hsum
    · exact absurd h2 (not_le.mpr (div_neg_of_neg_of_pos hb' hs))
  · have : (ws.map fun x : ℤ => (x : ℝ)).sum = 0 := by
      apply List.sum_eq_zero
      intro x hx
      obtain ⟨a, ha, rfl⟩ := List.mem_map.mp hx
      rw [h0 a ha]
      simp
    rw [hzero, this, zero_div] at hsum
    norm_num at hsum

theorem i64_zero_of_dvd {z : ℤ} (h : (2 : ℤ) ^ 64 ∣ z) : i64 z = 0 := by
  unfold i64
  rw [← Int.dvd_iff_bmod_eq_zero]
  exact_mod_cast h

theorem i64_pow_ge {n : ℕ} (h : 64 ≤ n) : i64 (2 ^ n) = 0 := i64_zero_of_dvd (pow_dvd_pow 2 h)

theorem i64_pow_63 {n : ℕ} (h : n = 63) : i64 (2 ^ n) < 0 := by
  subst h
  decide

theorem i64_pow_lt {n : ℕ} (h : n < 63) : i64 (2 ^ n) = 2 ^ n := by
  apply i64_small (by positivity)
  exact pow_lt_pow_right₀ (by norm_num) h

theorem i64_pow_pos {n : ℕ} (h : n < 63) : 0 < i64 (2 ^ n) := by
  rw [i64_pow_lt h]
  exact pow_pos (by norm_num) n

/-- The area weight of a row of `k` labels. -/
def areaWeight (k : ℕ) : ℤ := i64 (i64 (2 ^ (k - 1)) * k)

theorem areaWeight_ge {k : ℕ} (h : 64 ≤ k) : areaWeight k = 0 := by
  unfold areaWeight
  by_cases hk : k = 64
  · subst hk; decide
  · rw [i64_pow_ge (by omega : 64 ≤ k - 1)]
    simp [i64]

theorem areaWeight_neg {k : ℕ} (h : 59 ≤ k) (h' : k < 64) : areaWeight k < 0 := by
  interval_cases k <;> decide

theorem areaWeight_pos {k : ℕ} (h : 0 < k) (h' : k < 59) : 0 < areaWeight k := by
  interval_cases k <;> decide

/-- **C75** Rows with 64 or more labels are never drawn by the frequency sampler: every itemset it returns
is contained in a row with fewer. -/
theorem C75_long_rows_lost (order : Finset ℕ → List ℕ) (ho : Traverses order) (Y : Cmp) (hb : Y.Binary)
    (rounds : ℕ) (F : Finset ℕ)
    (h : (freqSampleOnce order (freqFit Y).1 (freqFit Y).2 rounds).Outcome (.ok (some F))) :
    F ≠ ∅ ∧ ∃ i < Y.nMajor, (∀ j ∈ F, Y.Stored i j) ∧ (rowSet Y i).card < 64 := by
  rcases outcome_retry rounds h with h | ⟨a, ha, hok, h⟩ | ⟨e, -, h⟩
  · cases h
  · cases h
    rw [decide_eq_true_eq] at hok
    refine ⟨by rintro rfl; simp at hok, ?_⟩
    unfold freqRound at ha
    rw [RandR.bind_eq, RandR.outcome_bind] at ha
    rcases ha with ⟨i, hi, hF⟩ | ⟨e, -, he⟩
    · rcases npChoiceR_outcome_any hi with hi | ⟨i', hi', hpos, he⟩
      · cases hi
      · cases he
        obtain ⟨F', hsub, e'⟩ := outcome_coinSubset hF
        cases e'
        have hrows : (freqFit Y).1 = (List.range Y.nMajor).map (rowSet Y) := sets_binary hb
        have hlen : i < Y.nMajor := by
          simpa [freqFit, normaliseI64, sets_binary hb] using hi'
        have hrow : (freqFit Y).1.getD i ∅ = rowSet Y i := by
          rw [hrows, getD_lt (by simpa using hlen)]
          simp
        refine ⟨i, hlen, ?_, ?_⟩
        · intro j hj
          rw [← mem_rowSet, ← hrow, ← (ho _).2]
          exact List.mem_toFinset.mp (hsub hj)
        · by_contra hge
          have : (freqFit Y).2[i] = 0 := by
            simp only [freqFit, normaliseI64, sets_binary hb, List.getElem_map, List.getElem_range]
            rw [i64_pow_ge (not_lt.mp hge)]
            simp
          rw [this] at hpos
          exact lt_irrefl _ hpos
    · cases he
  · cases h

theorem freqWeights_bad (Y : Cmp)
    (h : (∀ i < Y.nMajor, 64 ≤ (rowSet Y i).card) ∨
      ((∃ i < Y.nMajor, (rowSet Y i).card = 63) ∧ ∃ i < Y.nMajor, (rowSet Y i).card < 63)) :
    ((∃ a ∈ ((List.range Y.nMajor).map (rowSet Y)).map fun r => i64 (2 ^ r.card), 0 < a) ∧
      ∃ a ∈ ((List.range Y.nMajor).map (rowSet Y)).map fun r => i64 (2 ^ r.card), a < 0) ∨
    ∀ a ∈ ((List.range Y.nMajor).map (rowSet Y)).map fun r => i64 (2 ^ r.card), a = 0 := by
  have key : ∀ w : Finset ℕ → ℤ, (∀ r, 64 ≤ r.card → w r = 0) → (∀ r, r.card = 63 → w r < 0) →
      (∀ r, r.card < 63 → 0 < w r) →
      ((∃ a ∈ ((List.range Y.nMajor).map (rowSet Y)).map w, 0 < a) ∧
        ∃ a ∈ ((List.range Y.nMajor).map (rowSet Y)).map w, a < 0) ∨
      ∀ a ∈ ((List.range Y.nMajor).map (rowSet Y)).map w, a = 0 := by
    intro w h1 h2 h3
    simp only [List.map_map, List.mem_map, List.mem_range, Function.comp_apply]
    rcases h with h | ⟨⟨i, hi, h63⟩, k, hk, hlt⟩
    · right
      rintro a ⟨i, hi, rfl⟩
      exact h1 _ (h i hi)
    · left
      exact ⟨⟨_, ⟨k, hk, rfl⟩, h3 _ hlt⟩, _, ⟨i, hi, rfl⟩, h2 _ h63⟩
  exact key _ (fun r hr => i64_pow_ge hr) (fun r hr => i64_pow_63 hr) fun r hr => i64_pow_pos hr

theorem freqChoice_bad (Y : Cmp) (hb : Y.Binary)
    (h : (∀ i < Y.nMajor, 64 ≤ (rowSet Y i).card) ∨
      ((∃ i < Y.nMajor, (rowSet Y i).card = 63) ∧ ∃ i < Y.nMajor, (rowSet Y i).card < 63)) :
    npChoiceR (freqFit Y).2 = .raise .valueError := by
  have := npChoiceR_bad (freqWeights_bad Y h)
  unfold freqFit
  rw [sets_binary hb]
  exact this

/-- **C75** If every row has 64 or more labels, or some row has 63 and another one fewer, no sample can be
drawn: the first draw raises `ValueError`. -/
theorem C75_no_sample (order : Finset ℕ → List ℕ) (Y : Cmp) (hb : Y.Binary) (rounds : ℕ)
    (h : (∀ i < Y.nMajor, 64 ≤ (rowSet Y i).card) ∨
      ((∃ i < Y.nMajor, (rowSet Y i).card = 63) ∧ ∃ i < Y.nMajor, (rowSet Y i).card < 63)) :
    freqSampleOnce order (freqFit Y).1 (freqFit Y).2 (rounds + 1) = .raise .valueError := by
  have := freqChoice_bad Y hb h
  unfold freqSampleOnce
  rw [retry]
  unfold freqRound
  rw [this]
  rfl

/-- **C75** The area sampler loses rows with 64 or more labels in the same way, and fails with `ValueError`
when some row has between 59 and 63 labels and another non-empty one has fewer. -/
theorem C75_area (order : Finset ℕ → List ℕ) (ho : Traverses order) (Y : Cmp) (hb : Y.Binary) :
    ∃ rows probas, areaFit Y = .ok (rows, probas) ∧
      (∀ F, (areaSampleOnce order rows probas).Outcome (.ok F) →
        ∃ i < Y.nMajor, (∀ j ∈ F, Y.Stored i j) ∧ (rowSet Y i).card < 64) ∧
      (((∃ i < Y.nMajor, 59 ≤ (rowSet Y i).card ∧ (rowSet Y i).card < 64) ∧
          ∃ i < Y.nMajor, 0 < (rowSet Y i).card ∧ (rowSet Y i).card < 59) ∨
        (∀ i < Y.nMajor, (rowSet Y i).card = 0 ∨ 64 ≤ (rowSet Y i).card) →
        areaSampleOnce order rows probas = .raise .valueError) := by
  set rows := ((List.range Y.nMajor).filter fun i => decide (0 < (rowSet Y i).card)).map (rowSet Y) with hrows
  have hmem : ∀ r, r ∈ rows ↔ ∃ i < Y.nMajor, 0 < (rowSet Y i).card ∧ rowSet Y i = r := by
    intro r
    simp [hrows, and_assoc]
  have hpos : ∀ r ∈ rows, 0 < r.card := by
    intro r hr
    obtain ⟨i, -, h, rfl⟩ := (hmem r).mp hr
    exact h
  refine ⟨rows, normaliseI64 (rows.map fun r => areaWeight r.card), ?_, ?_, ?_⟩
  · unfold areaFit
    simp only
    rw [sets_selected hb, ← hrows, if_pos hpos]
    rfl
  · intro F h
    unfold areaSampleOnce at h
    rw [RandR.bind_eq, RandR.outcome_bind] at h
    rcases h with ⟨i, hi, hF⟩ | ⟨e, -, he⟩
    · rcases npChoiceR_outcome_any hi with hi | ⟨i', hi', hp, he⟩
      · cases hi
      · cases he
        have hlen : i < rows.length := by simpa [normaliseI64] using hi'
        have hr : rows.getD i ∅ ∈ rows := by
          rw [getD_lt hlen]
          exact List.getElem_mem hlen
        obtain ⟨F', e', -, hsub⟩ := outcome_areaRow ho (hpos _ hr) hF
        cases e'
        obtain ⟨k, hk, -, hkr⟩ := (hmem _).mp hr
        refine ⟨k, hk, ?_, ?_⟩
        · intro j hj
          rw [← mem_rowSet, hkr]
          exact hsub hj
        · rw [hkr]
          by_contra hge
          have : (normaliseI64 (rows.map fun r => areaWeight r.card))[i] = 0 := by
            simp only [normaliseI64, List.getElem_map]
            rw [getD_lt hlen] at hge
            rw [areaWeight_ge (not_lt.mp hge)]
            simp
          rw [this] at hp
          exact lt_irrefl _ hp
    · cases he
  · intro h
    have : npChoiceR (normaliseI64 (rows.map fun r => areaWeight r.card)) = .raise .valueError := by
      apply npChoiceR_bad
      rcases h with ⟨⟨i, hi, h1, h2⟩, k, hk, h3, h4⟩ | h
      · left
        exact ⟨⟨_, List.mem_map.mpr ⟨_, (hmem _).mpr ⟨k, hk, h3, rfl⟩, rfl⟩, areaWeight_pos h3 h4⟩,
          _, List.mem_map.mpr ⟨_, (hmem _).mpr ⟨i, hi, by omega, rfl⟩, rfl⟩, areaWeight_neg h1 h2⟩
      · right
        intro a ha
        obtain ⟨r, hr, rfl⟩ := List.mem_map.mp ha
        obtain ⟨i, hi, h0, rfl⟩ := (hmem r).mp hr
        rcases h i hi with h' | h'
        · omega
        · exact areaWeight_ge h'
    unfold areaSampleOnce
    rw [this]
    rfl

/-! ### The hypotheses are met -/

/-- One row with the labels `0, …, n - 1`, and one with the label 0 only. -/
def longRow (n : ℕ) : Cmp :=
  { nMajor := 2, nMinor := n, indptr := [0, n, n + 1], indices := List.range n ++ [0], data := List.replicate (n + 1) 1 }

theorem longRow_binary {n : ℕ} (hn : 0 < n) : (longRow n).Binary where
  len_indptr := rfl
  ptr_zero := rfl
  ptr_mono := by
    intro i hi
    simp only [longRow] at hi
    interval_cases i <;> simp [longRow, Cmp.ptr]
  ptr_last := by simp [longRow, Cmp.ptr]
  len_data := by simp [longRow]
  idx_lt := by
    intro j hj
    simp only [longRow, List.mem_append, List.mem_range, List.mem_singleton] at hj ⊢
    omega
  data_one := by
    intro d hd
    exact List.eq_of_mem_replicate hd
  nodup := by
    intro i hi
    simp only [longRow] at hi
    interval_cases i
    · simp [longRow, Cmp.segIdx, Cmp.ptr, pySlice, List.nodup_range]
    · simp [longRow, Cmp.segIdx, Cmp.ptr, pySlice]

theorem longRow_card (n : ℕ) : (rowSet (longRow n) 0).card = n := by
  simp [rowSet, longRow, Cmp.segIdx, Cmp.ptr, pySlice, List.toFinset_range]

example : (longRow 63).Binary ∧ (rowSet (longRow 63) 0).card = 63 ∧ (rowSet (longRow 63) 1).card < 63 := by
  refine ⟨longRow_binary (by decide), longRow_card 63, ?_⟩
  simp [rowSet, longRow, Cmp.segIdx, Cmp.ptr, pySlice]

end Verif
