/-
C139: rounding and overflow in the greedy tail sampler.
-/
import Verif.Lemmas.FloatChoices
import Verif.Lemmas.FloatBoleyFit
import Verif.Props.GreedyArea

namespace Verif

namespace GreedyArea

variable {order : Finset ℕ → List ℕ}

/-- The number of labels of row `i`. -/
noncomputable def labelCount (Y : List (List ℤ)) (i : ℕ) : ℕ := (labelsOf Y i).card

/-- The area weight as a real number. -/
noncomputable def areaReal (n : ℕ) : ℝ := (n : ℝ) * 2 ^ (n - 1)

theorem areaReal_cast (Y : List (List ℤ)) (i : ℕ) : ((areaWeight Y i : ℚ) : ℝ) = areaReal (labelCount Y i) := by
  simp [areaWeight, areaReal, labelCount]

theorem areaReal_nonneg (n : ℕ) : 0 ≤ areaReal n := by unfold areaReal; positivity

theorem areaReal_pos {n : ℕ} (h : 0 < n) : 0 < areaReal n := by unfold areaReal; positivity

theorem areaReal_double {n : ℕ} (h : n ≤ 2 ^ 53) : IsDouble (areaReal n) :=
  IsDouble.mul_two_pow ⟨n, 0, by rw [abs_of_nonneg (by positivity)]; exact_mod_cast h, by simp⟩ _

theorem areaReal_lt {n : ℕ} (h : n ≤ 1015) : areaReal n < 2 ^ 1024 := by
  have h1 : (n : ℝ) < 2 ^ 10 := by
    have : n < 2 ^ 10 := by omega
    exact_mod_cast this
  have h2 : (2 : ℝ) ^ (n - 1) ≤ 2 ^ 1014 := pow_le_pow_right₀ (by norm_num) (by omega)
  calc areaReal n < 2 ^ 10 * 2 ^ (n - 1) := mul_lt_mul_of_pos_right h1 (by positivity)
    _ ≤ 2 ^ 10 * 2 ^ 1014 := mul_le_mul_of_nonneg_left h2 (by positivity)
    _ = 2 ^ 1024 := by rw [← pow_add]

theorem le_areaReal {n : ℕ} (h : 1016 ≤ n) : 2 ^ 1024 ≤ areaReal n := by
  have h1 : (2 : ℝ) ^ 9 ≤ n := by
    have : 2 ^ 9 ≤ n := by omega
    exact_mod_cast this
  have h2 : (2 : ℝ) ^ 1015 ≤ 2 ^ (n - 1) := pow_le_pow_right₀ (by norm_num) (by omega)
  calc (2 : ℝ) ^ 1024 = (2 : ℝ) ^ 9 * (2 : ℝ) ^ 1015 := by rw [← pow_add]
    _ ≤ (n : ℝ) * (2 : ℝ) ^ (n - 1) := mul_le_mul h1 h2 (by positivity) (by positivity)

theorem tailWeightD_eq {Y : List (List ℤ)} (h01 : ZeroOne Y) {i : ℕ} {row : List ℤ} (h : Y[i]? = some row) :
    tailWeightD row = if 1025 ≤ labelCount Y i then .error .overflowError
      else .ok (Dbl.round (areaReal (labelCount Y i))) := by
  have hm : row ∈ Y := List.mem_of_getElem? h
  rw [tailWeightD, sum_zeroOne (h01 row hm), ones_length h]
  change (if (1024 : ℤ) ≤ (labelCount Y i : ℤ) - 1 then _ else _) = _
  by_cases hc : 1025 ≤ labelCount Y i
  · rw [if_pos hc, if_pos (by omega)]
  · rw [if_neg hc, if_neg (by omega)]
    congr 2
    change (labelCount Y i : ℝ) * (2 : ℝ) ^ ((labelCount Y i : ℤ) - 1) = _
    unfold areaReal
    rcases Nat.eq_zero_or_pos (labelCount Y i) with h0 | h0
    · rw [h0]; simp
    · congr 1
      have : ((labelCount Y i : ℤ) - 1) = ((labelCount Y i - 1 : ℕ) : ℤ) := by omega
      rw [this, zpow_natCast]

theorem mapM_tailWeightD {Y : List (List ℤ)} (h01 : ZeroOne Y) (h : ∀ i < Y.length, labelCount Y i < 1025) :
    Y.mapM tailWeightD = .ok ((List.range Y.length).map fun i => Dbl.round (areaReal (labelCount Y i))) := by
  have key : ∀ (l : List (List ℤ)) (ws : List Dbl), l.length = ws.length →
      (∀ j (hj : j < l.length) (hj' : j < ws.length), tailWeightD l[j] = .ok ws[j]) → l.mapM tailWeightD = .ok ws := by
    intro l
    induction l with
    | nil => intro ws hl _; cases ws with
      | nil => rfl
      | cons _ _ => simp at hl
    | cons r l ih => intro ws hl hw; cases ws with
      | nil => simp at hl
      | cons w ws =>
        rw [List.mapM_cons, show tailWeightD r = .ok w from hw 0 (by simp) (by simp),
          ih ws (by simpa using hl) fun j hj hj' => hw (j + 1) (by simpa using hj) (by simpa using hj')]
        rfl
  refine key Y _ (by simp) fun j hj hj' => ?_
  rw [tailWeightD_eq h01 (List.getElem?_eq_getElem hj), if_neg (by have := h j hj; omega)]
  simp

theorem mapM_tailWeightD_error {Y : List (List ℤ)} (h01 : ZeroOne Y) {i : ℕ} (hi : i < Y.length)
    (h : 1025 ≤ labelCount Y i) : Y.mapM tailWeightD = .error .overflowError := by
  have key : ∀ l : List (List ℤ), (∀ r ∈ l, tailWeightD r = .error .overflowError ∨ ∃ w, tailWeightD r = .ok w) →
      (∃ r ∈ l, tailWeightD r = .error .overflowError) → l.mapM tailWeightD = .error .overflowError := by
    intro l
    induction l with
    | nil => rintro _ ⟨r, hr, -⟩; cases hr
    | cons r l ih =>
      rintro h1 ⟨r', hr', h2⟩
      rw [List.mapM_cons]
      rcases h1 r (by simp) with e | ⟨w, e⟩
      · rw [e]; rfl
      · rw [e]
        have : r' ∈ l := by
          rcases List.mem_cons.1 hr' with rfl | hm
          · rw [e] at h2; cases h2
          · exact hm
        change (do let ws ← l.mapM tailWeightD; pure (w :: ws) : Py (List Dbl)) = _
        rw [ih (fun r hr => h1 r (by simp [hr])) ⟨r', this, h2⟩]
        rfl
  refine key Y ?_ ⟨Y[i], List.getElem_mem hi, ?_⟩
  · intro r _
    rw [tailWeightD]
    split_ifs
    · exact .inl rfl
    · exact .inr ⟨_, rfl⟩
  · rw [tailWeightD_eq h01 (List.getElem?_eq_getElem hi), if_pos h]

/-- **C139.** Fitting on a 0/1 label matrix raises `OverflowError` exactly when some row has 1025 labels or more. -/
theorem C139_fit (ho : Traverses order) {X Y : List (List ℤ)} (h01 : ZeroOne Y) (hlen : X.length ≤ Y.length) :
    (fitD order X Y = .error .overflowError ↔ ∃ i < Y.length, 1025 ≤ (labelsOf Y i).card) ∧
    ((∃ s, fitD order X Y = .ok s) ↔ ∀ i < Y.length, (labelsOf Y i).card ≤ 1024) := by
  obtain ⟨f, hf⟩ := (C93_frequencies_length ho X Y).2 hlen
  by_cases h : ∃ i < Y.length, 1025 ≤ (labelsOf Y i).card
  · obtain ⟨i, hi, hc⟩ := h
    have e : fitD order X Y = .error .overflowError := by
      unfold fitD
      rw [hf]
      change (do let ws ← Y.mapM tailWeightD; pure _ : Py FittedD) = _
      rw [mapM_tailWeightD_error h01 hi hc]
      rfl
    refine ⟨⟨fun _ => ⟨i, hi, hc⟩, fun _ => e⟩, ⟨?_, ?_⟩⟩
    · rintro ⟨s, hs⟩
      rw [e] at hs
      cases hs
    · intro h
      have := h i hi
      omega
  · have h' : ∀ i < Y.length, labelCount Y i < 1025 := fun i hi => by
      by_contra hc
      exact h ⟨i, hi, not_lt.1 hc⟩
    have e : ∃ s, fitD order X Y = .ok s := by
      unfold fitD
      rw [hf]
      change ∃ s, (do let ws ← Y.mapM tailWeightD; pure _ : Py FittedD) = .ok s
      rw [mapM_tailWeightD h01 h']
      exact ⟨_, rfl⟩
    refine ⟨⟨fun h2 => ?_, fun h2 => absurd h2 h⟩, ⟨fun _ i hi => by have := h' i hi; unfold labelCount at this; omega,
      fun _ => e⟩⟩
    obtain ⟨s, hs⟩ := e
    rw [hs] at h2
    cases h2

theorem fitD_inv {X Y : List (List ℤ)} (h01 : ZeroOne Y) {s : FittedD}
    (h : fitD order X Y = .ok s) : computeFrequencies order X Y = .ok s.freqs ∧ s.Y = Y ∧
      (∀ i < Y.length, labelCount Y i < 1025) ∧
      s.weights = (List.range Y.length).map fun i => Dbl.round (areaReal (labelCount Y i)) := by
  have hbound : ∀ i < Y.length, labelCount Y i < 1025 := by
    intro i hi
    by_contra hc
    unfold fitD at h
    cases hf : computeFrequencies order X Y with
    | error e => rw [hf] at h; cases h
    | ok f =>
      rw [hf] at h
      change (do let ws ← Y.mapM tailWeightD; pure _ : Py FittedD) = _ at h
      rw [mapM_tailWeightD_error h01 hi (not_lt.1 hc)] at h
      cases h
  unfold fitD at h
  cases hf : computeFrequencies order X Y with
  | error e => rw [hf] at h; cases h
  | ok f =>
    rw [hf] at h
    change (do let ws ← Y.mapM tailWeightD; pure _ : Py FittedD) = _ at h
    rw [mapM_tailWeightD h01 hbound] at h
    cases h
    exact ⟨rfl, rfl, hbound, rfl⟩

/-- What happens after the row is drawn, in doubles. -/
noncomputable def rowProgramD (strict finite : Bool) (order : Finset ℕ → List ℕ) (f : Freqs) (row : List ℤ) (k₂ : ℕ) :
    Rand (Option (Finset ℕ)) := do
  if ones row = [] then return none
  else do
    let k ← Rand.lift (Dbl.choices strict finite ((List.range (ones row).length).map fun j : ℕ => .num j) k₂)
    let j ← uniformIdx (ones row).length
    let first ← Rand.lift (pyGet (ones row) j)
    let T ← Rand.lift (grow f.label.read order k {first} ((ones row).toFinset.erase first))
    return some T

theorem sampleOnceD_eq (strict finite : Bool) (s : FittedD) (k₁ k₂ : ℕ) : sampleOnceD strict finite order s k₁ k₂ =
    (Rand.lift (Dbl.choices strict finite s.weights k₁)).bind fun i => (Rand.lift (pyGet s.Y i)).bind fun row =>
      rowProgramD strict finite order s.freqs row k₂ := rfl

theorem sampleOnceD_ok (strict finite : Bool) {s : FittedD} {k₁ i : ℕ} (k₂ : ℕ) (hi : i < s.Y.length)
    (h : Dbl.choices strict finite s.weights k₁ = .ok i) : sampleOnceD strict finite order s k₁ k₂ =
      rowProgramD strict finite order s.freqs s.Y[i] k₂ := by
  rw [sampleOnceD_eq, h]
  change (Rand.lift (pyGet s.Y (i : ℤ))).bind _ = _
  rw [pyGet_nat _ i hi]
  rfl

theorem sampleOnceD_error (strict finite : Bool) {s : FittedD} {k₁ : ℕ} (k₂ : ℕ) {e : PyErr}
    (h : Dbl.choices strict finite s.weights k₁ = .error e) :
    sampleOnceD strict finite order s k₁ k₂ = .done (.error e) := by
  rw [sampleOnceD_eq, h]
  rfl

/-! ### After the row is drawn -/

/-- What happens after the row and the size are drawn. -/
def restProgram (order : Finset ℕ → List ℕ) (f : Freqs) (row : List ℤ) (k : ℕ) : Rand (Option (Finset ℕ)) :=
  (uniformIdx (ones row).length).bind fun j => (Rand.lift (pyGet (ones row) j)).bind fun first =>
    (Rand.lift (grow f.label.read order k {first} ((ones row).toFinset.erase first))).bind fun T =>
      (pure (some T) : Rand (Option (Finset ℕ)))

theorem restProgram_proper (f : Freqs) (row : List ℤ) (k : ℕ) : (restProgram order f row k).Proper :=
  Rand.proper_bind _ _ (uniformIdx_proper _) fun _ => Rand.proper_bind _ _ trivial fun _ =>
    Rand.proper_bind _ _ trivial fun _ => trivial

theorem rowProgramD_eq (strict finite : Bool) (f : Freqs) {row : List ℤ} (h : ones row ≠ []) (k₂ : ℕ) :
    rowProgramD strict finite order f row k₂ =
      (Rand.lift (Dbl.choices strict finite ((List.range (ones row).length).map fun j : ℕ => .num j) k₂)).bind
        (restProgram order f row) := by
  unfold rowProgramD
  rw [if_neg h]
  rfl

theorem rowProgram_eq (strict : Bool) (f : Freqs) {row : List ℤ} (h : ones row ≠ []) :
    rowProgram strict order f row =
      (choices strict ((List.range (ones row).length).map fun j : ℕ => (j : ℚ))).bind (restProgram order f row) := by
  unfold rowProgram
  rw [if_neg h]
  rfl

/-- The sizes as real weights. -/
noncomputable def sizes (m : ℕ) : List ℝ := (List.range m).map fun j : ℕ => (j : ℝ)

theorem sizes_num (m : ℕ) : ((List.range m).map fun j : ℕ => Dbl.num j) = (sizes m).map Dbl.num := by
  rw [sizes, List.map_map]
  rfl

theorem sizes_length (m : ℕ) : (sizes m).length = m := by simp [sizes]

theorem sizes_sum (m : ℕ) : (sizes m).sum = (m.choose 2 : ℝ) := by
  have := sum_range_cast m
  have h2 := congrArg (fun q : ℚ => (q : ℝ)) this
  simp only [Rat.cast_natCast, Rat.cast_list_sum, List.map_map] at h2
  rw [← h2, sizes]
  congr 1

theorem sizes_double {m : ℕ} (hm : m ≤ 1024) : ∀ x ∈ sizes m, IsDouble x := by
  intro x hx
  obtain ⟨j, hj, rfl⟩ := List.mem_map.1 hx
  have := List.mem_range.1 hj
  exact ⟨j, 0, by rw [abs_of_nonneg (by positivity)]; exact_mod_cast (by omega : j ≤ 2 ^ 53), by simp⟩

theorem sizes_nonneg (m : ℕ) : ∀ x ∈ sizes m, 0 ≤ x := by
  intro x hx
  obtain ⟨j, hj, rfl⟩ := List.mem_map.1 hx
  positivity

theorem sizes_pos {m : ℕ} (h : 2 ≤ m) : 0 < (sizes m).sum := by
  rw [sizes_sum]
  exact_mod_cast Nat.choose_pos h

theorem total_small {ws : List ℝ} (hd : ∀ x ∈ ws, IsDouble x) (h0 : ∀ x ∈ ws, 0 ≤ x) (hn : ws.length ≤ 2 ^ 50)
    (hs : ws.sum ≤ 2 ^ 1023) : cumF ws ws.length < 2 ^ 1024 := by
  have hcl := cumF_close hd h0 (le_refl ws.length)
  rw [List.take_length] at hcl
  have hsum : 0 ≤ ws.sum := List.sum_nonneg h0
  have h1 := (abs_le.1 (rel_abs (by omega) (cumF_double hd h0 le_rfl).2 hsum hcl)).2
  have h2 : (2 * ((2 * ws.length : ℕ) : ℝ) / 2 ^ 53) ≤ 1 / 2 := by
    have : ((ws.length : ℕ) : ℝ) ≤ 2 ^ 50 := by exact_mod_cast hn
    rw [div_le_iff₀ (by positivity)]
    push_cast
    nlinarith
  have h3 : ws.sum * (2 * ((2 * ws.length : ℕ) : ℝ) / 2 ^ 53) ≤ ws.sum * (1 / 2) := mul_le_mul_of_nonneg_left h2 hsum
  have h4 : (2 : ℝ) ^ 1024 = 2 * 2 ^ 1023 := by rw [← pow_succ']
  have h5 : (0 : ℝ) < 2 ^ 1023 := by positivity
  rw [h4]
  generalize (2 : ℝ) ^ 1023 = M at hs h5 ⊢
  linarith

theorem sizes_small {m : ℕ} (hm : m ≤ 1024) : cumF (sizes m) (sizes m).length < 2 ^ 1024 := by
  refine total_small (sizes_double hm) (sizes_nonneg m) (by rw [sizes_length]; omega) ?_
  rw [sizes_sum]
  have h1 : m.choose 2 ≤ 2 ^ m := Nat.choose_le_two_pow m 2
  have h2 : m.choose 2 ≤ 1024 ^ 2 := (Nat.choose_le_pow m 2).trans (Nat.pow_le_pow_left hm 2)
  have h3 : ((m.choose 2 : ℕ) : ℝ) ≤ 2 ^ 20 := by exact_mod_cast h2
  exact h3.trans (pow_le_pow_right₀ (by norm_num) (by norm_num))

theorem choices_single (strict finite : Bool) (k : ℕ) :
    Dbl.choices strict finite [Dbl.num ((0 : ℕ) : ℝ)] k = if strict then .error .valueError else .ok 0 := by
  unfold Dbl.choices
  simp only [Dbl.accumulate, Dbl.accumulateFrom, List.getLast?_singleton, Dbl.LeZero, Nat.cast_zero, le_refl, and_true,
    Dbl.Finite, not_true, and_false, if_false, List.length_singleton, Nat.sub_self]
  cases strict
  · simp only [Bool.false_eq_true, if_false]
    rw [Dbl.bisect, if_neg (by omega)]
  · simp

/-- A row with several labels: a size is drawn. A row with one label: `ValueError`, before Python 3.9 size one. -/
theorem size_drawn (strict finite : Bool) {m : ℕ} (h1 : 1 ≤ m) (hm : m ≤ 1024) {k₂ : ℕ} (hk : k₂ < 2 ^ 53) :
    (m = 1 ∧ strict = true ∧
      Dbl.choices strict finite ((List.range m).map fun j : ℕ => .num j) k₂ = .error .valueError) ∨
    ((m = 1 → strict = false) ∧
      ∃ k < m, (2 ≤ m → 1 ≤ k) ∧ Dbl.choices strict finite ((List.range m).map fun j : ℕ => .num j) k₂ = .ok k) := by
  rcases Nat.lt_or_ge 1 m with h | h
  · refine .inr ⟨by omega, ?_⟩
    have hcl := cumF_close (sizes_double hm) (sizes_nonneg m) (le_refl (sizes m).length)
    rw [List.take_length] at hcl
    obtain ⟨k, a1, a2, a3, a4⟩ := Dbl.choices_num strict finite (sizes_double hm) (sizes_nonneg m)
      (hcl.pos_iff.2 (sizes_pos h)) (sizes_small hm) hk
    rw [sizes_num, a1]
    rw [sizes_length] at a2
    refine ⟨k, a2, fun _ => ?_, rfl⟩
    rcases Nat.eq_zero_or_pos k with rfl | hk0
    · exfalso
      rw [cumF_succ (sizes_double hm) (by rw [sizes_length]; omega), cumF_zero] at a4
      rw [cumF_zero] at a3
      rw [getD_lt (by rw [sizes_length]; omega)] at a4
      simp only [sizes, List.getElem_map, List.getElem_range, Nat.cast_zero, add_zero, fl_zero] at a4
      exact absurd a4 (not_lt.2 a3)
    · exact hk0
  · obtain rfl : m = 1 := by omega
    have e : ((List.range 1).map fun j : ℕ => Dbl.num j) = [Dbl.num ((0 : ℕ) : ℝ)] := rfl
    rw [e, choices_single]
    cases strict
    · exact .inr ⟨fun _ => rfl, 0, one_pos, by omega, by simp⟩
    · exact .inl ⟨rfl, rfl, by simp⟩

/-- The outcomes for one row. -/
theorem outcome_rowD (strict finite : Bool) (ho : Traverses order) {X Y : List (List ℤ)} {f : Freqs}
    (hf : computeFrequencies order X Y = .ok f) {i : ℕ} {row : List ℤ} (hrow : Y[i]? = some row)
    (hne : (labelsOf Y i).Nonempty) (hc : labelCount Y i ≤ 1024) {k₂ : ℕ} (hk : k₂ < 2 ^ 53)
    {x : Py (Option (Finset ℕ))} (h : (rowProgramD strict finite order f row k₂).Outcome x) :
    (∃ T, x = .ok (some T) ∧ T.Nonempty ∧ T ⊆ labelsOf Y i ∧
      (T.card = 1 → strict = false ∧ labelCount Y i = 1)) ∨
    (x = .error .valueError ∧ strict = true ∧ labelCount Y i = 1) := by
  have hlen := ones_length hrow
  have hm1 : 1 ≤ (ones row).length := by rw [hlen]; exact Finset.card_pos.2 hne
  have hones : ones row ≠ [] := List.length_pos_iff.1 hm1
  have hm : (ones row).length ≤ 1024 := by rw [hlen]; exact hc
  rw [rowProgramD_eq strict finite f hones] at h
  rcases size_drawn strict finite hm1 hm hk with ⟨a1, a2, a3⟩ | ⟨a1, k, a2, a4, a3⟩
  · rw [a3] at h
    refine .inr ⟨h, a2, ?_⟩
    unfold labelCount
    omega
  · rw [a3] at h
    left
    change (restProgram order f row k).Outcome x at h
    rw [restProgram, Rand.outcome_bind] at h
    rcases h with ⟨j, hj, h⟩ | ⟨e, he, -⟩
    · rw [outcome_uniformIdx (by omega)] at hj
      obtain ⟨j', hj', e⟩ := hj
      cases e
      have hmem : (ones row)[j] ∈ (ones row).toFinset := List.mem_toFinset.2 (List.getElem_mem hj')
      have hcard : (ones row).toFinset.card = (ones row).length := List.toFinset_card_of_nodup (nodup_ones row)
      change ((Rand.lift (pyGet (ones row) (j : ℤ))).bind _).Outcome x at h
      rw [pyGet_nat _ j hj'] at h
      change ((Rand.lift (grow f.label.read order k {(ones row)[j]} ((ones row).toFinset.erase (ones row)[j]))).bind
        _).Outcome x at h
      obtain ⟨run, g1, g2, g3, g4⟩ := grow_spec ho hf hmem (k := k) (by rw [hcard]; omega)
      rw [g4] at h
      have hrc : run.toFinset.card = k + 1 := by rw [List.toFinset_card_of_nodup g1.nodup, g3]
      refine ⟨run.toFinset, h, ?_, ?_, ?_⟩
      · exact Finset.card_pos.1 (by omega)
      · intro l hl
        rw [← ones_toFinset hrow]
        exact g1.inside l (List.mem_toFinset.1 hl)
      · intro h1
        have hlc : labelCount Y i = (ones row).length := hlen.symm
        have : (ones row).length = 1 := by
          by_contra hx
          have := a4 (by omega)
          omega
        exact ⟨a1 this, by omega⟩
    · rw [outcome_uniformIdx (by omega)] at he
      obtain ⟨_, _, e'⟩ := he
      cases e'

/-! ### Infinite weights -/

/-- **C139.** If a fitted row has 1016 labels or more, its weight is infinite. From Python 3.10 on every call then raises
`ValueError`, whatever the variates; before, every call uses the last row of the matrix. -/
theorem C139_infinite (strict : Bool) (ho : Traverses order) {X Y : List (List ℤ)} (h01 : ZeroOne Y) {s : FittedD}
    (hfit : fitD order X Y = .ok s) {i : ℕ} (hi : i < Y.length) (hbig : 1016 ≤ (labelsOf Y i).card) (k₁ k₂ : ℕ) :
    sampleOnceD strict true order s k₁ k₂ = .done (.error .valueError) ∧
    (k₂ < 2 ^ 53 → ∀ x, (sampleOnceD strict false order s k₁ k₂).Outcome x →
      (x = .ok none ∧ labelsOf Y (Y.length - 1) = ∅) ∨
      (∃ T, x = .ok (some T) ∧ T.Nonempty ∧ T ⊆ labelsOf Y (Y.length - 1)) ∨
      (x = .error .valueError ∧ strict = true ∧ (labelsOf Y (Y.length - 1)).card = 1)) := by
  obtain ⟨hf, hY, hc, hw⟩ := fitD_inv h01 hfit
  have hinf : Dbl.inf ∈ s.weights := by
    rw [hw]
    refine List.mem_map.2 ⟨i, List.mem_range.2 hi, ?_⟩
    have hb : labelCount Y i ≤ 2 ^ 53 := by have := hc i hi; omega
    rw [Dbl.round, if_neg]
    rw [fl_of_double (areaReal_double hb)]
    exact not_lt.2 (le_areaReal hbig)
  have hnan : ∀ x ∈ s.weights, x ≠ .nan := by
    intro x hx
    rw [hw] at hx
    obtain ⟨j, -, rfl⟩ := List.mem_map.1 hx
    unfold Dbl.round
    split_ifs <;> simp
  constructor
  · refine sampleOnceD_error strict true k₂ ?_
    rw [Dbl.choices_inf strict true hinf hnan]
    simp
  · intro hk x hx
    have hlast : Dbl.choices strict false s.weights k₁ = .ok (Y.length - 1) := by
      rw [Dbl.choices_inf strict false hinf hnan, hw]
      simp
    have hlt : Y.length - 1 < Y.length := by omega
    rw [sampleOnceD_ok strict false k₂ (by rw [hY]; exact hlt) hlast] at hx
    have hrow : Y[Y.length - 1]? = some (s.Y[Y.length - 1]'(by rw [hY]; exact hlt)) := by
      simp only [hY]
      exact List.getElem?_eq_getElem hlt
    rcases (labelsOf Y (Y.length - 1)).eq_empty_or_nonempty with he | hne
    · left
      have h0 : ones (s.Y[Y.length - 1]'(by rw [hY]; exact hlt)) = [] := by
        rw [← List.length_eq_zero_iff, ones_length hrow, he]
        rfl
      rw [rowProgramD, if_pos h0] at hx
      exact ⟨hx, he⟩
    · right
      rcases outcome_rowD strict false ho hf hrow hne (by have := hc _ hlt; omega) hk hx with
        ⟨T, a1, a2, a3, -⟩ | ⟨a1, a2, a3⟩
      · exact .inl ⟨T, a1, a2, a3⟩
      · exact .inr ⟨a1, a2, a3⟩

/-! ### Finite weights -/

/-- The weights as real numbers. -/
noncomputable def realWeights (Y : List (List ℤ)) : List ℝ :=
  (List.range Y.length).map fun i => areaReal (labelCount Y i)

theorem realWeights_length (Y : List (List ℤ)) : (realWeights Y).length = Y.length := by simp [realWeights]

theorem realWeights_getD {Y : List (List ℤ)} {i : ℕ} (hi : i < Y.length) :
    (realWeights Y).getD i 0 = areaReal (labelCount Y i) := by
  rw [getD_lt (by rwa [realWeights_length])]
  simp [realWeights]

theorem realWeights_sum (Y : List (List ℤ)) :
    (realWeights Y).sum = ((∑ i ∈ Finset.range Y.length, areaWeight Y i : ℚ) : ℝ) := by
  rw [Rat.cast_sum, Finset.sum_range, ← List.sum_ofFn]
  congr 1
  apply List.ext_getElem
  · simp [realWeights]
  · intro i h1 h2
    simp [realWeights, areaReal_cast]

theorem realWeights_total (Y : List (List ℤ)) :
    ∑ i ∈ Finset.range Y.length, (realWeights Y).getD i 0 = (realWeights Y).sum := by
  rw [realWeights_sum, Rat.cast_sum]
  refine Finset.sum_congr rfl fun i hi => ?_
  rw [realWeights_getD (Finset.mem_range.1 hi), areaReal_cast]

theorem realWeights_nonneg (Y : List (List ℤ)) : ∀ x ∈ realWeights Y, 0 ≤ x := by
  intro x hx
  obtain ⟨i, -, rfl⟩ := List.mem_map.1 hx
  exact areaReal_nonneg _

theorem realWeights_double {Y : List (List ℤ)} (hc : ∀ i < Y.length, labelCount Y i < 1025) :
    ∀ x ∈ realWeights Y, IsDouble x := by
  intro x hx
  obtain ⟨i, hi, rfl⟩ := List.mem_map.1 hx
  have := hc i (List.mem_range.1 hi)
  exact areaReal_double (by omega)

/-- A total below 2¹⁰²³ leaves no room for a row with more than 1015 labels. -/
theorem count_small {Y : List (List ℤ)} (hsum : ∑ i ∈ Finset.range Y.length, areaWeight Y i ≤ 2 ^ 1023) {i : ℕ}
    (hi : i < Y.length) : labelCount Y i ≤ 1015 := by
  by_contra hc
  have h1 := le_areaReal (n := labelCount Y i) (by omega)
  have h2 : areaWeight Y i ≤ 2 ^ 1023 :=
    (Finset.single_le_sum (f := areaWeight Y) (fun j _ => areaWeight_nonneg Y j) (Finset.mem_range.2 hi)).trans hsum
  have h3 : ((areaWeight Y i : ℚ) : ℝ) ≤ 2 ^ 1023 := by exact_mod_cast h2
  rw [areaReal_cast] at h3
  have h4 : (2 : ℝ) ^ 1023 < 2 ^ 1024 := pow_lt_pow_right₀ (by norm_num) (by norm_num)
  exact absurd (h1.trans h3) (not_le.2 h4)

/-- All that is needed about a fitted sampler with finite weights. -/
theorem finite_facts {X Y : List (List ℤ)} (h01 : ZeroOne Y) {s : FittedD}
    (hfit : fitD order X Y = .ok s) (hn : Y.length ≤ 2 ^ 50)
    (hsum : ∑ i ∈ Finset.range Y.length, areaWeight Y i ≤ 2 ^ 1023) :
    s.weights = (realWeights Y).map Dbl.num ∧ (∀ x ∈ realWeights Y, IsDouble x) ∧
      cumF (realWeights Y) (realWeights Y).length < 2 ^ 1024 := by
  obtain ⟨hf, hY, hc, hw⟩ := fitD_inv h01 hfit
  have hd := realWeights_double hc
  refine ⟨?_, hd, total_small hd (realWeights_nonneg Y) (by rwa [realWeights_length]) ?_⟩
  · rw [hw, realWeights, List.map_map]
    refine List.map_congr_left fun i hi => ?_
    have hi := List.mem_range.1 hi
    have hdi := areaReal_double (n := labelCount Y i) (by have := hc i hi; omega)
    have hlt := areaReal_lt (count_small hsum hi)
    rw [Dbl.round_num (by rwa [fl_of_double hdi]), fl_of_double hdi]
    rfl
  · rw [realWeights_sum]
    exact_mod_cast hsum

theorem sum_real_pos {Y : List (List ℤ)} (hs : ∃ i l, IsOne Y i l) : 0 < (realWeights Y).sum := by
  rw [realWeights_sum]
  exact_mod_cast total_pos hs

theorem total_real_pos {Y : List (List ℤ)} (hd : ∀ x ∈ realWeights Y, IsDouble x) (hs : ∃ i l, IsOne Y i l) :
    0 < cumF (realWeights Y) (realWeights Y).length := by
  have hcl := cumF_close hd (realWeights_nonneg Y) (le_refl (realWeights Y).length)
  rw [List.take_length] at hcl
  exact hcl.pos_iff.2 (sum_real_pos hs)

/-- A drawn row has a label, and no row before it has 54 labels more. -/
theorem drawn_row {Y : List (List ℤ)} (hd : ∀ x ∈ realWeights Y, IsDouble x) {i : ℕ} (hi : i < Y.length)
    (h : cumF (realWeights Y) i < cumF (realWeights Y) (i + 1)) :
    0 < labelCount Y i ∧ ∀ j < i, labelCount Y j < labelCount Y i + 54 := by
  have h0 := realWeights_nonneg Y
  have hil : i < (realWeights Y).length := by rwa [realWeights_length]
  obtain ⟨c1, c2⟩ := cumF_double hd h0 hil.le
  rw [cumF_succ hd hil, realWeights_getD hi] at h
  have hpos : 0 < labelCount Y i := by
    by_contra hc
    have : labelCount Y i = 0 := by omega
    rw [this] at h
    simp only [areaReal, Nat.cast_zero, zero_mul, add_zero, fl_of_double c1] at h
    exact lt_irrefl _ h
  refine ⟨hpos, fun j hj => ?_⟩
  by_contra hc
  have hc := not_lt.1 hc
  have hjl : j < (realWeights Y).length := by omega
  have hjY : j < Y.length := by omega
  have hwj : areaReal (labelCount Y j) ≤ cumF (realWeights Y) (j + 1) := by
    rw [cumF_succ hd hjl, realWeights_getD hjY]
    have hdj : IsDouble (areaReal (labelCount Y j)) := by
      rw [← realWeights_getD hjY, getD_lt hjl]
      exact hd _ (List.getElem_mem hjl)
    rw [add_comm]
    exact fl_add_ge hdj (areaReal_nonneg _) (cumF_double hd h0 hjl.le).2
  have hci : areaReal (labelCount Y j) ≤ cumF (realWeights Y) i := hwj.trans (cumF_mono hd h0 hj hil.le)
  have hbig : areaReal (labelCount Y i) * 2 ^ 54 < areaReal (labelCount Y j) := by
    unfold areaReal
    have e1 : (2 : ℝ) ^ (labelCount Y i - 1) * 2 ^ 54 = 2 ^ (labelCount Y i + 54 - 1) := by
      rw [← pow_add]
      congr 1
      omega
    have e2 : (2 : ℝ) ^ (labelCount Y i + 54 - 1) ≤ 2 ^ (labelCount Y j - 1) :=
      pow_le_pow_right₀ (by norm_num) (by omega)
    have e3 : (labelCount Y i : ℝ) < labelCount Y j := by exact_mod_cast (by omega : labelCount Y i < labelCount Y j)
    rw [mul_assoc, e1]
    exact lt_of_lt_of_le (mul_lt_mul_of_pos_right e3 (by positivity)) (mul_le_mul_of_nonneg_left e2 (by positivity))
  have hpc : 0 < cumF (realWeights Y) i :=
    lt_of_lt_of_le (lt_of_le_of_lt (mul_nonneg (areaReal_nonneg _) (by positivity)) hbig) hci
  rw [fl_absorb c1 hpc (areaReal_nonneg _) (lt_of_lt_of_le hbig hci)] at h
  exact lt_irrefl _ h

/-- **C139.** What can be drawn when the weights are finite: labels of one row that no earlier row outnumbers by 54 labels
or more. The labels that occur only in other rows are never drawn, although in exact arithmetic every row with a label has
a positive probability. -/
theorem C139_outcomes (strict finite : Bool) (ho : Traverses order) {X Y : List (List ℤ)} (h01 : ZeroOne Y) {s : FittedD}
    (hfit : fitD order X Y = .ok s) (hn : Y.length ≤ 2 ^ 50)
    (hsum : ∑ i ∈ Finset.range Y.length, areaWeight Y i ≤ 2 ^ 1023) (hs : ∃ i l, IsOne Y i l) {k₁ k₂ : ℕ}
    (hk₁ : k₁ < 2 ^ 53) (hk₂ : k₂ < 2 ^ 53) {x : Py (Option (Finset ℕ))}
    (hx : (sampleOnceD strict finite order s k₁ k₂).Outcome x) :
    ∃ i < Y.length, (∀ j < i, (labelsOf Y j).card < (labelsOf Y i).card + 54) ∧
      ((∃ T, x = .ok (some T) ∧ T.Nonempty ∧ T ⊆ labelsOf Y i ∧
          (T.card = 1 → strict = false ∧ (labelsOf Y i).card = 1)) ∨
        (x = .error .valueError ∧ strict = true ∧ (labelsOf Y i).card = 1)) := by
  obtain ⟨hf, hY, hc, -⟩ := fitD_inv h01 hfit
  obtain ⟨hw, hd, hfin⟩ := finite_facts h01 hfit hn hsum
  obtain ⟨i, a1, a2, a3, a4⟩ := Dbl.choices_num strict finite hd (realWeights_nonneg Y) (total_real_pos hd hs) hfin hk₁
  rw [← hw] at a1
  rw [realWeights_length] at a2
  obtain ⟨b1, b2⟩ := drawn_row hd a2 (lt_of_le_of_lt a3 a4)
  rw [sampleOnceD_ok strict finite k₂ (by rw [hY]; exact a2) a1] at hx
  have hrow : Y[i]? = some (s.Y[i]'(by rw [hY]; exact a2)) := by
    simp only [hY]
    exact List.getElem?_eq_getElem a2
  exact ⟨i, a2, b2, outcome_rowD strict finite ho hf hrow (Finset.card_pos.1 b1) (by have := hc i a2; omega) hk₂ hx⟩

/-! ### The law -/

theorem two53 : ((2 ^ 53 : ℕ) : ℝ) = 2 ^ 53 := by norm_num

theorem expect_unit {α : Type} {m : Rand α} (hm : m.Proper) {g : Py α → ℚ} (hg : ∀ x, 0 ≤ g x ∧ g x ≤ 1) :
    0 ≤ ((m.expect g : ℚ) : ℝ) ∧ ((m.expect g : ℚ) : ℝ) ≤ 1 := by
  have h1 := Rand.expect_nonneg m hm g fun x => (hg x).1
  have h2 := Rand.expect_mono hm (f := g) (g := fun _ => 1) fun x _ => (hg x).2
  rw [Rand.expect_const m hm] at h2
  exact ⟨by exact_mod_cast h1, by exact_mod_cast h2⟩

/-- Averages over the variate of the size, for one row. -/
theorem row_average (strict finite : Bool) {f : Freqs} {row : List ℤ} (hones : ones row ≠ [])
    (hm : (ones row).length ≤ 1015) {g : Py (Option (Finset ℕ)) → ℚ} (hg : ∀ x, 0 ≤ g x ∧ g x ≤ 1) :
    |(∑ k ∈ Finset.range (2 ^ 53), (((rowProgramD strict finite order f row k).expect g : ℚ) : ℝ)) / 2 ^ 53 -
      (((rowProgram strict order f row).expect g : ℚ) : ℝ)| ≤ 2 ^ 24 / (2 ^ 53 : ℝ) := by
  have hm1 : 0 < (ones row).length := List.length_pos_iff.2 hones
  set m := (ones row).length with hmd
  let h : Py ℕ → ℝ := fun x => match x with
    | .ok k => (((restProgram order f row k).expect g : ℚ) : ℝ)
    | .error e => ((g (.error e) : ℚ) : ℝ)
  have e1 : ∀ k, (((rowProgramD strict finite order f row k).expect g : ℚ) : ℝ) =
      h (Dbl.choices strict finite ((List.range m).map fun j : ℕ => .num j) k) := by
    intro k
    rw [rowProgramD_eq strict finite f hones]
    change ((((Rand.lift (Dbl.choices strict finite ((List.range m).map fun j : ℕ => .num j) k)).bind
      (restProgram order f row)).expect g : ℚ) : ℝ) = _
    cases Dbl.choices strict finite ((List.range m).map fun j : ℕ => Dbl.num j) k with
    | ok i => rfl
    | error e => rfl
  simp only [e1]
  rcases Nat.lt_or_ge 1 m with h2 | h2
  · have hav := Dbl.choices_average strict finite (sizes_double (m := m) (by omega)) (sizes_nonneg m) (sizes_pos h2)
      (sizes_small (by omega)) (by rw [sizes_length]; omega) h
      (fun i _ => expect_unit (restProgram_proper f row i) hg)
    rw [← sizes_num, sizes_length] at hav
    have hex : (((rowProgram strict order f row).expect g : ℚ) : ℝ) =
        ∑ i ∈ Finset.range m, (sizes m).getD i 0 / (sizes m).sum * h (.ok i) := by
      have hs : ((List.range m).map fun j : ℕ => (j : ℚ)).sum ≠ 0 := by
        rw [sum_range_cast]
        exact_mod_cast (Nat.choose_pos h2).ne'
      have hnn : ∀ q ∈ (List.range m).map fun j : ℕ => (j : ℚ), 0 ≤ q := by
        intro q hq
        obtain ⟨j, -, rfl⟩ := List.mem_map.mp hq
        positivity
      rw [rowProgram_eq strict f hones, ← hmd, choices_pos hs, Rand.expect_bind,
        expect_normalised hnn (sum_pos_of_ne hnn hs), sum_range_cast, List.length_map, List.length_range, Rat.cast_div,
        Rat.cast_sum, Finset.sum_div, sizes_sum]
      refine Finset.sum_congr rfl fun i hi => ?_
      have hi := Finset.mem_range.1 hi
      rw [getD_lt (by simpa using hi), getD_lt (by rwa [sizes_length])]
      simp only [sizes, List.getElem_map, List.getElem_range, Rat.cast_mul, Rat.cast_natCast]
      change (i : ℝ) * h (.ok i) / _ = _
      ring
    rw [hex]
    refine hav.trans ?_
    have hmr : (m : ℝ) ≤ 1015 := by exact_mod_cast hm
    refine div_le_div_of_nonneg_right ?_ (by positivity)
    have hm0 : (0 : ℝ) ≤ m := by positivity
    nlinarith
  · have hm1' : m = 1 := by omega
    have hcon : ∀ k, h (Dbl.choices strict finite ((List.range m).map fun j : ℕ => .num j) k) =
        (((rowProgram strict order f row).expect g : ℚ) : ℝ) := by
      intro k
      have e2 : ((List.range m).map fun j : ℕ => Dbl.num j) = [Dbl.num ((0 : ℕ) : ℝ)] := by rw [hm1']; rfl
      have hc : choices strict ((List.range m).map fun j : ℕ => (j : ℚ)) =
          if strict then .raise .valueError else pure 0 := by
        rw [hm1']; simp [choices]
      rw [e2, choices_single, rowProgram_eq strict f hones, ← hmd, hc]
      cases strict <;> rfl
    simp only [hcon]
    rw [Finset.sum_const, Finset.card_range, nsmul_eq_mul]
    rw [two53, mul_div_cancel_left₀ _ (by positivity), sub_self, abs_zero]
    positivity

theorem rowProgramD_proper (strict finite : Bool) (f : Freqs) (row : List ℤ) (k : ℕ) :
    (rowProgramD strict finite order f row k).Proper := by
  by_cases h : ones row = []
  · rw [rowProgramD, if_pos h]
    trivial
  · rw [rowProgramD_eq strict finite f h]
    exact Rand.proper_bind _ _ trivial fun k => restProgram_proper f row k

/-- **C139.** The law with rounding: if the total area weight is at most 2¹⁰²³, the probability of any set of results,
averaged over the 2⁵³ values that `random.random()` can give for each of the two draws, differs from the one in exact
arithmetic by at most (n (16 n + 2) + 2²⁴) / 2⁵³ for n rows. -/
theorem C139_law (strict finite : Bool) {X Y : List (List ℤ)} (h01 : ZeroOne Y) {s : FittedD}
    (hfit : fitD order X Y = .ok s) {s' : Fitted} (hfit' : fit order X Y = .ok s') (hn : Y.length ≤ 2 ^ 50)
    (hsum : ∑ i ∈ Finset.range Y.length, areaWeight Y i ≤ 2 ^ 1023) (hs : ∃ i l, IsOne Y i l)
    (A : Set (Py (Option (Finset ℕ)))) [DecidablePred (· ∈ A)] :
    |(∑ k₁ ∈ Finset.range (2 ^ 53), ∑ k₂ ∈ Finset.range (2 ^ 53),
          (((sampleOnceD strict finite order s k₁ k₂).expect fun x => if x ∈ A then 1 else 0 : ℚ) : ℝ)) /
        (2 ^ 53 * 2 ^ 53) -
      (((sampleOnce strict order s').expect fun x => if x ∈ A then 1 else 0 : ℚ) : ℝ)| ≤
      ((Y.length : ℝ) * (16 * (Y.length : ℝ) + 2) + 2 ^ 24) / 2 ^ 53 := by
  set g : Py (Option (Finset ℕ)) → ℚ := fun x => if x ∈ A then 1 else 0 with hgd
  have hg : ∀ x, 0 ≤ g x ∧ g x ≤ 1 := by
    intro x
    simp only [hgd]
    split_ifs <;> norm_num
  obtain ⟨hf, hY, hc, -⟩ := fitD_inv h01 hfit
  obtain ⟨hf', hY', hw'⟩ := fit_ok hfit'
  obtain ⟨hw, hd, hfin⟩ := finite_facts h01 hfit hn hsum
  have hfr : s'.freqs = s.freqs := by
    rw [hf] at hf'
    exact (Except.ok.inj hf').symm
  let B : ℕ → ℝ := fun i =>
    (∑ k ∈ Finset.range (2 ^ 53), (((rowProgramD strict finite order s.freqs (Y.getD i []) k).expect g : ℚ) : ℝ)) / 2 ^ 53
  let C : ℕ → ℝ := fun i => (((rowProgram strict order s.freqs (Y.getD i [])).expect g : ℚ) : ℝ)
  let h : Py ℕ → ℝ := fun x => match x with
    | .ok i => B i
    | .error _ => 0
  have hB : ∀ i, 0 ≤ B i ∧ B i ≤ 1 := by
    intro i
    have hu := fun k => expect_unit (rowProgramD_proper (order := order) strict finite s.freqs (Y.getD i []) k) hg
    refine ⟨div_nonneg (Finset.sum_nonneg fun k _ => (hu k).1) (by positivity), ?_⟩
    refine (div_le_one (by positivity)).2 ((Finset.sum_le_sum fun k _ => (hu k).2).trans (le_of_eq ?_))
    rw [Finset.sum_const, Finset.card_range, nsmul_eq_mul, mul_one, two53]
  have hlhs : (∑ k₁ ∈ Finset.range (2 ^ 53), ∑ k₂ ∈ Finset.range (2 ^ 53),
      (((sampleOnceD strict finite order s k₁ k₂).expect g : ℚ) : ℝ)) / (2 ^ 53 * 2 ^ 53) =
      (∑ k ∈ Finset.range (2 ^ 53), h (Dbl.choices strict finite ((realWeights Y).map Dbl.num) k)) / 2 ^ 53 := by
    rw [← div_div, Finset.sum_div]
    refine congrArg (fun t : ℝ => t / 2 ^ 53) (Finset.sum_congr rfl fun k₁ hk₁ => ?_)
    obtain ⟨i, a1, a2, -⟩ := Dbl.choices_num strict finite hd (realWeights_nonneg Y) (total_real_pos hd hs) hfin
      (Finset.mem_range.1 hk₁)
    rw [a1]
    rw [realWeights_length] at a2
    rw [← hw] at a1
    change _ = B i
    refine congrArg (fun t : ℝ => t / 2 ^ 53) (Finset.sum_congr rfl fun k₂ _ => ?_)
    rw [sampleOnceD_ok strict finite k₂ (by rw [hY]; exact a2) a1]
    simp only [hY]
    rw [getD_lt a2]
  have hav := Dbl.choices_average strict finite hd (realWeights_nonneg Y) (sum_real_pos hs) hfin
    (by rwa [realWeights_length]) h (fun i _ => hB i)
  rw [realWeights_length] at hav
  have hex : (((sampleOnce strict order s').expect g : ℚ) : ℝ) =
      ∑ i ∈ Finset.range Y.length, (realWeights Y).getD i 0 / (realWeights Y).sum * C i := by
    have hwsum := weights_sum h01
    have hne : (Y.map tailWeight).sum ≠ 0 := by rw [hwsum]; exact (total_pos hs).ne'
    rw [sampleOnce_eq, hw', hY', choices_pos hne, Rand.expect_bind,
      expect_normalised (tailWeight_nonneg h01) (sum_pos_of_ne (tailWeight_nonneg h01) hne), hwsum, List.length_map,
      Rat.cast_div, ← realWeights_sum, Rat.cast_sum, Finset.sum_div]
    refine Finset.sum_congr rfl fun i hi => ?_
    have hi := Finset.mem_range.1 hi
    have e1 : (Y.map tailWeight).getD i 0 = areaWeight Y i := by
      rw [getD_lt (by simpa using hi), List.getElem_map, tailWeight_eq h01 (List.getElem?_eq_getElem hi)]
    rw [e1, realWeights_getD hi, ← areaReal_cast, Rat.cast_mul]
    have e2 : Rand.cont g (fun i : ℕ => (Rand.lift (pyGet Y (i : ℤ))).bind (rowProgram strict order s'.freqs)) (.ok i) =
        (rowProgram strict order s.freqs (Y.getD i [])).expect g := by
      show Rand.expect _ ((Rand.lift (pyGet Y (i : ℤ))).bind _) = _
      rw [pyGet_nat _ i hi, hfr, getD_lt hi]
      rfl
    rw [e2]
    ring
  rw [hlhs, hex]
  have hdiff : |∑ i ∈ Finset.range Y.length, (realWeights Y).getD i 0 / (realWeights Y).sum * B i -
      ∑ i ∈ Finset.range Y.length, (realWeights Y).getD i 0 / (realWeights Y).sum * C i| ≤ 2 ^ 24 / (2 ^ 53 : ℝ) := by
    rw [← Finset.sum_sub_distrib]
    refine (Finset.abs_sum_le_sum_abs _ _).trans ?_
    have hS := sum_real_pos hs
    have hterm : ∀ i ∈ Finset.range Y.length, |(realWeights Y).getD i 0 / (realWeights Y).sum * B i -
        (realWeights Y).getD i 0 / (realWeights Y).sum * C i| ≤
        (realWeights Y).getD i 0 / (realWeights Y).sum * (2 ^ 24 / (2 ^ 53 : ℝ)) := by
      intro i hi
      have hi := Finset.mem_range.1 hi
      rw [realWeights_getD hi, ← mul_sub, abs_mul, abs_of_nonneg (div_nonneg (areaReal_nonneg _) hS.le)]
      rcases Nat.eq_zero_or_pos (labelCount Y i) with h0 | h0
      · rw [h0]
        simp [areaReal]
      · refine mul_le_mul_of_nonneg_left ?_ (div_nonneg (areaReal_nonneg _) hS.le)
        have hlen := ones_length (List.getElem?_eq_getElem hi)
        have hcs := count_small hsum hi
        have hg' := getD_lt hi ([] : List ℤ)
        refine row_average strict finite ?_ ?_ hg
        · rw [hg']
          refine List.length_pos_iff.1 ?_
          rw [hlen]
          exact h0
        · rw [hg', hlen]
          exact hcs
    refine (Finset.sum_le_sum hterm).trans (le_of_eq ?_)
    rw [← Finset.sum_mul, ← Finset.sum_div]
    rw [realWeights_total, div_self hS.ne', one_mul]
  refine (abs_sub_le _ _ _).trans ((add_le_add hav hdiff).trans (le_of_eq ?_))
  ring

/-! ### Examples -/

/-- A row with `m` labels out of `n`. -/
def firstLabels (m n : ℕ) : List ℤ := List.replicate m 1 ++ List.replicate n 0

theorem labelsOf_first {Y : List (List ℤ)} {i m n : ℕ} (h : Y[i]? = some (firstLabels m n)) :
    labelsOf Y i = Finset.range m := by
  ext l
  rw [mem_labelsOf, Finset.mem_range]
  constructor
  · rintro ⟨row, h1, h2⟩
    rw [h] at h1
    cases h1
    by_contra hl
    rw [firstLabels, List.getElem?_append_right (by simpa using hl)] at h2
    rw [List.getElem?_replicate] at h2
    split_ifs at h2
    simp at h2
  · intro hl
    refine ⟨_, h, ?_⟩
    rw [firstLabels, List.getElem?_append_left (by simpa using hl), List.getElem?_replicate, if_pos hl]

theorem zeroOne_first (ms : List (ℕ × ℕ)) : ZeroOne (ms.map fun p => firstLabels p.1 p.2) := by
  intro row hrow v hv
  obtain ⟨p, -, rfl⟩ := List.mem_map.1 hrow
  rcases List.mem_append.1 hv with h | h
  · exact .inr (List.eq_of_mem_replicate h)
  · exact .inl (List.eq_of_mem_replicate h)

/-- Set iteration in increasing order. -/
def sortedOrder (S : Finset ℕ) : List ℕ := S.sort (· ≤ ·)

theorem sortedOrder_traverses : Traverses sortedOrder := fun S => ⟨S.sort_nodup _, fun _ => S.mem_sort _⟩

/-- A row with 1025 labels: `fit` raises. -/
example : fitD sortedOrder [[]] [firstLabels 1025 0] = .error .overflowError := by
  refine (C139_fit sortedOrder_traverses (X := [[]]) (zeroOne_first [(1025, 0)]) (by simp)).1.2 ⟨0, by simp, ?_⟩
  rw [labelsOf_first (m := 1025) (n := 0) rfl, Finset.card_range]

/-- A row with 1016 labels: `fit` returns, and from Python 3.10 on `sample_once` always raises. -/
example : ∃ s, fitD sortedOrder [[], []] [firstLabels 1016 0, firstLabels 3 1013] = .ok s ∧
    ∀ k₁ k₂, sampleOnceD true true sortedOrder s k₁ k₂ = .done (.error .valueError) := by
  have h01 : ZeroOne [firstLabels 1016 0, firstLabels 3 1013] := zeroOne_first [(1016, 0), (3, 1013)]
  have hfit : ∃ s, fitD sortedOrder [[], []] [firstLabels 1016 0, firstLabels 3 1013] = .ok s := by
    refine (C139_fit sortedOrder_traverses (X := [[], []]) h01 (by simp)).2.2 fun i hi => ?_
    match i, hi with
    | 0, _ => rw [labelsOf_first (m := 1016) (n := 0) rfl, Finset.card_range]; norm_num
    | 1, _ => rw [labelsOf_first (m := 3) (n := 1013) rfl, Finset.card_range]; norm_num
  obtain ⟨s, hs⟩ := hfit
  refine ⟨s, hs, fun k₁ k₂ => (C139_infinite true sortedOrder_traverses h01 hs (i := 0) (by simp) ?_ k₁ k₂).1⟩
  rw [labelsOf_first (m := 1016) (n := 0) rfl, Finset.card_range]

/-- Row 0 has 60 labels, row 1 has two: row 1 is never drawn, the drawn tails are those of row 0. In exact arithmetic
row 1 has a positive probability. -/
example : ∃ s, fitD sortedOrder [[], []] [firstLabels 60 0, firstLabels 2 58] = .ok s ∧
    ∀ k₁ < 2 ^ 53, Dbl.choices true true s.weights k₁ = .ok 0 := by
  have h01 : ZeroOne [firstLabels 60 0, firstLabels 2 58] := zeroOne_first [(60, 0), (2, 58)]
  have e0 : labelsOf [firstLabels 60 0, firstLabels 2 58] 0 = Finset.range 60 := labelsOf_first (n := 0) rfl
  have e1 : labelsOf [firstLabels 60 0, firstLabels 2 58] 1 = Finset.range 2 := labelsOf_first (n := 58) rfl
  have hfit : ∃ s, fitD sortedOrder [[], []] [firstLabels 60 0, firstLabels 2 58] = .ok s := by
    refine (C139_fit sortedOrder_traverses (X := [[], []]) h01 (by simp)).2.2 fun i hi => ?_
    match i, hi with
    | 0, _ => rw [e0, Finset.card_range]; norm_num
    | 1, _ => rw [e1, Finset.card_range]; norm_num
  obtain ⟨s, hs⟩ := hfit
  refine ⟨s, hs, fun k₁ hk₁ => ?_⟩
  have hsum : ∑ i ∈ Finset.range [firstLabels 60 0, firstLabels 2 58].length,
      areaWeight [firstLabels 60 0, firstLabels 2 58] i ≤ 2 ^ 1023 := by
    have : [firstLabels 60 0, firstLabels 2 58].length = 2 := rfl
    rw [this, Finset.sum_range_succ, Finset.sum_range_one, areaWeight, areaWeight, e0, e1, Finset.card_range,
      Finset.card_range]
    exact le_trans (b := (2 : ℚ) ^ 70) (by norm_num) (pow_le_pow_right₀ (by norm_num) (by norm_num))
  obtain ⟨hw, hd, hfin⟩ := finite_facts h01 hs (by simp) hsum
  have hone : ∃ i l, IsOne [firstLabels 60 0, firstLabels 2 58] i l := ⟨0, 0, _, rfl, rfl⟩
  obtain ⟨i, a1, a2, a3, a4⟩ := Dbl.choices_num true true hd (realWeights_nonneg _) (total_real_pos hd hone) hfin hk₁
  rw [← hw] at a1
  rw [realWeights_length] at a2
  obtain ⟨b1, b2⟩ := drawn_row hd a2 (lt_of_le_of_lt a3 a4)
  match i, a2 with
  | 0, _ => exact a1
  | 1, _ =>
    have := b2 0 one_pos
    rw [labelCount, labelCount, e0, e1, Finset.card_range, Finset.card_range] at this
    omega

/-- Rows with three and two labels: the hypotheses of the law are met. -/
example : ∃ s s', fitD sortedOrder [[], []] [firstLabels 3 0, firstLabels 2 1] = .ok s ∧
    fit sortedOrder [[], []] [firstLabels 3 0, firstLabels 2 1] = .ok s' ∧
    ∑ i ∈ Finset.range [firstLabels 3 0, firstLabels 2 1].length,
      areaWeight [firstLabels 3 0, firstLabels 2 1] i ≤ 2 ^ 1023 := by
  have h01 : ZeroOne [firstLabels 3 0, firstLabels 2 1] := zeroOne_first [(3, 0), (2, 1)]
  have e0 : labelsOf [firstLabels 3 0, firstLabels 2 1] 0 = Finset.range 3 := labelsOf_first (n := 0) rfl
  have e1 : labelsOf [firstLabels 3 0, firstLabels 2 1] 1 = Finset.range 2 := labelsOf_first (n := 1) rfl
  obtain ⟨s, hs⟩ : ∃ s, fitD sortedOrder [[], []] [firstLabels 3 0, firstLabels 2 1] = .ok s := by
    refine (C139_fit sortedOrder_traverses (X := [[], []]) h01 (by simp)).2.2 fun i hi => ?_
    match i, hi with
    | 0, _ => rw [e0, Finset.card_range]; norm_num
    | 1, _ => rw [e1, Finset.card_range]; norm_num
  obtain ⟨hf, -⟩ := fitD_inv h01 hs
  refine ⟨s, _, hs, by unfold fit; rw [hf]; rfl, ?_⟩
  have : [firstLabels 3 0, firstLabels 2 1].length = 2 := rfl
  rw [this, Finset.sum_range_succ, Finset.sum_range_one, areaWeight, areaWeight, e0, e1, Finset.card_range,
    Finset.card_range]
  exact le_trans (b := (2 : ℚ) ^ 70) (by norm_num) (pow_le_pow_right₀ (by norm_num) (by norm_num))

end GreedyArea
end Verif
