/-
C96, C97: turning numbers into zeros and ones with quantiles.
-/
import Verif.Lemmas.Quantile

namespace Verif

namespace Quantile

theorem quantile_errors (xs : List ℚ) (q : ℚ) :
    ((q < 0 ∨ 1 < q) → quantile xs q = .error .valueError) ∧
    ((0 ≤ q ∧ q ≤ 1) → xs = [] → quantile xs q = .error .indexError) := by
  constructor
  · intro h; rw [quantile, if_pos h]
  · rintro ⟨h0, h1⟩ rfl
    rw [quantile, if_neg (by rw [not_or]; exact ⟨not_lt.mpr h0, not_lt.mpr h1⟩), if_pos rfl]

/-- Moving values without crossing `a`. -/
theorem AtPlace.map {xs : List ℚ} {j : ℕ} {a : ℚ} (h : AtPlace xs j a) (f : ℚ → ℚ) (ha : f a = a)
    (h1 : ∀ v ∈ xs, f v < a → v < a) (h2 : ∀ v ∈ xs, v ≤ a → f v ≤ a) : AtPlace (xs.map f) j a := by
  refine ⟨List.mem_map.mpr ⟨a, h.1, ha⟩, ?_, ?_⟩
  · rw [List.countP_map]
    refine le_trans (List.countP_mono_left ?_) h.2.1
    intro v hv hlt
    simp only [Function.comp_apply, decide_eq_true_eq] at hlt ⊢
    exact h1 v hv hlt
  · rw [List.countP_map]
    refine lt_of_lt_of_le h.2.2 (List.countP_mono_left ?_)
    intro v hv hle
    simp only [Function.comp_apply, decide_eq_true_eq] at hle ⊢
    exact h2 v hv hle

/-- The quantile after the first assignment, and what the second one does. -/
theorem second_quantile {xs : List ℚ} {d r : ℚ} (hr : IsQuantile xs d r) (h0 : ∀ v ∈ xs, 0 ≤ v)
    (hint : ∀ v ∈ xs, 0 < v → 1 ≤ v) :
    ∃ r', IsQuantile (xs.map fun v => if v < r then 1 else v) d r' ∧ (∀ v ∈ xs, r ≤ v → r' ≤ v) ∧
      ((∃ v ∈ xs, v < r) → (1 < r' ↔ ∀ w ∈ xs, r ≤ w → 1 < w)) := by
  obtain ⟨k, t, lo, hi, e1, t0, t1, er, hlo, hhi, hcase⟩ := hr.cases
  have hlen : ((xs.map fun v => if v < r then (1 : ℚ) else v).length : ℚ) = xs.length := by simp
  rcases hcase with ⟨hrlo, hth⟩ | ⟨g1, g2, g3, g4, g5⟩
  · by_cases hz : lo = 0
    · -- nothing is below 0
      have hid : (xs.map fun v => if v < r then (1 : ℚ) else v) = xs := by
        conv_rhs => rw [← List.map_id xs]
        apply List.map_congr_left
        intro v hv
        rw [if_neg]
        · rfl
        · rw [← hrlo, hz]; exact not_lt.mpr (h0 v hv)
      refine ⟨r, by rw [hid]; exact hr, fun v _ h => h, ?_⟩
      rintro ⟨v, hv, hlt⟩
      rw [← hrlo, hz] at hlt
      exact absurd hlt (not_lt.mpr (h0 v hv))
    · have hlo1 : 1 ≤ lo := hint lo hlo.1 (lt_of_le_of_ne (h0 lo hlo.1) (Ne.symm hz))
      have keep : ∀ {j : ℕ} {a : ℚ}, AtPlace xs j a → r ≤ a →
          AtPlace (xs.map fun v => if v < r then (1 : ℚ) else v) j a := by
        intro j a h hra
        refine h.map _ (if_neg (not_lt.mpr hra)) ?_ ?_
        · intro v _ hlt
          by_cases hv : v < r
          · exact lt_of_lt_of_le hv hra
          · rwa [if_neg hv] at hlt
        · intro v _ hle
          by_cases hv : v < r
          · rw [if_pos hv]; rw [← hrlo] at hra; exact hlo1.trans hra
          · rwa [if_neg hv]
      refine ⟨r, ?_, fun v _ h => h, ?_⟩
      · refine ⟨k, t, lo, hi, by rw [hlen]; exact e1, t0, t1, keep hlo hrlo.symm.le, ?_, er⟩
        by_cases ht : t = 0
        · rw [if_pos ht] at hhi ⊢; exact hhi
        · rw [if_neg ht] at hhi ⊢
          exact keep hhi (hrlo ▸ hlo.le_of_le hhi (Nat.le_succ k))
      · intro _
        constructor
        · intro h w _ hw; exact lt_of_lt_of_le h hw
        · intro h
          have := h lo hlo.1 hrlo.symm.le
          rwa [hrlo] at this
  · have ht : t ≠ 0 := g3.ne'
    rw [if_neg ht] at hhi
    have hlo0 := h0 lo hlo.1
    have hhi1 : 1 ≤ hi := hint hi hhi.1 (by linarith)
    refine ⟨1 + t * (hi - 1), ?_, ?_, ?_⟩
    · refine ⟨k, t, 1, hi, by rw [hlen]; exact e1, t0, t1, ?_, ?_, rfl⟩
      · refine ⟨List.mem_map.mpr ⟨lo, hlo.1, if_pos g1⟩, ?_, ?_⟩
        · rw [List.countP_eq_zero.mpr]
          · exact Nat.zero_le _
          · intro x hx
            obtain ⟨v, hv, rfl⟩ := List.mem_map.mp hx
            simp only [decide_eq_true_eq, not_lt]
            by_cases hvr : v < r
            · rw [if_pos hvr]
            · rw [if_neg hvr]
              exact hhi1.trans (g5 v hv (not_lt.mp hvr))
        · rw [List.countP_map]
          refine lt_of_lt_of_le hlo.2.2 (List.countP_mono_left ?_)
          intro v _ hle
          simp only [Function.comp_apply, decide_eq_true_eq] at hle ⊢
          rw [if_pos (lt_of_le_of_lt hle g1)]
      · rw [if_neg ht]
        refine hhi.map _ (if_neg (not_lt.mpr g2.le)) ?_ ?_
        · intro v _ hlt
          by_cases hv : v < r
          · exact hv.trans g2
          · rwa [if_neg hv] at hlt
        · intro v _ hle
          by_cases hv : v < r
          · rw [if_pos hv]; exact hhi1
          · rwa [if_neg hv]
    · intro v hv hrv
      have := g5 v hv hrv
      nlinarith
    · intro _
      constructor
      · intro h w hw hrw
        have : 1 < hi := by
          by_contra hc
          have : hi = 1 := le_antisymm (not_lt.mp hc) hhi1
          rw [this] at h
          linarith
        exact lt_of_lt_of_le this (g5 w hw hrw)
      · intro h
        have := h hi hhi.1 g2.le
        nlinarith

/-- **C96.** What `generate_synthetic_dataset` makes of the counts drawn by scikit-learn: a matrix of zeros
and ones. A cell is 1 if its count is below the quantile, unless some count at or above the quantile is 0 or
1: then the second assignment, whose quantile is that of the changed matrix, overwrites all cells with 0. -/
theorem C96_synthetic {D : List ℤ} (hne : D ≠ []) (hnn : ∀ v ∈ D, 0 ≤ v) {density : ℚ} (h0 : 0 ≤ density)
    (h1 : density ≤ 1) :
    ∃ q, IsQuantile (D.map fun v : ℤ => (v : ℚ)) density q ∧
      thresholdCounts D density =
        .ok (D.map fun v : ℤ => if (v : ℚ) < q ∧ ∀ w ∈ D, q ≤ (w : ℚ) → 1 < w then 1 else 0) := by
  have hne1 : (D.map fun v : ℤ => (v : ℚ)) ≠ [] := by simpa using hne
  obtain ⟨q, eq, hq⟩ := quantile_ok h0 h1 hne1
  refine ⟨q, hq, ?_⟩
  have hD' : ((D.map fun v : ℤ => if (v : ℚ) < q then 1 else v).map fun v : ℤ => (v : ℚ)) =
      (D.map fun v : ℤ => (v : ℚ)).map fun v => if v < q then 1 else v := by
    rw [List.map_map, List.map_map]
    apply List.map_congr_left
    intro v _
    simp only [Function.comp_apply]
    split <;> simp
  obtain ⟨r', hr', hge, hone⟩ := second_quantile hq
    (by intro v hv; obtain ⟨w, hw, rfl⟩ := List.mem_map.mp hv; exact_mod_cast hnn w hw)
    (by
      intro v hv hpos
      obtain ⟨w, hw, rfl⟩ := List.mem_map.mp hv
      have : 0 < w := by exact_mod_cast hpos
      exact_mod_cast this)
  have eq' := (quantile_eq_iff h0 h1 (by simpa using hne)).mpr hr'
  rw [thresholdCounts, eq]
  show (do let q' ← quantile _ density; _) = _
  rw [hD', eq']
  show Except.ok _ = Except.ok _
  congr 1
  rw [List.map_map]
  apply List.map_congr_left
  intro v hv
  have hmem : (v : ℚ) ∈ D.map fun v : ℤ => (v : ℚ) := List.mem_map.mpr ⟨v, hv, rfl⟩
  simp only [Function.comp_apply]
  by_cases hlt : (v : ℚ) < q
  · have hiff := hone ⟨v, hmem, hlt⟩
    have hiff' : (1 < r') ↔ ∀ w ∈ D, q ≤ (w : ℚ) → 1 < w := by
      rw [hiff]
      constructor
      · intro h w hw hqw
        exact_mod_cast h w (List.mem_map.mpr ⟨w, hw, rfl⟩) hqw
      · intro h w hw hqw
        obtain ⟨u, hu, rfl⟩ := List.mem_map.mp hw
        exact_mod_cast h u hu hqw
    have hin : (if (v : ℚ) < q then (1 : ℤ) else v) = 1 := if_pos hlt
    rw [hin]
    by_cases hr1 : 1 < r'
    · have hc : ¬ r' ≤ (((1 : ℤ)) : ℚ) := by rw [not_le]; exact_mod_cast hr1
      rw [if_neg hc]
      exact (if_pos ⟨hlt, hiff'.mp hr1⟩).symm
    · have hc : r' ≤ (((1 : ℤ)) : ℚ) := by
        have := not_lt.mp hr1
        exact_mod_cast this
      rw [if_pos hc]
      exact (if_neg (fun h => hr1 (hiff'.mpr h.2))).symm
  · have hin : (if (v : ℚ) < q then (1 : ℤ) else v) = v := if_neg hlt
    rw [hin, if_pos (hge _ hmem (not_lt.mp hlt))]
    exact (if_neg (fun h => hlt h.1)).symm

/-- **C96.** The share of ones: with `n` cells, at most `(n - 1) density` rounded up. -/
theorem C96_share {D : List ℤ} (hne : D ≠ []) (hnn : ∀ v ∈ D, 0 ≤ v) {density : ℚ} (h0 : 0 ≤ density)
    (h1 : density ≤ 1) {R : List ℤ} (hR : thresholdCounts D density = .ok R) :
    R.length = D.length ∧ (∀ v ∈ R, v = 0 ∨ v = 1) ∧
      (R.count 1 : ℤ) ≤ ⌈((D.length : ℚ) - 1) * density⌉ := by
  obtain ⟨q, hq, e⟩ := C96_synthetic hne hnn h0 h1
  rw [hR] at e
  cases e
  refine ⟨by simp, ?_, ?_⟩
  · intro v hv
    obtain ⟨w, -, rfl⟩ := List.mem_map.mp hv
    split <;> simp
  · obtain ⟨k, t, lo, hi, e1, t0, t1, er, hlo, hhi, hcase⟩ := hq.cases
    have hcount : (D.map fun v : ℤ => if (v : ℚ) < q ∧ ∀ w ∈ D, q ≤ (w : ℚ) → 1 < w then (1 : ℤ) else 0).count 1 ≤
        (D.map fun v : ℤ => (v : ℚ)).countP fun v => decide (v < q) := by
      rw [List.count, List.countP_map, List.countP_map]
      apply List.countP_mono_left
      intro v _ hv
      simp only [Function.comp_apply, decide_eq_true_eq] at hv ⊢
      by_contra hc
      rw [if_neg (fun h => hc h.1)] at hv
      simp at hv
    rw [List.length_map] at e1
    rw [e1]
    have hceil : (k : ℤ) ≤ ⌈(k : ℚ) + t⌉ := by
      have : (k : ℚ) ≤ (⌈(k : ℚ) + t⌉ : ℚ) := by
        have := Int.le_ceil ((k : ℚ) + t)
        linarith
      exact_mod_cast this
    rcases hcase with ⟨hrlo, -⟩ | ⟨g1, g2, g3, g4, -⟩
    · have := hlo.2.1
      rw [hrlo] at this
      omega
    · have hk1 : (k : ℤ) + 1 ≤ ⌈(k : ℚ) + t⌉ := by
        have : (k : ℤ) < ⌈(k : ℚ) + t⌉ := by
          rw [Int.lt_ceil]; push_cast; linarith
        omega
      rw [if_neg g3.ne'] at hhi
      have hle : ((D.map fun v : ℤ => (v : ℚ)).countP fun v => decide (v < q)) ≤ k + 1 := by
        refine le_trans (List.countP_mono_left ?_) hhi.2.1
        intro v _ hv
        simp only [decide_eq_true_eq] at hv ⊢
        exact hv.trans g2
      omega

theorem C96_errors (D : List ℤ) (density : ℚ) :
    ((density < 0 ∨ 1 < density) → thresholdCounts D density = .error .valueError) ∧
    ((0 ≤ density ∧ density ≤ 1) → D = [] → thresholdCounts D density = .error .indexError) := by
  constructor
  · intro h
    rw [thresholdCounts, (quantile_errors _ _).1 h]; rfl
  · rintro h rfl
    rw [thresholdCounts, List.map_nil, (quantile_errors _ _).2 h rfl]; rfl

/-- **C97.** A numeric column: 0 up to its quantile, 1 above; more than `sparsity (n - 1)` of the `n` values
become 0, and if they are different at most one more than that. -/
theorem C97_numeric {col : List ℚ} (hne : col ≠ []) {sparsity : ℚ} (h0 : 0 ≤ sparsity) (h1 : sparsity ≤ 1) :
    ∃ q, IsQuantile col sparsity q ∧ binarise col sparsity = .ok (col.map fun v => if v ≤ q then 0 else 1) ∧
      sparsity * ((col.length : ℚ) - 1) < (col.countP fun v => decide (v ≤ q) : ℕ) ∧
      (col.Nodup → ((col.countP fun v => decide (v ≤ q) : ℕ) : ℚ) ≤ sparsity * ((col.length : ℚ) - 1) + 1) := by
  obtain ⟨q, eq, hq⟩ := quantile_ok h0 h1 hne
  obtain ⟨k, t, lo, hi, e1, t0, t1, er, hlo, hhi, hcase⟩ := hq.cases
  refine ⟨q, hq, by rw [binarise, eq]; rfl, ?_, ?_⟩
  · rw [mul_comm, e1]
    have hle : lo ≤ q := by
      rcases hcase with ⟨h, -⟩ | ⟨h, -⟩
      · exact h.le
      · exact h.le
    have : k + 1 ≤ col.countP fun v => decide (v ≤ q) := by
      refine le_trans (Nat.succ_le_of_lt hlo.2.2) (List.countP_mono_left ?_)
      intro v _ hv
      simp only [decide_eq_true_eq] at hv ⊢
      exact hv.trans hle
    have : ((k + 1 : ℕ) : ℚ) ≤ (col.countP fun v => decide (v ≤ q) : ℕ) := by exact_mod_cast this
    push_cast at this
    linarith
  · intro hnd
    rw [mul_comm, e1]
    have hiff : ∀ v ∈ col, v ≤ q → v ≤ lo := by
      intro v hv hvq
      rcases hcase with ⟨h, -⟩ | ⟨g1, g2, g3, g4, g5⟩
      · rw [h]; exact hvq
      · rcases eq_or_lt_of_le hvq with rfl | hlt
        · have := g5 v hv (le_refl _); linarith
        · exact g4 v hv hlt
    have h1 : (col.countP fun v => decide (v ≤ q)) ≤ col.countP fun v => decide (v ≤ lo) := by
      apply List.countP_mono_left
      intro v hv h
      simp only [decide_eq_true_eq] at h ⊢
      exact hiff v hv h
    have h2 : (col.countP fun v => decide (v ≤ lo)) = (col.countP fun v => decide (v < lo)) + col.count lo := by
      clear hnd h1 hiff hhi hcase hlo e1 hq eq hne er
      induction col with
      | nil => rfl
      | cons x xs ih =>
        rw [List.countP_cons, List.countP_cons, List.count_cons, ih]
        rcases lt_trichotomy x lo with h | h | h
        · simp [h, h.le, h.ne]; omega
        · subst h; simp; omega
        · simp [not_le.mpr h, not_lt.mpr h.le, h.ne']
    have h3 : col.count lo ≤ 1 := List.nodup_iff_count_le_one.mp hnd lo
    have h4 := hlo.2.1
    have : (col.countP fun v => decide (v ≤ q)) ≤ k + 1 := by omega
    have : ((col.countP fun v => decide (v ≤ q) : ℕ) : ℚ) ≤ ((k + 1 : ℕ) : ℚ) := by exact_mod_cast this
    push_cast at this
    linarith

/-- **C97.** A constant column becomes 0 throughout. -/
theorem C97_constant {n : ℕ} (hn : 0 < n) (c : ℚ) {sparsity : ℚ} (h0 : 0 ≤ sparsity) (h1 : sparsity ≤ 1) :
    binarise (List.replicate n c) sparsity = .ok (List.replicate n 0) := by
  have hne : List.replicate n c ≠ [] := by
    intro h
    have := congrArg List.length h
    simp at this
    omega
  obtain ⟨q, hq, e, -⟩ := C97_numeric hne h0 h1
  obtain ⟨k, t, lo, hi, e1, t0, t1, er, hlo, hhi, hcase⟩ := hq.cases
  have hloc : lo = c := List.eq_of_mem_replicate hlo.1
  have hle : c ≤ q := by
    rw [← hloc]
    rcases hcase with ⟨h, -⟩ | ⟨h, -⟩
    · exact h.le
    · exact h.le
  rw [e, List.map_replicate, if_pos hle]

/-- The hypotheses hold for the counts 0, 2, 5, 3 and the density 1/2; the quantile is 5/2 and two cells are 1. -/
example : ([0, 2, 5, 3] : List ℤ) ≠ [] ∧ (∀ v ∈ ([0, 2, 5, 3] : List ℤ), 0 ≤ v) ∧
    IsQuantile [0, 2, 5, 3] (1 / 2) (5 / 2) := by
  refine ⟨by simp, by simp, 1, 1 / 2, 2, 3, by norm_num, by norm_num, by norm_num, ⟨by simp, by decide, by decide⟩,
    ?_, by norm_num⟩
  rw [if_neg (by norm_num)]
  exact ⟨by simp, by decide, by decide⟩

end Quantile

end Verif
