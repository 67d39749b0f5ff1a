/-
Lemmas about quantiles.
-/
import Verif.Spec.Quantile
import Verif.Lemmas.Rand

namespace Verif

namespace Quantile

theorem sorted_perm (xs : List ℚ) : (sorted xs).Perm xs := List.mergeSort_perm _ _

theorem sorted_length (xs : List ℚ) : (sorted xs).length = xs.length := (sorted_perm xs).length_eq

theorem sorted_pairwise (xs : List ℚ) : (sorted xs).Pairwise (· ≤ ·) := by
  have := List.pairwise_mergeSort (le := fun a b : ℚ => decide (a ≤ b))
    (by intro a b c; simp only [decide_eq_true_eq]; exact le_trans)
    (by intro a b; simp only [Bool.or_eq_true, decide_eq_true_eq]; exact le_total a b) xs
  exact this.imp (by intro a b hab; simpa using hab)

theorem atPlace_sorted {xs : List ℚ} {k : ℕ} (hk : k < xs.length) : AtPlace xs k ((sorted xs).getD k 0) := by
  have hk' : k < (sorted xs).length := by rw [sorted_length]; exact hk
  rw [getD_lt hk']
  have hp := sorted_pairwise xs
  obtain ⟨m, hm⟩ : ∃ m, m = (sorted xs)[k] := ⟨_, rfl⟩
  have hsplit := List.take_append_drop k (sorted xs)
  refine ⟨(sorted_perm xs).mem_iff.mp (List.getElem_mem _), ?_, ?_⟩
  · rw [← (sorted_perm xs).countP_eq, ← hm, ← hsplit, List.countP_append]
    have h0 : (List.drop k (sorted xs)).countP (fun v => decide (v < m)) = 0 := by
      rw [List.countP_eq_zero]
      intro a ha
      obtain ⟨i, hi, rfl⟩ := List.mem_iff_getElem.mp ha
      rw [List.length_drop] at hi
      simp only [List.getElem_drop, decide_eq_true_eq, not_lt, hm]
      rcases Nat.eq_zero_or_pos i with rfl | hpos
      · exact le_refl _
      · exact List.pairwise_iff_getElem.mp hp k (k + i) hk' (by omega) (by omega)
    rw [h0]
    refine le_trans (Nat.add_le_add_right List.countP_le_length 0) ?_
    rw [List.length_take]; omega
  · rw [← (sorted_perm xs).countP_eq]
    have hsplit' := List.take_append_drop (k + 1) (sorted xs)
    have : k + 1 ≤ ((sorted xs).take (k + 1)).countP (fun v => decide (v ≤ (sorted xs)[k])) := by
      rw [List.countP_eq_length.mpr, List.length_take]
      · omega
      · intro a ha
        obtain ⟨i, hi, rfl⟩ := List.mem_iff_getElem.mp ha
        rw [List.length_take] at hi
        simp only [List.getElem_take, decide_eq_true_eq]
        rcases Nat.lt_or_ge i k with h | h
        · exact List.pairwise_iff_getElem.mp hp i k (by omega) hk' h
        · have : i = k := by omega
          subst this; exact le_refl _
    refine lt_of_lt_of_le (Nat.lt_of_succ_le this) ?_
    exact List.Sublist.countP_le (List.take_sublist _ _)

theorem AtPlace.le_of_le {xs : List ℚ} {k l : ℕ} {a b : ℚ} (ha : AtPlace xs k a) (hb : AtPlace xs l b)
    (h : k ≤ l) : a ≤ b := by
  by_contra hlt
  have hlt := not_le.mp hlt
  have : xs.countP (fun v => decide (v ≤ b)) ≤ xs.countP (fun v => decide (v < a)) :=
    List.countP_mono_left fun x _ hx => by
      simp only [decide_eq_true_eq] at hx ⊢
      exact lt_of_le_of_lt hx hlt
  have h1 := ha.2.1
  have h2 := hb.2.2
  omega

theorem AtPlace.unique {xs : List ℚ} {k : ℕ} {a b : ℚ} (ha : AtPlace xs k a) (hb : AtPlace xs k b) : a = b :=
  le_antisymm (ha.le_of_le hb (le_refl _)) (hb.le_of_le ha (le_refl _))

theorem AtPlace.lt_length {xs : List ℚ} {k : ℕ} {a : ℚ} (h : AtPlace xs k a) : k < xs.length :=
  lt_of_lt_of_le h.2.2 List.countP_le_length

theorem IsQuantile.unique {xs : List ℚ} {q r r' : ℚ} (h : IsQuantile xs q r) (h' : IsQuantile xs q r') : r = r' := by
  obtain ⟨k, t, lo, hi, e1, t0, t1, hlo, hhi, rfl⟩ := h
  obtain ⟨k', t', lo', hi', e1', t0', t1', hlo', hhi', rfl⟩ := h'
  have hk : k = k' := by
    have h1 : (k : ℚ) + t = k' + t' := by rw [← e1, e1']
    have a1 : (k : ℚ) < k' + 1 := by linarith
    have a2 : (k' : ℚ) < k + 1 := by linarith
    have b1 : k < k' + 1 := by exact_mod_cast a1
    have b2 : k' < k + 1 := by exact_mod_cast a2
    omega
  subst hk
  have ht : t = t' := by linarith
  subst ht
  have := hlo.unique hlo'
  subst this
  by_cases h0 : t = 0
  · rw [h0]; ring
  · rw [if_neg h0] at hhi hhi'
    rw [hhi.unique hhi']

/-- The code computes the quantile. -/
theorem quantile_ok {xs : List ℚ} {q : ℚ} (h0 : 0 ≤ q) (h1 : q ≤ 1) (hne : xs ≠ []) :
    ∃ r, quantile xs q = .ok r ∧ IsQuantile xs q r := by
  have hlen : 0 < xs.length := List.length_pos_iff.mpr hne
  have hn : ((xs.length - 1 : ℕ) : ℚ) = (xs.length : ℚ) - 1 := by
    rw [Nat.cast_sub hlen, Nat.cast_one]
  refine ⟨_, by
    rw [quantile, if_neg (by rw [not_or]; exact ⟨not_lt.mpr h0, not_lt.mpr h1⟩), if_neg hne], ?_⟩
  have hv0 : 0 ≤ ((xs.length - 1 : ℕ) : ℚ) * q := by positivity
  have hfl : 0 ≤ ⌊((xs.length - 1 : ℕ) : ℚ) * q⌋ := Int.floor_nonneg.mpr hv0
  have hcast : ((⌊((xs.length - 1 : ℕ) : ℚ) * q⌋.toNat : ℕ) : ℚ) = (⌊((xs.length - 1 : ℕ) : ℚ) * q⌋ : ℚ) := by
    have := Int.toNat_of_nonneg hfl
    exact_mod_cast this
  have hle := Int.floor_le (((xs.length - 1 : ℕ) : ℚ) * q)
  have hlt := Int.lt_floor_add_one (((xs.length - 1 : ℕ) : ℚ) * q)
  have hvle : ((xs.length - 1 : ℕ) : ℚ) * q ≤ ((xs.length - 1 : ℕ) : ℚ) :=
    mul_le_of_le_one_right (by positivity) h1
  have hk : ⌊((xs.length - 1 : ℕ) : ℚ) * q⌋.toNat < xs.length := by
    have : ((⌊((xs.length - 1 : ℕ) : ℚ) * q⌋.toNat : ℕ) : ℚ) ≤ ((xs.length - 1 : ℕ) : ℚ) := by
      rw [hcast]; exact hle.trans hvle
    have : ⌊((xs.length - 1 : ℕ) : ℚ) * q⌋.toNat ≤ xs.length - 1 := by exact_mod_cast this
    omega
  by_cases ht : ((xs.length - 1 : ℕ) : ℚ) * q - (⌊((xs.length - 1 : ℕ) : ℚ) * q⌋.toNat : ℚ) = 0
  · refine ⟨⌊((xs.length - 1 : ℕ) : ℚ) * q⌋.toNat, 0, _,
      (sorted xs).getD ⌊((xs.length - 1 : ℕ) : ℚ) * q⌋.toNat 0, ?_, ?_, ?_, atPlace_sorted hk, ?_, ?_⟩
    · rw [← hn]; linarith
    · exact le_refl _
    · norm_num
    · rw [if_pos rfl]
    · simp only [ht]; ring
  · refine ⟨⌊((xs.length - 1 : ℕ) : ℚ) * q⌋.toNat, ((xs.length - 1 : ℕ) : ℚ) * q - (⌊((xs.length - 1 : ℕ) : ℚ) * q⌋.toNat : ℚ), _,
      (sorted xs).getD (min (⌊((xs.length - 1 : ℕ) : ℚ) * q⌋.toNat + 1) (xs.length - 1)) 0, ?_, ?_, ?_,
      atPlace_sorted hk, ?_, rfl⟩
    · rw [← hn]; ring
    · rw [hcast]; linarith
    · rw [hcast]; linarith
    · rw [if_neg ht]
      have hlt' : ((⌊((xs.length - 1 : ℕ) : ℚ) * q⌋.toNat : ℕ) : ℚ) < ((xs.length - 1 : ℕ) : ℚ) := by
        refine lt_of_lt_of_le (lt_of_le_of_ne (by rw [hcast]; exact hle) ?_) hvle
        intro e
        exact ht (by linarith)
      have hlt'' : ⌊((xs.length - 1 : ℕ) : ℚ) * q⌋.toNat < xs.length - 1 := by exact_mod_cast hlt'
      rw [Nat.min_eq_left (by omega)]
      exact atPlace_sorted (by omega)

theorem quantile_eq_iff {xs : List ℚ} {q r : ℚ} (h0 : 0 ≤ q) (h1 : q ≤ 1) (hne : xs ≠ []) :
    quantile xs q = .ok r ↔ IsQuantile xs q r := by
  obtain ⟨r', e, h⟩ := quantile_ok h0 h1 hne
  rw [e]
  constructor
  · rintro ⟨⟩; exact h
  · intro h'; rw [h.unique h']

/-- What lies below and above the quantile. -/
theorem IsQuantile.cases {xs : List ℚ} {q r : ℚ} (h : IsQuantile xs q r) :
    ∃ k : ℕ, ∃ t lo hi : ℚ, ((xs.length : ℚ) - 1) * q = k + t ∧ 0 ≤ t ∧ t < 1 ∧ r = lo + t * (hi - lo) ∧
      AtPlace xs k lo ∧ (if t = 0 then hi = lo else AtPlace xs (k + 1) hi) ∧
      ((lo = r ∧ (t = 0 ∨ hi = lo)) ∨
        (lo < r ∧ r < hi ∧ 0 < t ∧ (∀ v ∈ xs, v < r → v ≤ lo) ∧ (∀ v ∈ xs, r ≤ v → hi ≤ v))) := by
  obtain ⟨k, t, lo, hi, e1, t0, t1, hlo, hhi, rfl⟩ := h
  refine ⟨k, t, lo, hi, e1, t0, t1, rfl, hlo, hhi, ?_⟩
  by_cases ht : t = 0
  · left; rw [ht]; exact ⟨by ring, Or.inl rfl⟩
  have hhi' := hhi
  rw [if_neg ht] at hhi'
  have hle := hlo.le_of_le hhi' (Nat.le_succ k)
  rcases eq_or_lt_of_le hle with he | hlt
  · left; rw [← he]; exact ⟨by ring, Or.inr rfl⟩
  right
  have htp : 0 < t := lt_of_le_of_ne t0 (Ne.symm ht)
  have g1 : lo < lo + t * (hi - lo) := by nlinarith
  have g2 : lo + t * (hi - lo) < hi := by nlinarith
  have hgap : ∀ v ∈ xs, lo < v → hi ≤ v := by
    intro v hv hlv
    by_contra hc
    have hc := not_le.mp hc
    have a1 := hlo.2.2
    have a2 := hhi'.2.1
    have : xs.countP (fun w => decide (w ≤ lo)) < xs.countP (fun w => decide (w < hi)) := by
      have e : xs.countP (fun w => decide (w < hi)) =
          xs.countP (fun w => decide (w ≤ lo)) + xs.countP (fun w => decide (lo < w ∧ w < hi)) := by
        clear hv a1 a2 hhi hhi' hlo e1
        induction xs with
        | nil => rfl
        | cons x xs ih =>
          simp only [List.countP_cons, ih]
          by_cases b1 : x ≤ lo
          · have b2 : x < hi := lt_of_le_of_lt b1 hlt
            simp [b1, b2, not_lt.mpr b1]; omega
          · simp [b1, not_le.mp b1]; omega
      have : 0 < xs.countP (fun w => decide (lo < w ∧ w < hi)) :=
        List.countP_pos_iff.mpr ⟨v, hv, by simp [hlv, hc]⟩
      omega
    omega
  refine ⟨g1, g2, htp, ?_, ?_⟩
  · intro v hv hvr
    by_contra hc
    have := hgap v hv (not_le.mp hc)
    linarith
  · intro v hv hvr
    exact hgap v hv (lt_of_lt_of_le g1 hvr)

end Quantile

end Verif
