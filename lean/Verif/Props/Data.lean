/-
C65: what `shuffle_split_data` returns.
-/
import Verif.Spec.Data
import Verif.Lemmas.Py
import Verif.Lemmas.Rand
import Mathlib.Algebra.BigOperators.Fin
import Mathlib.Data.Fintype.BigOperators
import Mathlib.Data.Fin.Tuple.Basic

namespace Verif
open Rand

theorem takeRows_of {α ι : Type} (xs : List α) (idx : List ι) (f : ι → ℤ) (g : ι → α)
    (h : ∀ i ∈ idx, pyGet xs (f i) = .ok (g i)) : takeRows xs (idx.map f) = .ok (idx.map g) := by
  unfold takeRows
  rw [List.mapM_map]
  exact mapM_ok_of_forall h

theorem pyGet_mirror {α : Type} (xs : List α) (i : ℕ) (h : i < xs.length) :
    pyGet xs (-(i : ℤ) - 1) = .ok (xs[xs.length - 1 - i]) := by
  have h1 : ¬ (0 : ℤ) ≤ -(i : ℤ) - 1 := by omega
  have h2 : (0 : ℤ) ≤ (xs.length : ℤ) + (-(i : ℤ) - 1) := by omega
  have h3 : ((xs.length : ℤ) + (-(i : ℤ) - 1)).toNat = xs.length - 1 - i := by omega
  have h4 : xs.length - 1 - i < xs.length := by omega
  simp only [pyGet, pyIndex, h1, h2, h3, if_true, if_false, Option.bind_some, List.getElem?_eq_getElem h4]

theorem splitAt_ok {α β : Type} (X : List α) (y : List β) (h : y.length = X.length)
    (idx : List (Fin X.length)) :
    splitAt X y (idx.map Fin.val) = .ok (mirrorSplit X y h idx) := by
  unfold splitAt
  simp only [List.map_map, Function.comp_def]
  rw [takeRows_of X idx _ X.get (fun i _ => pyGet_nat X i i.2),
    takeRows_of y idx _ (fun i => y.get (i.cast h.symm)) (fun i _ => pyGet_nat y i (by omega)),
    takeRows_of X idx _ (fun i => X.get i.rev) (fun i _ => ?_),
    takeRows_of y idx _ (fun i => y.get (i.rev.cast h.symm)) (fun i _ => ?_)]
  · rfl
  · have := pyGet_mirror y i (by omega)
    rw [this]
    simp only [List.get_eq_getElem, Fin.val_cast, Fin.val_rev]
    congr 2
    omega
  · have := pyGet_mirror X i i.2
    rw [this]
    simp only [List.get_eq_getElem, Fin.val_rev]
    congr 2
    omega

theorem outcome_drawIndices (n : ℕ) (hn : n ≠ 0) : ∀ (k : ℕ) (x : Py (List ℕ)),
    (drawIndices n k).Outcome x ↔
      ∃ idx : List (Fin n), idx.length = k ∧ x = .ok (idx.map Fin.val)
  | 0, x => by
    simp [drawIndices, List.length_eq_zero_iff]
  | k + 1, x => by
    simp only [drawIndices, monad_bind, monad_pure, outcome_bind, outcome_uniformIdx hn,
      outcome_drawIndices n hn k, outcome_done]
    constructor
    · rintro (⟨a, ⟨i, hi, h⟩, h2⟩ | ⟨e, ⟨i, hi, h⟩, _⟩)
      · cases h
        rcases h2 with (⟨l, ⟨idx, hl, h⟩, rfl⟩ | ⟨e, ⟨idx, _, h⟩, _⟩)
        · cases h
          exact ⟨⟨a, hi⟩ :: idx, by simp [hl], by simp⟩
        · cases h
      · cases h
    · rintro ⟨idx, hl, rfl⟩
      cases idx with
      | nil => simp at hl
      | cons i idx =>
        refine Or.inl ⟨(i : ℕ), ⟨(i : ℕ), i.2, rfl⟩, Or.inl ⟨_, ⟨idx, by simpa using hl, rfl⟩, by simp⟩⟩

theorem expect_drawIndices (n : ℕ) (hn : n ≠ 0) : ∀ (k : ℕ) (f : Py (List ℕ) → ℚ),
    (drawIndices n k).expect f =
      (∑ d : Fin k → Fin n, f (.ok ((List.ofFn d).map Fin.val))) / (n : ℚ) ^ k
  | 0, f => by simp [drawIndices]
  | k + 1, f => by
    simp only [drawIndices, monad_bind, expect_bind]
    rw [expect_uniformIdx hn, ← Equiv.sum_comp (Fin.consEquiv (fun _ : Fin (k + 1) => Fin n))
      (fun d : Fin (k + 1) → Fin n => f (.ok ((List.ofFn d).map Fin.val))),
      Fintype.sum_prod_type, Finset.sum_range, pow_succ, ← div_div]
    congr 1
    rw [Finset.sum_div]
    refine Finset.sum_congr (ι := Fin n) rfl fun i _ => ?_
    simp only [cont]
    rw [expect_bind, expect_drawIndices n hn k]
    simp [cont, Fin.consEquiv, List.ofFn_succ]

theorem pyInt_nonneg {q : ℚ} (h : 0 ≤ q) : pyInt q = ⌊q⌋ ∧ 0 ≤ pyInt q := by
  unfold pyInt
  rw [if_pos h]
  exact ⟨rfl, Int.floor_nonneg.mpr h⟩

theorem shuffleSplitData_eq {α β : Type} (X : List α) (y : List β) (p : ℚ) (hX : X ≠ []) (hp : 0 ≤ p) :
    shuffleSplitData X y p =
      (drawIndices X.length ⌊p * X.length⌋₊).bind fun idx => Rand.lift (splitAt X y idx) := by
  have h0 : X.length ≠ 0 := by simpa using hX
  obtain ⟨h1, h2⟩ := pyInt_nonneg (q := p * X.length) (by positivity)
  rw [shuffleSplitData, if_neg h0, if_neg (by omega), h1]
  rfl

/-- **C65 (what a call can return).** For a matrix with `n ≥ 1` rows, labels for the same rows and a
proportion `p ≥ 0`, the possible results are exactly those of `⌊p·n⌋` draws with replacement: the test
part consists of the mirror images `n - 1 - i` of the drawn rows `i`, in the same order and with the same
repetitions. It is not the complement of the training part. -/
theorem C65_split {α β : Type} (X : List α) (y : List β) (p : ℚ) (hX : X ≠ [])
    (h : y.length = X.length) (hp : 0 ≤ p) (r : Py (Split α β)) :
    (shuffleSplitData X y p).Outcome r ↔
      ∃ idx : List (Fin X.length), idx.length = ⌊p * X.length⌋₊ ∧ r = .ok (mirrorSplit X y h idx) := by
  have h0 : X.length ≠ 0 := by simpa using hX
  rw [shuffleSplitData_eq X y p hX hp, outcome_bind]
  simp only [outcome_drawIndices _ h0, Rand.lift, outcome_done]
  constructor
  · rintro (⟨a, ⟨idx, hl, h1⟩, h2⟩ | ⟨e, ⟨idx, _, h1⟩, _⟩)
    · cases h1
      exact ⟨idx, hl, by rw [h2, splitAt_ok X y h]⟩
    · cases h1
  · rintro ⟨idx, hl, rfl⟩
    exact Or.inl ⟨_, ⟨idx, hl, rfl⟩, (splitAt_ok X y h idx).symm⟩

/-- **C65 (law).** All `n ^ ⌊p·n⌋` sequences of draws are equally likely. -/
theorem C65_law {α β : Type} (X : List α) (y : List β) (p : ℚ) (hX : X ≠ [])
    (h : y.length = X.length) (hp : 0 ≤ p) (f : Py (Split α β) → ℚ) :
    (shuffleSplitData X y p).expect f =
      (∑ d : Fin ⌊p * X.length⌋₊ → Fin X.length, f (.ok (mirrorSplit X y h (List.ofFn d)))) /
        (X.length : ℚ) ^ ⌊p * X.length⌋₊ := by
  have h0 : X.length ≠ 0 := by simpa using hX
  rw [shuffleSplitData_eq X y p hX hp, expect_bind, expect_drawIndices _ h0]
  simp only [cont, Rand.lift, expect_done, splitAt_ok X y h]

/-- **C65 (sizes).** Training and test part have the same number of rows, whatever the proportion. -/
theorem C65_sizes {α β : Type} (X : List α) (y : List β) (p : ℚ) (hX : X ≠ [])
    (h : y.length = X.length) (hp : 0 ≤ p) (s : Split α β)
    (hs : (shuffleSplitData X y p).Outcome (.ok s)) :
    s.trainX.length = ⌊p * X.length⌋₊ ∧ s.testX.length = ⌊p * X.length⌋₊ ∧
      s.trainY.length = ⌊p * X.length⌋₊ ∧ s.testY.length = ⌊p * X.length⌋₊ := by
  obtain ⟨idx, hl, e⟩ := (C65_split X y p hX h hp _).mp hs
  cases e
  simp [mirrorSplit, hl]

/-- The number of sequences of `k` draws that avoid a set of rows. -/
theorem card_avoid (n k : ℕ) (A : Finset (Fin n)) :
    (∑ d : Fin k → Fin n, if ∀ j, d j ∉ A then (1 : ℚ) else 0) = ((n : ℚ) - A.card) ^ k := by
  rw [Finset.sum_boole]
  have e : (Finset.univ.filter fun d : Fin k → Fin n => ∀ j, d j ∉ A) =
      Fintype.piFinset fun _ => Aᶜ := by
    ext d; simp [Fintype.mem_piFinset]
  rw [e, Fintype.card_piFinset]
  simp only [Finset.card_compl, Fintype.card_fin, Finset.prod_const, Finset.card_univ]
  rw [Nat.cast_pow, Nat.cast_sub (by simpa using A.card_le_univ)]

/-- Membership of a row in the two parts, for a matrix without repeated rows. -/
theorem mem_mirrorSplit {α β : Type} (X : List α) (y : List β) (h : y.length = X.length)
    (hX : X.Nodup) (idx : List (Fin X.length)) (r : Fin X.length) :
    (X.get r ∈ (mirrorSplit X y h idx).trainX ↔ r ∈ idx) ∧
      (X.get r ∈ (mirrorSplit X y h idx).testX ↔ r.rev ∈ idx) := by
  have inj := List.nodup_iff_injective_get.mp hX
  constructor
  · simp only [mirrorSplit, List.mem_map]
    constructor
    · rintro ⟨a, ha, e⟩; rwa [← inj e]
    · intro ha; exact ⟨r, ha, rfl⟩
  · simp only [mirrorSplit, List.mem_map]
    constructor
    · rintro ⟨a, ha, e⟩
      have := inj e
      rw [← this, Fin.rev_rev]; exact ha
    · intro ha; exact ⟨r.rev, ha, by rw [Fin.rev_rev]⟩

open Classical in
/-- **C65 (leakage).** For a matrix of distinct rows and `k = ⌊p·n⌋` draws, the probability that a given
row ends up both in the training and in the test part: the middle row of a matrix of odd size does so
whenever it is drawn, any other row when both it and its mirror image are drawn. -/
theorem C65_leakage {α β : Type} (X : List α) (y : List β) (p : ℚ)
    (h : y.length = X.length) (hp : 0 ≤ p) (hX : X.Nodup) (r : Fin X.length) :
    (shuffleSplitData X y p).expect
        (Split.indicator fun s => X.get r ∈ s.trainX ∧ X.get r ∈ s.testX) =
      if r.rev = r then 1 - (1 - 1 / (X.length : ℚ)) ^ ⌊p * X.length⌋₊
      else 1 - 2 * (1 - 1 / (X.length : ℚ)) ^ ⌊p * X.length⌋₊
        + (1 - 2 / (X.length : ℚ)) ^ ⌊p * X.length⌋₊ := by
  have hne : X ≠ [] := by rintro rfl; exact r.elim0
  have hn : (X.length : ℚ) ≠ 0 := by simpa using hne
  set k := ⌊p * X.length⌋₊ with hk
  rw [C65_law X y p hne h hp]
  simp only [Split.indicator, mem_mirrorSplit X y h hX, List.mem_ofFn]
  have total : (∑ _d : Fin k → Fin X.length, (1 : ℚ)) = (X.length : ℚ) ^ k := by simp
  have one := fun a : Fin X.length => card_avoid X.length k {a}
  have two := card_avoid X.length k {r, r.rev}
  simp only [Finset.mem_singleton, Finset.card_singleton, Finset.mem_insert, not_or] at one two
  have key : ∀ d : Fin k → Fin X.length,
      (if (∃ i, d i = r) ∧ (∃ i, d i = r.rev) then (1 : ℚ) else 0) =
        1 - (if ∀ j, ¬ d j = r then 1 else 0) - (if ∀ j, ¬ d j = r.rev then 1 else 0)
          + (if ∀ j, ¬ d j = r ∧ ¬ d j = r.rev then 1 else 0) := by
    intro d
    have e1 : (∀ j, ¬ d j = r) ↔ ¬ ∃ j, d j = r := by simp
    have e2 : (∀ j, ¬ d j = r.rev) ↔ ¬ ∃ j, d j = r.rev := by simp
    have e3 : (∀ j, ¬ d j = r ∧ ¬ d j = r.rev) ↔ (¬ ∃ j, d j = r) ∧ ¬ ∃ j, d j = r.rev := by
      simp [forall_and]
    simp only [e1, e2, e3]
    by_cases a : ∃ j, d j = r <;> by_cases b : ∃ j, d j = r.rev <;> simp only [a, b] <;> norm_num
  have pw : ∀ c : ℚ, ((X.length : ℚ) - c) ^ k / (X.length : ℚ) ^ k = (1 - c / X.length) ^ k := by
    intro c; rw [← div_pow, sub_div, div_self hn]
  trans ((X.length : ℚ) ^ k - (X.length - ((1 : ℕ) : ℚ)) ^ k - (X.length - ((1 : ℕ) : ℚ)) ^ k
    + (X.length - (({r, r.rev} : Finset (Fin X.length)).card : ℚ)) ^ k) / (X.length : ℚ) ^ k
  · congr 1
    rw [← total]
    nth_rewrite 1 [← one r]
    rw [← one r.rev, ← two, ← Finset.sum_sub_distrib, ← Finset.sum_sub_distrib,
      ← Finset.sum_add_distrib]
    refine Finset.sum_congr rfl fun d _ => ?_
    convert key d
  rw [add_div, sub_div, sub_div, div_self (pow_ne_zero k hn), pw, pw]
  by_cases hr : r.rev = r
  · rw [if_pos hr, hr]; simp
  · rw [if_neg hr, Finset.card_pair (Ne.symm hr)]; push_cast; ring

open Classical in
/-- **C65 (lost rows).** The probability that a row other than the middle one is used neither for training
nor for testing. -/
theorem C65_lost {α β : Type} (X : List α) (y : List β) (p : ℚ)
    (h : y.length = X.length) (hp : 0 ≤ p) (hX : X.Nodup) (r : Fin X.length) (hr : r.rev ≠ r) :
    (shuffleSplitData X y p).expect
        (Split.indicator fun s => X.get r ∉ s.trainX ∧ X.get r ∉ s.testX) =
      (1 - 2 / (X.length : ℚ)) ^ ⌊p * X.length⌋₊ := by
  have hne : X ≠ [] := by rintro rfl; exact r.elim0
  have hn : (X.length : ℚ) ≠ 0 := by simpa using hne
  rw [C65_law X y p hne h hp]
  simp only [Split.indicator, mem_mirrorSplit X y h hX, List.mem_ofFn]
  have two := card_avoid X.length ⌊p * X.length⌋₊ {r, r.rev}
  simp only [Finset.mem_singleton, Finset.mem_insert, not_or] at two
  rw [Finset.card_pair (Ne.symm hr)] at two
  have e3 : ∀ d : Fin ⌊p * X.length⌋₊ → Fin X.length,
      ((¬ ∃ j, d j = r) ∧ ¬ ∃ j, d j = r.rev) ↔ (∀ j, ¬ d j = r ∧ ¬ d j = r.rev) := by
    simp [forall_and]
  simp only [e3, two]
  rw [← div_pow, sub_div, div_self hn]
  norm_num

/-- Non-vacuity: ten distinct rows, proportion 7/10: seven draws; the first row leaks with the stated
positive probability. -/
example : (List.range 10).Nodup ∧ ⌊(7 / 10 : ℚ) * 10⌋₊ = 7 ∧ (0 : Fin 10).rev ≠ 0 ∧
    (0 : ℚ) < 1 - 2 * (1 - 1 / 10) ^ 7 + (1 - 2 / 10) ^ 7 := by
  refine ⟨List.nodup_range, by norm_num, by decide, by norm_num⟩

/-- **C65 (labels of other length).** When there are fewer labels than rows, drawing a row without label
raises `IndexError`. -/
theorem C65_missing_labels {α β : Type} (X : List α) (y : List β) (p : ℚ) (hX : X ≠ [])
    (h : y.length < X.length) (hp : 1 ≤ p * X.length) :
    (shuffleSplitData X y p).Outcome (.error .indexError) := by
  have h0 : X.length ≠ 0 := by simpa using hX
  have hp' : 0 ≤ p := by
    by_contra hc
    have : p * X.length ≤ 0 := mul_nonpos_of_nonpos_of_nonneg (by linarith) (by positivity)
    linarith
  rw [shuffleSplitData_eq X y p hX hp', outcome_bind]
  have hk : 1 ≤ ⌊p * X.length⌋₊ := Nat.le_floor (by simpa using hp)
  refine Or.inl ⟨_, (outcome_drawIndices _ h0 _ _).mpr
    ⟨List.replicate ⌊p * X.length⌋₊ ⟨y.length, h⟩, by simp, rfl⟩, ?_⟩
  simp only [Rand.lift, outcome_done]
  have a : takeRows X ((List.replicate ⌊p * X.length⌋₊ y.length).map fun i : ℕ => (i : ℤ)) =
      .ok (List.replicate ⌊p * X.length⌋₊ X[y.length]) := by
    rw [takeRows_of X _ _ (fun _ => X[y.length])]
    · simp
    · intro i hi
      rw [List.eq_of_mem_replicate hi]
      exact pyGet_nat X _ h
  have b : takeRows y ((List.replicate ⌊p * X.length⌋₊ y.length).map fun i : ℕ => (i : ℤ)) =
      .error .indexError := by
    unfold takeRows
    rw [List.mapM_map]
    refine mapM_error_of (fun i hi => Or.inr ?_) ⟨y.length, ?_, pyGet_nat_ge y _ le_rfl⟩
    · rw [List.eq_of_mem_replicate hi]; exact pyGet_nat_ge y _ le_rfl
    · exact List.mem_replicate.mpr ⟨by omega, rfl⟩
  rw [List.map_replicate]
  unfold splitAt
  rw [a, b]
  rfl

end Verif
