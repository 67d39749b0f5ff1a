/-
The pieces of the generators: draws without replacement, marks and noise.
-/
import Verif.Spec.Synthetic
import Verif.Lemmas.Py
import Verif.Lemmas.Rand
import Mathlib.Data.Finset.SymmDiff
import Mathlib.Data.List.GetD
import Mathlib.Tactic.Linarith
import Mathlib.Tactic.FieldSimp
import Mathlib.Tactic.Positivity

namespace Verif

namespace Synthetic

open Rand

theorem shaped_zeros (n m : ℕ) : Shaped n m (zeros n m) := by
  refine ⟨by simp [zeros], ?_⟩
  intro row h
  rw [zeros, List.mem_replicate] at h
  rw [h.2, List.length_replicate]

theorem cell_zeros (n m r c : ℕ) : cell (zeros n m) r c = 0 := by
  unfold cell zeros
  by_cases hr : r < n
  · have e : (List.replicate n (List.replicate m (0 : ℤ))).getD r [] = List.replicate m 0 := by
      rw [getD_lt (by simpa using hr), List.getElem_replicate]
    rw [e]
    by_cases hc : c < m
    · rw [getD_lt (by simpa using hc), List.getElem_replicate]
    · rw [List.getD_eq_default _ _ (by simpa using hc)]
  · have e : (List.replicate n (List.replicate m (0 : ℤ))).getD r [] = [] :=
      List.getD_eq_default _ _ (by simpa using hr)
    rw [e]
    rfl

theorem Shaped.row {n m : ℕ} {M : Matrix} (h : Shaped n m M) {r : ℕ} (hr : r < M.length) : M[r].length = m :=
  h.2 _ (List.getElem_mem _)

/-- Matrices of the same shape with the same cells are equal. -/
theorem Shaped.ext {n m : ℕ} {M M' : Matrix} (h : Shaped n m M) (h' : Shaped n m M')
    (e : ∀ r < n, ∀ c < m, cell M r c = cell M' r c) : M = M' := by
  apply List.ext_getElem (by rw [h.1, h'.1])
  intro r h1 h2
  apply List.ext_getElem (by rw [h.row, h'.row])
  intro c g1 g2
  have := e r (h.1 ▸ h1) c (h.row h1 ▸ g1)
  unfold cell at this
  rw [getD_lt h1, getD_lt h2, getD_lt g1, getD_lt g2] at this
  exact this

theorem setCell_ok {n m : ℕ} {M : Matrix} (h : Shaped n m M) {r c : ℕ} (hr : r < n) (hc : c < m) (v : ℤ) :
    ∃ M', setCell M r c v = .ok M' ∧ Shaped n m M' ∧
      ∀ r' c', cell M' r' c' = if r' = r ∧ c' = c then v else cell M r' c' := by
  have hr' : r < M.length := h.1 ▸ hr
  have hc' : c < M[r].length := by rw [h.row hr']; exact hc
  refine ⟨M.set r (M[r].set c v), ?_, ⟨?_, ?_⟩, ?_⟩
  · rw [setCell, dif_pos hr', if_pos hc']
  · rw [List.length_set, h.1]
  · intro row hrow
    rcases List.mem_or_eq_of_mem_set hrow with h1 | h1
    · exact h.2 _ h1
    · rw [h1, List.length_set, h.row hr']
  · intro r' c'
    unfold cell
    by_cases e : r' = r
    · subst e
      have e1 : (M.set r' (M[r'].set c v)).getD r' [] = M[r'].set c v := by
        rw [getD_lt (by simpa using hr')]; simp
      rw [e1, getD_lt hr', List.getD_eq_getElem?_getD, List.getElem?_set]
      by_cases e' : c = c'
      · subst e'
        simp [hc']
      · rw [if_neg e', if_neg (fun h => e' h.2.symm), ← List.getD_eq_getElem?_getD]
    · have e1 : (M.set r (M[r].set c v)).getD r' [] = M.getD r' [] := by
        rw [List.getD_eq_getElem?_getD, List.getElem?_set, if_neg (fun h => e h.symm),
          ← List.getD_eq_getElem?_getD]
      rw [e1, if_neg (fun h => e h.1)]

theorem getCell_ok {n m : ℕ} {M : Matrix} (h : Shaped n m M) {r c : ℕ} (hr : r < n) (hc : c < m) :
    getCell M r c = .ok (cell M r c) := by
  have hr' : r < M.length := h.1 ▸ hr
  have hc' : c < M[r].length := by rw [h.row hr']; exact hc
  rw [getCell, dif_pos hr', dif_pos hc', cell, getD_lt hr', getD_lt hc']

theorem foldlM_cons {α β : Type} (f : β → α → Py β) (b : β) (a : α) (l : List α) :
    (a :: l).foldlM f b = (f b a).bind fun b' => l.foldlM f b' := by
  rw [List.foldlM_cons]; rfl

theorem markRow_ok {n m : ℕ} {r : ℕ} (hr : r < n) : ∀ (cols : List ℕ) (M : Matrix), Shaped n m M →
    (∀ c ∈ cols, c < m) →
    ∃ M', cols.foldlM (fun M c => setCell M r c 1) M = .ok M' ∧ Shaped n m M' ∧
      ∀ r' c', cell M' r' c' = if r' = r ∧ c' ∈ cols then 1 else cell M r' c'
  | [], M, h, _ => ⟨M, rfl, h, by intro r' c'; simp⟩
  | c :: cols, M, h, hc => by
    obtain ⟨M1, e1, s1, v1⟩ := setCell_ok h hr (hc c (by simp)) 1
    obtain ⟨M2, e2, s2, v2⟩ := markRow_ok hr cols M1 s1 (fun c' h' => hc c' (by simp [h']))
    refine ⟨M2, ?_, s2, ?_⟩
    · rw [foldlM_cons, e1]; exact e2
    · intro r' c'
      rw [v2, v1]
      by_cases e : r' = r
      · by_cases e' : c' = c
        · simp [e, e']
        · simp [e, e']
      · simp [e]

theorem mark_ok {n m : ℕ} {cols : List ℕ} (hc : ∀ c ∈ cols, c < m) : ∀ (covered : List ℕ) (M : Matrix),
    Shaped n m M → (∀ r ∈ covered, r < n) →
    ∃ M', mark M covered cols = .ok M' ∧ Shaped n m M' ∧
      ∀ r c, cell M' r c = if r ∈ covered ∧ c ∈ cols then 1 else cell M r c
  | [], M, h, _ => ⟨M, rfl, h, by intro r' c'; simp⟩
  | r :: covered, M, h, hr => by
    obtain ⟨M1, e1, s1, v1⟩ := markRow_ok (hr r (by simp)) cols M h hc
    obtain ⟨M2, e2, s2, v2⟩ := mark_ok hc covered M1 s1 (fun c' h' => hr c' (by simp [h']))
    refine ⟨M2, ?_, s2, ?_⟩
    · rw [mark, foldlM_cons, e1]; exact e2
    · intro r' c'
      rw [v2, v1]
      by_cases e : r' = r
      · by_cases e' : c' ∈ cols
        · simp [e, e']
        · simp [e']
      · simp [e]

/-- One more rule. -/
theorem Explained.snoc {n m : ℕ} {cover names : List (List ℕ)} {M M' : Matrix} (h : Explained n m cover names M)
    (hl : cover.length = names.length) {rows cols : List ℕ} (hs : Shaped n m M')
    (hv : ∀ r c, cell M' r c = if r ∈ rows ∧ c ∈ cols then 1 else cell M r c) :
    Explained n m (cover ++ [rows]) (names ++ [cols]) M' := by
  refine ⟨hs, ?_⟩
  intro r hr c hc
  rw [hv, h.2 r hr c hc]
  by_cases h1 : r ∈ rows ∧ c ∈ cols
  · rw [if_pos h1, if_pos]
    refine ⟨names.length, by simp, ?_, ?_⟩
    · rw [← hl, List.getD_append_right _ _ _ _ (le_refl _)]; simpa using h1.1
    · rw [List.getD_append_right _ _ _ _ (le_refl _)]; simpa using h1.2
  · rw [if_neg h1]
    have : (∃ i < names.length, r ∈ cover.getD i [] ∧ c ∈ names.getD i []) ↔
        (∃ i < (names ++ [cols]).length, r ∈ (cover ++ [rows]).getD i [] ∧ c ∈ (names ++ [cols]).getD i []) := by
      constructor
      · rintro ⟨i, hi, h2, h3⟩
        refine ⟨i, by simp; omega, ?_, ?_⟩
        · rwa [List.getD_append _ _ _ _ (by omega)]
        · rwa [List.getD_append _ _ _ _ hi]
      · rintro ⟨i, hi, h2, h3⟩
        by_cases e : i < names.length
        · rw [List.getD_append _ _ _ _ (by omega)] at h2
          rw [List.getD_append _ _ _ _ e] at h3
          exact ⟨i, e, h2, h3⟩
        · have hi' : i = names.length := by simp at hi; omega
          subst hi'
          rw [← hl, List.getD_append_right _ _ _ _ (le_refl _)] at h2
          rw [List.getD_append_right _ _ _ _ (le_refl _)] at h3
          exact absurd ⟨by simpa using h2, by simpa using h3⟩ h1
    simp only [this]

/-! ### Draws -/

theorem sample_proper : ∀ (k : ℕ) (xs : List ℕ), (sample xs k).Proper
  | 0, _ => trivial
  | k + 1, xs => by
    refine proper_bind _ _ (uniformIdx_proper _) fun i => proper_bind _ _ trivial fun x =>
      proper_bind _ _ (sample_proper k _) fun _ => trivial

theorem choices_proper (w : List ℚ) : ∀ k, (choices w k).Proper
  | 0 => by unfold choices; split <;> trivial
  | k + 1 => by
    unfold choices
    split
    · trivial
    · exact proper_bind _ _ (npChoice_proper _) fun _ => proper_bind _ _ (choices_proper w k) fun _ => trivial

theorem drawSize_proper (n : ℕ) : (drawSize n).Proper :=
  proper_bind _ _ (choices_proper _ _) fun _ => proper_bind _ _ trivial fun _ => trivial

theorem addNoise_proper (n m : ℕ) : ∀ k M, (addNoise n m k M).Proper
  | 0, _ => trivial
  | k + 1, M => proper_bind _ _ (uniformIdx_proper _) fun _ => proper_bind _ _ (uniformIdx_proper _) fun _ =>
      proper_bind _ _ trivial fun _ => proper_bind _ _ trivial fun _ => addNoise_proper n m k _

/-- A draw without replacement from a list of different numbers. -/
theorem outcome_sample : ∀ (k : ℕ) (xs : List ℕ), xs.Nodup → k ≤ xs.length → ∀ x : Py (List ℕ),
    (sample xs k).Outcome x ↔ ∃ l : List ℕ, x = .ok l ∧ l.length = k ∧ l.Nodup ∧ ∀ a ∈ l, a ∈ xs
  | 0, xs, _, _, x => by
    simp only [sample, monad_pure, outcome_done]
    constructor
    · rintro rfl; exact ⟨[], rfl, rfl, List.nodup_nil, by simp⟩
    · rintro ⟨l, rfl, h, -⟩; rw [List.length_eq_zero_iff.mp h]
  | k + 1, xs, hn, hk, x => by
    have h0 : xs.length ≠ 0 := by omega
    simp only [sample, monad_bind, monad_pure, Rand.lift]
    rw [outcome_bind]
    simp only [outcome_uniformIdx h0]
    have step : ∀ i (hi : i < xs.length),
        ((Rand.done (pyGet xs (i : ℤ))).bind fun x =>
          (sample (xs.eraseIdx i) k).bind fun rest => Rand.done (.ok (x :: rest))).Outcome x ↔
        ∃ l : List ℕ, x = .ok (xs[i] :: l) ∧ l.length = k ∧ l.Nodup ∧ ∀ a ∈ l, a ∈ xs.eraseIdx i := by
      intro i hi
      rw [pyGet_nat xs i hi, bind_done_ok, outcome_bind]
      have ih := outcome_sample k (xs.eraseIdx i) (hn.eraseIdx i) (by rw [List.length_eraseIdx_of_lt hi]; omega)
      simp only [ih, outcome_done]
      constructor
      · rintro (⟨a, ⟨l, e, h⟩, rfl⟩ | ⟨e, ⟨l, h, -⟩, -⟩)
        · cases e; exact ⟨a, rfl, h⟩
        · cases h
      · rintro ⟨l, rfl, h⟩
        exact Or.inl ⟨l, ⟨l, rfl, h⟩, rfl⟩
    have memE : ∀ i (hi : i < xs.length) a, a ∈ xs.eraseIdx i ↔ a ∈ xs ∧ a ≠ xs[i] := by
      intro i hi a
      rw [List.mem_eraseIdx_iff_getElem]
      constructor
      · rintro ⟨j, hj, hne, rfl⟩
        exact ⟨List.getElem_mem _, fun e => hne (hn.getElem_inj_iff.mp e)⟩
      · rintro ⟨h1, h2⟩
        obtain ⟨j, hj, rfl⟩ := List.mem_iff_getElem.mp h1
        exact ⟨j, hj, fun e => h2 (by simp only [e]), rfl⟩
    constructor
    · rintro (⟨a, ⟨i, hi, e⟩, h⟩ | ⟨e, ⟨i, _, h⟩, -⟩)
      · cases e
        obtain ⟨l, rfl, h1, h2, h3⟩ := (step a hi).mp h
        refine ⟨xs[a] :: l, rfl, by simp [h1], ?_, ?_⟩
        · rw [List.nodup_cons]
          exact ⟨fun hm => ((memE a hi _).mp (h3 _ hm)).2 rfl, h2⟩
        · intro b hb
          rcases List.mem_cons.mp hb with rfl | hb
          · exact List.getElem_mem _
          · exact ((memE a hi _).mp (h3 _ hb)).1
      · cases h
    · rintro ⟨l, rfl, h1, h2, h3⟩
      cases l with
      | nil => simp at h1
      | cons b l =>
        obtain ⟨i, hi, e⟩ := List.mem_iff_getElem.mp (h3 b (by simp))
        rw [List.nodup_cons] at h2
        refine Or.inl ⟨i, ⟨i, hi, rfl⟩, (step i hi).mpr ⟨l, by rw [e], by simpa using h1, h2.2, ?_⟩⟩
        intro a ha
        refine (memE i hi a).mpr ⟨h3 a (by simp [ha]), ?_⟩
        rintro rfl
        exact h2.1 (e ▸ ha)

theorem outcome_choices {w : List ℚ} (hne : w ≠ []) (hw : ∀ q ∈ w, 0 < q) : ∀ (k : ℕ) (x : Py (List ℕ)),
    (choices w k).Outcome x ↔ ∃ l : List ℕ, x = .ok l ∧ l.length = k ∧ ∀ a ∈ l, a < w.length
  | 0, x => by
    rw [choices, if_neg hne]
    simp only [monad_pure, outcome_done]
    constructor
    · rintro rfl; exact ⟨[], rfl, rfl, by simp⟩
    · rintro ⟨l, rfl, h, -⟩; rw [List.length_eq_zero_iff.mp h]
  | k + 1, x => by
    rw [choices, if_neg hne]
    have hs : 0 < w.sum := List.sum_pos w hw hne
    simp only [monad_bind, monad_pure, outcome_bind, outcome_normalised (fun q h => (hw q h).le) hs,
      outcome_choices hne hw k, outcome_done]
    constructor
    · rintro (⟨a, ⟨i, hi, -, e⟩, h⟩ | ⟨e, ⟨i, _, _, h⟩, -⟩)
      · cases e
        rcases h with ⟨l, ⟨l', e, h1, h2⟩, rfl⟩ | ⟨e, ⟨l, h, -⟩, -⟩
        · cases e
          refine ⟨a :: l, rfl, by simp [h1], ?_⟩
          intro b hb
          rcases List.mem_cons.mp hb with rfl | hb
          · exact hi
          · exact h2 b hb
        · cases h
      · cases h
    · rintro ⟨l, rfl, h1, h2⟩
      cases l with
      | nil => simp at h1
      | cons b l =>
        have hb : b < w.length := h2 b (by simp)
        exact Or.inl ⟨b, ⟨b, hb, by rw [getD_lt hb]; exact hw _ (List.getElem_mem _), rfl⟩,
          Or.inl ⟨l, ⟨l, rfl, by simpa using h1, fun a ha => h2 a (by simp [ha])⟩, rfl⟩⟩

theorem choices_empty (k : ℕ) : choices [] k = Rand.raise .indexError := by
  cases k <;> rfl

/-- The weights of the sizes. -/
abbrev sizeWeights (n : ℕ) : List ℚ := (List.range (n - 2)).map fun x : ℕ => 1 / ((x : ℚ) + 2)

theorem sizeWeights_pos (n : ℕ) : ∀ q ∈ sizeWeights n, 0 < q := by
  intro q h
  obtain ⟨x, -, rfl⟩ := List.mem_map.mp h
  have h0 : (0 : ℚ) ≤ x := Nat.cast_nonneg x
  exact one_div_pos.mpr (by linarith)

theorem sizeWeights_ne {n : ℕ} (hn : 2 < n) : sizeWeights n ≠ [] := by
  intro h
  have := congrArg List.length h
  simp at this
  omega

theorem outcome_drawSize {n : ℕ} (hn : 2 < n) (x : Py ℕ) :
    (drawSize n).Outcome x ↔ ∃ s, x = .ok s ∧ 2 ≤ s ∧ s < n := by
  simp only [drawSize, monad_bind, monad_pure, Rand.lift]
  rw [outcome_bind]
  simp only [outcome_choices (sizeWeights_ne hn) (sizeWeights_pos n)]
  constructor
  · rintro (⟨l, ⟨l', e, h1, h2⟩, h⟩ | ⟨e, ⟨l, h, -⟩, -⟩)
    · cases e
      obtain ⟨a, rfl⟩ := List.length_eq_one_iff.mp h1
      have ha : a < n - 2 := by simpa using h2 a (by simp)
      have e : pyGet [a] 0 = .ok a := pyGet_nat [a] 0 (by simp)
      rw [e, bind_done_ok, outcome_done] at h
      exact ⟨a + 2, h, by omega, by omega⟩
    · cases h
  · rintro ⟨s, rfl, h1, h2⟩
    refine Or.inl ⟨[s - 2], ⟨[s - 2], rfl, rfl, ?_⟩, ?_⟩
    · intro a ha
      simp only [List.mem_singleton] at ha
      simp; omega
    · have e : pyGet [s - 2] 0 = .ok (s - 2) := pyGet_nat [s - 2] 0 (by simp)
      rw [e, bind_done_ok, outcome_done]
      congr 1; omega

theorem drawSize_small {n : ℕ} (hn : n ≤ 2) : drawSize n = Rand.raise .indexError := by
  have : n - 2 = 0 := by omega
  rw [drawSize, this]
  rfl

/-! ### Noise -/

/-- `M'` is `M` with one cell flipped. -/
def FlippedAt (n m : ℕ) (x : ℕ × ℕ) (M M' : Matrix) : Prop :=
  Shaped n m M' ∧ ∀ r c, cell M' r c = if (r, c) = x then 1 - cell M r c else cell M r c

theorem Flipped.step {n m k : ℕ} {x : ℕ × ℕ} (hx : x ∈ Finset.range n ×ˢ Finset.range m) {M M1 M' : Matrix}
    (h1 : FlippedAt n m x M M1) (h : Flipped n m k M1 M') : Flipped n m (k + 1) M M' := by
  obtain ⟨hs, S, hS, hk, hp, hv⟩ := h
  refine ⟨hs, ?_⟩
  by_cases hxS : x ∈ S
  · have hc := Finset.card_erase_of_mem hxS
    have h0 : 0 < S.card := Finset.card_pos.mpr ⟨x, hxS⟩
    refine ⟨S.erase x, (Finset.erase_subset _ _).trans hS, by omega, by omega, ?_⟩
    intro r hr c hc
    rw [hv r hr c hc, h1.2]
    by_cases e : (r, c) = x
    · simp [e, hxS]
    · simp [e]
  · have hc := Finset.card_insert_of_notMem hxS
    refine ⟨insert x S, Finset.insert_subset hx hS, by omega, by omega, ?_⟩
    intro r hr c hc
    rw [hv r hr c hc, h1.2]
    by_cases e : (r, c) = x
    · simp [e, hxS]
    · simp [e]

theorem Flipped.unstep {n m k : ℕ} (hn : 0 < n) (hm : 0 < m) {M M' : Matrix} (h : Flipped n m (k + 1) M M') :
    ∃ x ∈ Finset.range n ×ˢ Finset.range m, ∀ M1, FlippedAt n m x M M1 → Flipped n m k M1 M' := by
  obtain ⟨hs, S, hS, hk, hp, hv⟩ := h
  rcases S.eq_empty_or_nonempty with rfl | ⟨x, hx⟩
  · refine ⟨(0, 0), by simp [hn, hm], ?_⟩
    intro M1 h1
    refine ⟨hs, {(0, 0)}, by simp [hn, hm], ?_, ?_, ?_⟩
    · simp at hp ⊢; omega
    · simp at hp ⊢; omega
    · intro r hr c hc
      rw [hv r hr c hc, h1.2]
      by_cases e : (r, c) = (0, 0)
      · simp [e]
      · rw [if_neg (by simp), if_neg (by simpa using e), if_neg e]
  · refine ⟨x, hS hx, ?_⟩
    intro M1 h1
    have hc := Finset.card_erase_of_mem hx
    have h0 : 0 < S.card := Finset.card_pos.mpr ⟨x, hx⟩
    refine ⟨hs, S.erase x, (Finset.erase_subset _ _).trans hS, by omega, by omega, ?_⟩
    intro r hr c hc
    rw [hv r hr c hc, h1.2]
    by_cases e : (r, c) = x
    · simp [e, hx]
    · simp [e]

theorem Flipped.zero_iff {n m : ℕ} {M : Matrix} (hM : Shaped n m M) (M' : Matrix) :
    Flipped n m 0 M M' ↔ M' = M := by
  constructor
  · rintro ⟨hs, S, -, hk, -, hv⟩
    have hS : S = ∅ := Finset.card_eq_zero.mp (by omega)
    subst hS
    exact hs.ext hM fun r hr c hc => by rw [hv r hr c hc]; simp
  · rintro rfl
    exact ⟨hM, ∅, by simp, by simp, by simp, by simp⟩

/-- What the noise loop can return. -/
theorem outcome_addNoise {n m : ℕ} (hn : 0 < n) (hm : 0 < m) : ∀ (k : ℕ) (M : Matrix), Shaped n m M →
    ∀ x : Py Matrix, (addNoise n m k M).Outcome x ↔ ∃ M', x = .ok M' ∧ Flipped n m k M M'
  | 0, M, hM, x => by
    simp only [addNoise, monad_pure, outcome_done, Flipped.zero_iff hM]
    constructor
    · rintro rfl; exact ⟨M, rfl, rfl⟩
    · rintro ⟨M', rfl, rfl⟩; rfl
  | k + 1, M, hM, x => by
    have step : ∀ r < n, ∀ c < m, ∃ M1, FlippedAt n m (r, c) M M1 ∧
        ((Rand.done (getCell M r c)).bind fun v => (Rand.done (setCell M r c (1 - v))).bind fun M =>
          addNoise n m k M) = addNoise n m k M1 := by
      intro r hr c hc
      obtain ⟨M1, e, s, v⟩ := setCell_ok hM hr hc (1 - cell M r c)
      refine ⟨M1, ⟨s, ?_⟩, ?_⟩
      · intro r' c'
        rw [v]
        by_cases h : r' = r ∧ c' = c
        · rw [if_pos h, if_pos (by rw [h.1, h.2]), h.1, h.2]
        · rw [if_neg h, if_neg (by rwa [Prod.mk.injEq])]
      · rw [getCell_ok hM hr hc, bind_done_ok, e, bind_done_ok]
    simp only [addNoise, monad_bind, Rand.lift]
    rw [outcome_bind]
    simp only [outcome_uniformIdx hn.ne']
    constructor
    · rintro (⟨r, ⟨r', hr, e⟩, h⟩ | ⟨e, ⟨i, _, h⟩, -⟩)
      · cases e
        rw [outcome_bind] at h
        simp only [outcome_uniformIdx hm.ne'] at h
        rcases h with ⟨c, ⟨c', hc, e⟩, h⟩ | ⟨e, ⟨i, _, h⟩, -⟩
        · cases e
          obtain ⟨M1, h1, e1⟩ := step r hr c hc
          rw [e1] at h
          obtain ⟨M', rfl, h'⟩ := (outcome_addNoise hn hm k M1 h1.1 x).mp h
          exact ⟨M', rfl, h'.step (by simp [hr, hc]) h1⟩
        · cases h
      · cases h
    · rintro ⟨M', rfl, h⟩
      obtain ⟨⟨r, c⟩, hx, h'⟩ := h.unstep hn hm
      rw [Finset.mem_product, Finset.mem_range, Finset.mem_range] at hx
      refine Or.inl ⟨r, ⟨r, hx.1, rfl⟩, ?_⟩
      rw [outcome_bind]
      simp only [outcome_uniformIdx hm.ne']
      refine Or.inl ⟨c, ⟨c, hx.2, rfl⟩, ?_⟩
      obtain ⟨M1, h1, e1⟩ := step r hx.1 c hx.2
      rw [e1]
      exact (outcome_addNoise hn hm k M1 h1.1 _).mpr ⟨M', rfl, h' M1 h1⟩

end Synthetic

end Verif
