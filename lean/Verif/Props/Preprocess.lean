/-
The conversion of a table of categories to zeros and ones.
-/
import Verif.Spec.Preprocess
import Mathlib.Data.List.Dedup
import Mathlib.Data.List.Sort
import Mathlib.Data.Finset.Dedup
import Mathlib.Data.List.GetD
import Mathlib.Order.Lattice.Nat

namespace Verif

namespace Preprocess

variable {V : Type} [LinearOrder V]

omit [LinearOrder V] in
theorem mem_values (df : Frame V) (i : ℕ) (v : V) : v ∈ df.values i ↔ Occurs df i v := by
  unfold Frame.values Occurs cell
  rw [List.mem_filterMap]
  constructor
  · rintro ⟨row, hrow, h⟩
    obtain ⟨r, hr, rfl⟩ := List.getElem_of_mem hrow
    refine ⟨r, hr, ?_⟩
    rw [List.getElem?_eq_getElem hr, Option.getD_some, ← h, List.getD_eq_getElem?_getD]
  · rintro ⟨r, hr, h⟩
    refine ⟨df.rows[r], List.getElem_mem hr, ?_⟩
    rw [List.getElem?_eq_getElem hr, Option.getD_some] at h
    rw [List.getD_eq_getElem?_getD, h]

theorem hasValues_iff (df : Frame V) (i k : ℕ) : HasValues df i k ↔ df.nunique i = k := by
  constructor
  · rintro ⟨s, hs, rfl⟩
    have : s = (df.values i).toFinset := by
      ext v
      rw [hs, List.mem_toFinset, mem_values]
    rw [this, List.card_toFinset]
    rfl
  · rintro rfl
    refine ⟨(df.values i).toFinset, fun v => ?_, ?_⟩
    · rw [List.mem_toFinset, mem_values]
    · rw [List.card_toFinset]; rfl

theorem mem_columnsToKeep (df : Frame V) (i : ℕ) : i ∈ df.columnsToKeep ↔ FeatureColumn df i := by
  unfold Frame.columnsToKeep FeatureColumn
  rw [List.mem_filter, List.mem_range]
  refine and_congr_right fun _ => ?_
  rw [decide_eq_true_iff]
  constructor
  · rintro ⟨h1, h2⟩
    exact ⟨df.nunique i, (hasValues_iff df i _).2 rfl, h2, by omega⟩
  · rintro ⟨k, hk, h1, h2⟩
    rw [hasValues_iff] at hk
    omega

theorem mem_labelColumns (df : Frame V) (i : ℕ) : i ∈ df.labelColumns ↔ LabelColumn df i := by
  unfold Frame.labelColumns LabelColumn
  rw [List.mem_filter, List.mem_range]
  refine and_congr_right fun _ => ?_
  rw [decide_eq_true_iff]
  constructor
  · intro h1
    exact ⟨df.nunique i, (hasValues_iff df i _).2 rfl, by omega⟩
  · rintro ⟨k, hk, h2⟩
    rw [hasValues_iff] at hk
    omega

theorem mem_categories (df : Frame V) (i : ℕ) (v : V) : v ∈ df.categories i ↔ Occurs df i v := by
  unfold Frame.categories
  rw [List.mem_dedup, List.mem_insertionSort, mem_values]

theorem categories_sorted (df : Frame V) (i : ℕ) : (df.categories i).Pairwise (· < ·) := by
  have h1 : ((df.values i).insertionSort (· ≤ ·)).Pairwise (· ≤ ·) := List.pairwise_insertionSort _ _
  have h2 : (df.categories i).Pairwise (· ≤ ·) := h1.sublist (List.dedup_sublist _)
  have h3 : (df.categories i).Nodup := List.nodup_dedup _
  exact (h2.and h3).imp fun h => lt_of_le_of_ne h.1 h.2

/-- The pairs that the columns of `get_dummies` stand for. -/
def headerOf (df : Frame V) (cols : List ℕ) : List (ℕ × V) :=
  cols.flatMap fun i => (df.categories i).map fun v => (i, v)

theorem encodes_getDummies (df : Frame V) (P : ℕ → Prop) (cols : List ℕ) (hc : ∀ i, i ∈ cols ↔ P i)
    (hs : cols.Pairwise (· < ·)) (M : List (List ℕ)) (h : df.getDummies cols = .ok M) :
    Encodes df P (headerOf df cols) M := by
  unfold Frame.getDummies at h
  split at h
  · exact absurd h (by simp)
  · injection h with h
    subst h
    refine ⟨?_, ?_, by simp, ?_⟩
    · unfold headerOf
      rw [List.pairwise_flatMap]
      refine ⟨fun i _ => ?_, ?_⟩
      · rw [List.pairwise_map]
        exact (categories_sorted df i).imp fun h => Or.inr ⟨rfl, h⟩
      · refine hs.imp fun {i j} hij a ha b hb => ?_
        rw [List.mem_map] at ha hb
        obtain ⟨_, _, rfl⟩ := ha
        obtain ⟨_, _, rfl⟩ := hb
        exact Or.inl hij
    · intro i v
      unfold headerOf
      rw [List.mem_flatMap]
      constructor
      · rintro ⟨j, hj, hm⟩
        rw [List.mem_map] at hm
        obtain ⟨w, hw, he⟩ := hm
        injection he with h1 h2
        subst h1; subst h2
        exact ⟨(hc _).1 hj, (mem_categories df _ _).1 hw⟩
      · rintro ⟨h1, h2⟩
        exact ⟨i, (hc i).2 h1, List.mem_map.2 ⟨v, (mem_categories df _ _).2 h2, rfl⟩⟩
    · intro r hr
      have hr' : r < df.rows.length := by simpa using hr
      have hrow : (df.rows.map fun r => cols.flatMap fun i =>
          (df.categories i).map fun v => if r.getD i none = some v then 1 else 0)[r]
          = (headerOf df cols).map fun e => if cell df r e.1 = some e.2 then 1 else 0 := by
        rw [List.getElem_map]
        unfold headerOf
        rw [List.map_flatMap]
        congr 1
        funext i
        rw [List.map_map]
        congr 1
        funext v
        simp only [Function.comp, cell, List.getElem?_eq_getElem hr', Option.getD_some,
          List.getD_eq_getElem?_getD]
      refine ⟨by rw [hrow, List.length_map], fun k hk hk' => ?_⟩
      have : (df.rows.map fun r => cols.flatMap fun i =>
          (df.categories i).map fun v => if r.getD i none = some v then 1 else 0)[r][k]
          = if cell df r (headerOf df cols)[k].1 = some (headerOf df cols)[k].2 then 1 else 0 := by
        simp only [hrow, List.getElem_map]
      rw [this]
      exact ⟨fun h => if_pos h, fun h => if_neg h⟩

/-- **C105.** What `preprocessing` returns: the features are the one-hot code of the columns with 3 to 14
values, the labels that of the columns with at most 2. -/
theorem C105_encoding (df : Frame V) (D L : List (List ℕ)) (h : preprocessing df = .ok (D, L)) :
    ∃ HD HL : List (ℕ × V), Encodes df (FeatureColumn df) HD D ∧ Encodes df (LabelColumn df) HL L := by
  unfold preprocessing at h
  simp only [bind, Except.bind, pure, Except.pure] at h
  cases hL : df.getDummies df.labelColumns with
  | error e => rw [hL] at h; exact absurd h (by simp)
  | ok L' =>
    rw [hL] at h
    cases hD : df.getDummies df.columnsToKeep with
    | error e => rw [hD] at h; exact absurd h (by simp)
    | ok D' =>
      rw [hD] at h
      simp only [Except.ok.injEq, Prod.mk.injEq] at h
      obtain ⟨rfl, rfl⟩ := h
      refine ⟨_, _, encodes_getDummies df _ _ (mem_columnsToKeep df) ?_ _ hD,
        encodes_getDummies df _ _ (mem_labelColumns df) ?_ _ hL⟩
      · exact List.pairwise_lt_range.filter _
      · exact List.pairwise_lt_range.filter _

/-- **C105.** It succeeds exactly when there is a column of either kind. -/
theorem C105_succeeds (df : Frame V) :
    (∃ r, preprocessing df = .ok r) ↔ (∃ i, FeatureColumn df i) ∧ ∃ i, LabelColumn df i := by
  unfold preprocessing Frame.getDummies
  simp only [bind, Except.bind, pure, Except.pure]
  have hK : df.columnsToKeep = [] ↔ ¬ ∃ i, FeatureColumn df i := by
    rw [List.eq_nil_iff_forall_not_mem, not_exists]
    exact forall_congr' fun i => not_congr (mem_columnsToKeep df i)
  have hL : df.labelColumns = [] ↔ ¬ ∃ i, LabelColumn df i := by
    rw [List.eq_nil_iff_forall_not_mem, not_exists]
    exact forall_congr' fun i => not_congr (mem_labelColumns df i)
  by_cases h1 : df.labelColumns = []
  · rw [if_pos h1]
    simp only [reduceCtorEq, exists_false, false_iff, not_and]
    exact fun _ => hL.1 h1
  · rw [if_neg h1]
    by_cases h2 : df.columnsToKeep = []
    · rw [if_pos h2]
      simp only [reduceCtorEq, exists_false, false_iff, not_and]
      exact fun h => absurd h (hK.1 h2)
    · rw [if_neg h2]
      refine ⟨fun _ => ⟨?_, ?_⟩, fun _ => ⟨_, rfl⟩⟩
      · by_contra h; exact h2 (hK.2 h)
      · by_contra h; exact h1 (hL.2 h)

/-- **C105.** Otherwise it raises `ValueError`. -/
theorem C105_error (df : Frame V) (e : PyErr) (h : preprocessing df = .error e) : e = .valueError := by
  unfold preprocessing Frame.getDummies at h
  simp only [bind, Except.bind, pure, Except.pure] at h
  split at h
  · rename_i h'
    split at h'
    · simp only [Except.error.injEq] at h h'; rw [← h, ← h']
    · exact absurd h' (by simp)
  · split at h
    · rename_i h'
      split at h'
      · simp only [Except.error.injEq] at h h'; rw [← h, ← h']
      · exact absurd h' (by simp)
    · exact absurd h (by simp)

theorem header_nodup {df : Frame V} {P : ℕ → Prop} {H : List (ℕ × V)} {M : List (List ℕ)}
    (h : Encodes df P H M) : H.Nodup := by
  refine h.1.imp fun {a b} hab he => ?_
  subst he
  rcases hab with h | ⟨_, h⟩ <;> exact absurd h (lt_irrefl _)

/-- **C105.** In every row a column that is not missing there gives exactly one 1. -/
theorem C105_exactly_one (df : Frame V) (P : ℕ → Prop) (H : List (ℕ × V)) (M : List (List ℕ))
    (h : Encodes df P H M) (r : ℕ) (hr : r < M.length) (i : ℕ) (hi : P i) (v : V) (hv : cell df r i = some v) :
    ∃! k : ℕ, ∃ (hk : k < M[r].length) (hk' : k < H.length), H[k].1 = i ∧ M[r][k] = 1 := by
  obtain ⟨_, hmem, hlen, hrow⟩ := id h
  have hmem' : (i, v) ∈ H := (hmem i v).2 ⟨hi, r, by omega, hv⟩
  obtain ⟨k, hk, he⟩ := List.getElem_of_mem hmem'
  have hkr : k < M[r].length := by rw [(hrow r hr).1]; exact hk
  refine ⟨k, ⟨hkr, hk, by rw [he], ((hrow r hr).2 k hkr hk).1 (by rw [he]; exact hv)⟩, ?_⟩
  rintro j ⟨hj, hj', h1, h2⟩
  have hjv : cell df r H[j].1 = some H[j].2 := by
    by_contra hne
    rw [((hrow r hr).2 j hj hj').2 hne] at h2
    exact absurd h2 (by omega)
  rw [h1, hv] at hjv
  have hje : H[j] = H[k] := by
    rw [he]
    exact Prod.ext h1 (Option.some.inj hjv).symm
  exact (header_nodup h).getElem_inj_iff.1 hje

/-- **C105.** A missing cell gives only zeros. -/
theorem C105_missing (df : Frame V) (P : ℕ → Prop) (H : List (ℕ × V)) (M : List (List ℕ))
    (h : Encodes df P H M) (r : ℕ) (hr : r < M.length) (i : ℕ) (hv : cell df r i = none)
    (k : ℕ) (hk : k < M[r].length) (hk' : k < H.length) (hki : H[k].1 = i) : M[r][k] = 0 := by
  refine ((h.2.2.2 r hr).2 k hk hk').2 ?_
  rw [hki, hv]
  simp

/-- **C105.** Two examples get the same code exactly when they agree in all columns that are coded. -/
theorem C105_injective (df : Frame V) (P : ℕ → Prop) (H : List (ℕ × V)) (M : List (List ℕ))
    (h : Encodes df P H M) (r s : ℕ) (hr : r < M.length) (hs : s < M.length) :
    M[r] = M[s] ↔ ∀ i, P i → cell df r i = cell df s i := by
  obtain ⟨_, hmem, hlen, hrow⟩ := id h
  have key : ∀ (a b : ℕ) (ha : a < M.length) (hb : b < M.length), M[a] = M[b] → ∀ i, P i → ∀ v,
      cell df a i = some v → cell df b i = some v := by
    intro a b ha hb hab i hi v hv
    have hm : (i, v) ∈ H := (hmem i v).2 ⟨hi, a, by omega, hv⟩
    obtain ⟨k, hk, he⟩ := List.getElem_of_mem hm
    have hka : k < M[a].length := by rw [(hrow a ha).1]; exact hk
    have hkb : k < M[b].length := by rw [(hrow b hb).1]; exact hk
    have h1 : M[a][k] = 1 := ((hrow a ha).2 k hka hk).1 (by rw [he]; exact hv)
    by_contra hne
    have h0 : M[b][k] = 0 := ((hrow b hb).2 k hkb hk).2 (by rw [he]; exact hne)
    have : M[a][k] = M[b][k] := by simp only [hab]
    omega
  constructor
  · intro he i hi
    cases hv : cell df r i with
    | some v => exact (key r s hr hs he i hi v hv).symm
    | none =>
      cases hw : cell df s i with
      | none => rfl
      | some w =>
        have := key s r hs hr he.symm i hi w hw
        rw [hv] at this
        exact absurd this (by simp)
  · intro hc
    refine List.ext_getElem (by rw [(hrow r hr).1, (hrow s hs).1]) fun k hk1 hk2 => ?_
    have hk : k < H.length := by rw [← (hrow r hr).1]; exact hk1
    have hP : P H[k].1 := ((hmem H[k].1 H[k].2).1 (List.getElem_mem hk)).1
    by_cases hv : cell df r H[k].1 = some H[k].2
    · rw [((hrow r hr).2 k hk1 hk).1 hv, ((hrow s hs).2 k hk2 hk).1 (by rw [← hc _ hP]; exact hv)]
    · rw [((hrow r hr).2 k hk1 hk).2 hv, ((hrow s hs).2 k hk2 hk).2 (by rw [← hc _ hP]; exact hv)]

/-- **C105.** A column with the two values `a` and `b`, none missing, gives two label columns that are the
complement of each other: "is `a`" and "is `b`". -/
theorem C105_two_labels (df : Frame V) (D L : List (List ℕ)) (h : preprocessing df = .ok (D, L)) (i : ℕ)
    (hi : i < df.ncols) (a b : V) (hab : a ≠ b) (ha : Occurs df i a) (hb : Occurs df i b)
    (hall : ∀ r < df.rows.length, cell df r i = some a ∨ cell df r i = some b) :
    ∃ k k' : ℕ, k ≠ k' ∧ ∀ (r : ℕ) (hr : r < L.length), ∃ (hk : k < L[r].length) (hk' : k' < L[r].length),
      L[r][k] + L[r][k'] = 1 ∧ (L[r][k] = 1 ↔ cell df r i = some a) := by
  obtain ⟨_, HL, _, hE⟩ := C105_encoding df D L h
  obtain ⟨_, hmem, hlen, hrow⟩ := id hE
  have hlab : LabelColumn df i := by
    refine ⟨hi, 2, ⟨{a, b}, fun v => ?_, Finset.card_pair hab⟩, le_refl _⟩
    rw [Finset.mem_insert, Finset.mem_singleton]
    constructor
    · rintro (rfl | rfl)
      · exact ha
      · exact hb
    · rintro ⟨r, hr, hv⟩
      rcases hall r hr with h' | h' <;> rw [h'] at hv
      · exact Or.inl (Option.some.inj hv).symm
      · exact Or.inr (Option.some.inj hv).symm
  obtain ⟨k, hk, hka⟩ := List.getElem_of_mem ((hmem i a).2 ⟨hlab, ha⟩)
  obtain ⟨k', hk', hkb⟩ := List.getElem_of_mem ((hmem i b).2 ⟨hlab, hb⟩)
  refine ⟨k, k', ?_, fun r hr => ?_⟩
  · rintro rfl
    rw [hka] at hkb
    injection hkb with _ h2
    exact hab h2
  · have h1 : k < L[r].length := by rw [(hrow r hr).1]; exact hk
    have h2 : k' < L[r].length := by rw [(hrow r hr).1]; exact hk'
    refine ⟨h1, h2, ?_⟩
    have e1 := (hrow r hr).2 k h1 hk
    have e2 := (hrow r hr).2 k' h2 hk'
    rw [hka] at e1
    rw [hkb] at e2
    rcases hall r (by omega) with hv | hv
    · have hne : cell df r i ≠ some b := by rw [hv]; simpa using hab
      rw [e1.1 hv, e2.2 hne]
      exact ⟨rfl, fun _ => hv, fun _ => rfl⟩
    · have hne : cell df r i ≠ some a := by rw [hv]; simpa using hab.symm
      rw [e1.2 hne, e2.1 hv]
      exact ⟨rfl, fun h => absurd h (by omega), fun h => absurd h hne⟩

/-- A table with a feature of three values, one cell missing, a column of two values, and a column with a
single value. -/
def exampleFrame : Frame ℕ :=
  { rows := [[some 7, some 0, some 4], [some 5, some 1, some 4], [none, some 1, some 4], [some 6, some 0, none]],
    ncols := 3 }

example : preprocessing exampleFrame =
    .ok ([[0, 0, 1], [1, 0, 0], [0, 0, 0], [0, 1, 0]], [[1, 0, 1], [0, 1, 1], [0, 1, 1], [1, 0, 0]]) := by
  decide +kernel

example : Occurs exampleFrame 1 0 ∧ Occurs exampleFrame 1 1 ∧
    ∀ r < exampleFrame.rows.length, cell exampleFrame r 1 = some 0 ∨ cell exampleFrame r 1 = some 1 :=
  ⟨⟨0, by decide, by decide⟩, ⟨1, by decide, by decide⟩, by decide⟩

example : preprocessing (⟨[[some 1], [some 2], [some 3]], 1⟩ : Frame ℕ) = .error .valueError := by
  decide +kernel

end Preprocess

end Verif
