/-
C98, C99: reading dense ARFF files.
-/
import Verif.Props.Arff
import Verif.Props.Quantile
import Mathlib.Data.List.GetD

namespace Verif

namespace Arff

variable {parse : Text → Py ℚ}

/-! ### Rows -/

theorem mapM_cells : ∀ {ts : List Text} {vs : List ℚ}, List.Forall₂ (CellValue parse) ts vs →
    (ts.mapM fun t => if t = [] then (.ok 0 : Py ℚ) else parse t) = .ok vs
  | _, _, .nil => rfl
  | _, _, .cons h hs => by
    rw [List.mapM_cons, mapM_cells hs]
    rcases h with ⟨h1, h2⟩ | ⟨h1, h2⟩
    · rw [if_pos h1, h2]; rfl
    · rw [if_neg h1, h2]; rfl

theorem intercalate_cons (t : Text) (ts : List Text) : List.intercalate [','] (t :: ts) =
    t ++ (if ts = [] then [] else ',' :: List.intercalate [','] ts) := by
  cases ts with
  | nil => simp [List.intercalate]
  | cons u us => simp [List.intercalate]

theorem inner_cells {line t : Text} {ts : List Text} (h : HasCells line t ts) :
    splitChar ',' (inner line) = t.drop 1 :: ts := by
  obtain ⟨hne, hc, rfl⟩ := h
  obtain ⟨c, t', rfl⟩ := List.exists_cons_of_ne_nil hne
  have : inner (List.intercalate [','] ((c :: t') :: ts) ++ ['\n']) = List.intercalate [','] (t' :: ts) := by
    rw [inner, intercalate_cons, intercalate_cons]
    simp only [List.cons_append, List.drop_succ_cons, List.drop_zero]
    rw [List.dropLast_concat]
  rw [this]
  refine splitChar_intercalate (by simp) ?_
  intro u hu
  rcases List.mem_cons.mp hu with rfl | hu
  · intro hm; exact hc (c :: u) List.mem_cons_self (List.mem_cons_of_mem _ hm)
  · exact hc u (List.mem_cons_of_mem _ hu)

/-- **C98.** A data line of a dense file is read without its first character, as if every line began with a
brace: the first cell loses its first character, the others are read as they are. -/
theorem C98_first_character {line t : Text} {ts : List Text} (h : HasCells line t ts) {vs : List ℚ}
    (hv : List.Forall₂ (CellValue parse) (t.drop 1 :: ts) vs) : denseRow parse (ts.length + 1) line = .ok vs := by
  have hl : vs.length = ts.length + 1 := by rw [← hv.length_eq]; simp
  rw [denseRow, inner_cells h, mapM_cells hv]
  show (if vs.length = ts.length + 1 then _ else _) = _
  rw [if_pos hl]

/-- **C98.** So the first attribute of a row is read as 0 if it is written with one character, whatever it
says. -/
theorem C98_first_digit_lost {line : Text} {c : Char} {ts : List Text} (h : HasCells line [c] ts) {vs : List ℚ}
    (hv : denseRow parse (ts.length + 1) line = .ok vs) : vs.head? = some 0 := by
  rw [denseRow, inner_cells h] at hv
  have : (List.drop 1 [c] :: ts).mapM (fun t => if t = [] then (.ok 0 : Py ℚ) else parse t) =
      (do let ys ← ts.mapM (fun t => if t = [] then (.ok 0 : Py ℚ) else parse t); pure ((0 : ℚ) :: ys)) := by
    rw [List.mapM_cons]; rfl
  rw [this] at hv
  cases hy : ts.mapM (fun t => if t = [] then (.ok 0 : Py ℚ) else parse t) with
  | error e => rw [hy] at hv; cases hv
  | ok ys =>
    rw [hy] at hv
    simp only [bind, Except.bind, pure, Except.pure] at hv
    split at hv
    · cases hv; rfl
    · split at hv
      · cases hv; simp [List.replicate_succ]
      · cases hv

/-- **C98.** In a last line without line break the last cell also loses its last character. -/
theorem C98_last_character {t u : Text} {ts : List Text} (ht : t ≠ []) (hu : u ≠ [])
    (hc : ∀ x ∈ t :: (ts ++ [u]), ',' ∉ x) {vs : List ℚ}
    (hv : List.Forall₂ (CellValue parse) (t.drop 1 :: (ts ++ [u.dropLast])) vs) :
    denseRow parse (ts.length + 2) (List.intercalate [','] (t :: (ts ++ [u]))) = .ok vs := by
  have hl : vs.length = ts.length + 2 := by rw [← hv.length_eq]; simp
  obtain ⟨c, t', rfl⟩ := List.exists_cons_of_ne_nil ht
  have hsnoc : ∀ (ts : List Text), List.intercalate [','] (ts ++ [u]) =
      List.intercalate [','] (ts ++ [u.dropLast]) ++ [u.getLast hu] := by
    intro ts
    induction ts with
    | nil =>
      simp only [List.nil_append]
      rw [intercalate_cons, intercalate_cons]
      simp [List.dropLast_append_getLast]
    | cons x xs ih =>
      rw [List.cons_append, List.cons_append, intercalate_cons, intercalate_cons, if_neg (by simp), if_neg (by simp), ih]
      simp
  have : inner (List.intercalate [','] ((c :: t') :: (ts ++ [u]))) =
      List.intercalate [','] (t' :: (ts ++ [u.dropLast])) := by
    rw [inner, intercalate_cons, if_neg (by simp), hsnoc, intercalate_cons, if_neg (by simp)]
    simp only [List.cons_append, List.drop_succ_cons, List.drop_zero]
    rw [show t' ++ ',' :: (List.intercalate [','] (ts ++ [u.dropLast]) ++ [u.getLast hu]) =
      (t' ++ ',' :: List.intercalate [','] (ts ++ [u.dropLast])) ++ [u.getLast hu] by simp, List.dropLast_concat]
  rw [List.drop_succ_cons, List.drop_zero] at hv
  rw [denseRow, this, splitChar_intercalate (by simp), mapM_cells hv]
  · show (if vs.length = ts.length + 2 then _ else _) = _
    rw [if_pos hl]
  · intro x hx
    rcases List.mem_cons.mp hx with rfl | hx
    · intro hm; exact hc (c :: x) List.mem_cons_self (List.mem_cons_of_mem _ hm)
    · rw [List.mem_append, List.mem_singleton] at hx
      rcases hx with hx | rfl
      · exact hc x (List.mem_cons_of_mem _ (List.mem_append_left _ hx))
      · intro hm
        exact hc u (List.mem_cons_of_mem _ (List.mem_append_right _ (List.mem_singleton_self _)))
          (List.mem_of_mem_dropLast hm)

/-! ### The header -/

theorem pyGet_cons_two {α : Type} (x y z : α) (xs : List α) : pyGet (x :: y :: z :: xs) 2 = .ok z := by
  have := pyGet_nat (x :: y :: z :: xs) 2 (by simp)
  simpa using this

theorem declaresType_split {line name : Text} {num : Bool} (h : DeclaresType line name num) :
    ∃ type rest, splitChar ' ' line = "@attribute".toList :: name :: type :: rest ∧
      num = decide (type = "numeric\n".toList) := by
  obtain ⟨hn, type, ht, hnum, h⟩ := h
  have hb : num = decide (type = "numeric\n".toList) := by
    cases num with
    | true => rw [decide_eq_true (hnum.mp rfl)]
    | false => rw [decide_eq_false (fun e => by simpa using hnum.mpr e)]
  rcases h with rfl | ⟨rest, rfl⟩
  · refine ⟨type, [], ?_, hb⟩
    have e : "@attribute ".toList ++ name ++ ' ' :: type = "@attribute".toList ++ ' ' :: (name ++ ' ' :: type) := by
      simp
    rw [e, splitChar_append (by decide), splitChar_append hn, splitChar_of_notMem ht]
  · refine ⟨type, splitChar ' ' rest, ?_, hb⟩
    have e : "@attribute ".toList ++ name ++ ' ' :: type ++ ' ' :: rest =
        "@attribute".toList ++ ' ' :: (name ++ ' ' :: (type ++ ' ' :: rest)) := by simp
    rw [e, splitChar_append (by decide), splitChar_append hn, splitChar_append ht]

theorem denseAttributes_ok {sep : Text} (hsep : EndsHeader sep) (rest : List Text) :
    ∀ {decls : List Text} {attrs : List (Text × Bool)},
      List.Forall₂ (fun line a => DeclaresType line a.1 a.2) decls attrs →
      denseAttributes (decls ++ sep :: rest) = .ok attrs
  | _, _, .nil => by
    obtain ⟨k, h1, h2⟩ := endsHeader_split hsep
    rw [List.nil_append, denseAttributes, h1]
    show (if k = "@attribute".toList then _ else _) = _
    rw [if_neg h2]; rfl
  | _, _, .cons h hs => by
    obtain ⟨type, r, h1, h2⟩ := declaresType_split h
    rw [List.cons_append, denseAttributes, h1, pyGet_cons_zero, pyGet_cons_one, pyGet_cons_two,
      denseAttributes_ok hsep rest hs]
    simp only [bind, Except.bind, if_true, pure, Except.pure, ← h2]

/-! ### Numeric columns -/

theorem column_length (D : List (List ℚ)) (c : ℕ) : (column D c).length = D.length := by simp [column]

theorem column_getD (D : List (List ℚ)) (c r : ℕ) (hr : r < D.length) :
    (column D c).getD r 0 = (D.getD r []).getD c 0 := by
  rw [getD_lt (by rw [column_length]; exact hr), getD_lt hr]
  simp [column]

/-- `bin` makes 0 of the values that are `low` against the quantile and 1 of the others. -/
def Thresholds (bin : List ℚ → ℚ → Py (List ℚ)) (low : ℚ → ℚ → Prop) [∀ a b, Decidable (low a b)] (s : ℚ) : Prop :=
  ∀ col q, Quantile.quantile col s = .ok q → bin col s = .ok (col.map fun v => if low v q then 0 else 1)

theorem thresholds_binarise (s : ℚ) : Thresholds Quantile.binarise (· ≤ ·) s := by
  intro col q h
  rw [Quantile.binarise, h]; rfl

theorem thresholds_binariseBelow (s : ℚ) : Thresholds Quantile.binariseBelow (· < ·) s := by
  intro col q h
  rw [Quantile.binariseBelow, h]; rfl

variable {bin : List ℚ → ℚ → Py (List ℚ)} {low : ℚ → ℚ → Prop} [∀ a b, Decidable (low a b)]

theorem binariseAll_ok {s : ℚ} (hb : Thresholds bin low s) (h0 : 0 ≤ s) (h1 : s ≤ 1) {w : ℕ} : ∀ (is : List ℕ), is.Nodup → (∀ i ∈ is, i < w) →
    ∀ (D : List (List ℚ)), D ≠ [] → (∀ r ∈ D, r.length = w) → ∀ q : ℕ → ℚ,
      (∀ i ∈ is, Quantile.IsQuantile (column D i) s (q i)) →
      ∃ D', binariseAll bin s w is D = .ok D' ∧ D'.length = D.length ∧ (∀ r ∈ D', r.length = w) ∧
        ∀ r < D.length, ∀ c < w, (D'.getD r []).getD c 0 =
          if c ∈ is then (if low ((D.getD r []).getD c 0) (q c) then 0 else 1) else (D.getD r []).getD c 0
  | [], _, _, D, _, hw, q, _ => ⟨D, rfl, rfl, hw, by simp⟩
  | i :: is, hnd, hlt, D, hne, hw, q, hq => by
    have hi : i < w := hlt i List.mem_cons_self
    rw [List.nodup_cons] at hnd
    have hcne : column D i ≠ [] := by
      intro e
      have := congrArg List.length e
      rw [column_length] at this
      exact hne (List.length_eq_zero_iff.mp this)
    have hqi := (Quantile.quantile_eq_iff h0 h1 hcne).mpr (hq i List.mem_cons_self)
    have hbin := hb _ _ hqi
    obtain ⟨D1, hD1⟩ : ∃ D1, D1 = (List.range D.length).map fun r =>
      (D.getD r []).set i (((column D i).map fun v => if low v (q i) then (0 : ℚ) else 1).getD r 0) := ⟨_, rfl⟩
    have hD1len : D1.length = D.length := by rw [hD1]; simp
    have hrow : ∀ r < D.length, D1.getD r [] = (D.getD r []).set i (if low ((D.getD r []).getD i 0) (q i) then 0 else 1) := by
      intro r hr
      rw [hD1, getD_lt (by simpa using hr)]
      simp only [List.getElem_map, List.getElem_range]
      congr 1
      rw [getD_lt (by simpa [column] using hr), List.getElem_map, ← column_getD D i r hr,
        getD_lt (by rw [column_length]; exact hr)]
    have hlen : ∀ r < D.length, (D.getD r []).length = w := by
      intro r hr
      rw [getD_lt hr]; exact hw _ (List.getElem_mem _)
    have hcell : ∀ r < D.length, ∀ c < w, (D1.getD r []).getD c 0 =
        if c = i then (if low ((D.getD r []).getD i 0) (q i) then 0 else 1) else (D.getD r []).getD c 0 := by
      intro r hr c hc
      rw [hrow r hr]
      have hl := hlen r hr
      rw [List.getD_eq_getElem?_getD, List.getElem?_set]
      by_cases hci : i = c
      · subst hci
        rw [if_pos rfl, if_pos (by rw [hl]; exact hi), if_pos rfl]; rfl
      · rw [if_neg hci, if_neg (fun e => hci e.symm), ← List.getD_eq_getElem?_getD]
    have hw1 : ∀ r ∈ D1, r.length = w := by
      intro row hrow'
      obtain ⟨r, hr, rfl⟩ := List.mem_iff_getElem.mp hrow'
      rw [hD1len] at hr
      rw [← getD_lt (by rw [hD1len]; exact hr) [], hrow r hr, List.length_set, hlen r hr]
    have hne1 : D1 ≠ [] := by
      intro e
      rw [e] at hD1len
      exact hne (List.length_eq_zero_iff.mp hD1len.symm)
    have hcol : ∀ j < w, j ≠ i → column D1 j = column D j := by
      intro j hj hji
      apply List.ext_getElem
      · rw [column_length, column_length, hD1len]
      · intro r g1 g2
        rw [column_length] at g1 g2
        have := hcell r g2 j hj
        rw [if_neg hji, ← column_getD D1 j r g1, ← column_getD D j r g2,
          getD_lt (by rw [column_length]; exact g1), getD_lt (by rw [column_length]; exact g2)] at this
        exact this
    obtain ⟨D', e, l1, l2, l3⟩ := binariseAll_ok hb h0 h1 is hnd.2 (fun j hj => hlt j (List.mem_cons_of_mem _ hj)) D1 hne1
      hw1 q (by
        intro j hj
        rw [hcol j (hlt j (List.mem_cons_of_mem _ hj)) (by rintro rfl; exact hnd.1 hj)]
        exact hq j (List.mem_cons_of_mem _ hj))
    refine ⟨D', ?_, by rw [l1, hD1len], l2, ?_⟩
    · rw [binariseAll, if_neg (by omega), hbin]
      show binariseAll bin s w is _ = _
      rw [← hD1]; exact e
    · intro r hr c hc
      rw [l3 r (by rw [hD1len]; exact hr) c hc, hcell r hr c hc]
      by_cases hci : c = i
      · subst hci
        rw [if_neg hnd.1, if_pos rfl, if_pos List.mem_cons_self]
      · rw [if_neg hci]
        simp only [List.mem_cons, hci, false_or]

theorem binariseAll_index {s : ℚ} (hb : Thresholds bin low s) (h0 : 0 ≤ s) (h1 : s ≤ 1) {w : ℕ} : ∀ (is : List ℕ), (∃ i ∈ is, w ≤ i) →
    ∀ (D : List (List ℚ)), D ≠ [] → binariseAll bin s w is D = .error .indexError
  | [], h, D, _ => by simp at h
  | i :: is, h, D, hne => by
    rw [binariseAll]
    by_cases hi : w ≤ i
    · rw [if_pos hi]
    · rw [if_neg hi]
      have hcne : column D i ≠ [] := by
        intro e
        have := congrArg List.length e
        rw [column_length] at this
        exact hne (List.length_eq_zero_iff.mp this)
      obtain ⟨q, hq, -⟩ := Quantile.quantile_ok h0 h1 hcne
      rw [hb _ _ hq]
      refine binariseAll_index hb h0 h1 is ?_ _ ?_
      · obtain ⟨j, hj, hjw⟩ := h
        rcases List.mem_cons.mp hj with rfl | hj
        · exact absurd hjw hi
        · exact ⟨j, hj, hjw⟩
      · intro e
        have := congrArg List.length e
        simp at this
        exact hne this

theorem unique_eq (col : List ℚ) : unique col = valuesOf col := by
  unfold unique valuesOf
  have hs : (Quantile.sorted col).dedup.Pairwise (· ≤ ·) :=
    (Quantile.sorted_pairwise col).sublist (List.dedup_sublist _)
  have hp : ((Quantile.sorted col).dedup).Perm (col.toFinset.sort (· ≤ ·)) := by
    apply List.perm_of_nodup_nodup_toFinset_eq (List.nodup_dedup _) (Finset.sort_nodup _ _)
    ext x
    rw [List.mem_toFinset, List.mem_dedup, (Quantile.sorted_perm col).mem_iff, List.mem_toFinset, Finset.mem_sort,
      List.mem_toFinset]
  exact hp.eq_of_pairwise (fun a b _ _ h1 h2 => le_antisymm h1 h2) hs (Finset.pairwise_sort _ _)

/-! ### The whole file -/

theorem readDense_body {lines : List Text} {attrs : List (Text × Bool)} {body : List Text}
    (h : HasDenseShape lines attrs body) {V : List (List ℚ)}
    (hV : List.Forall₂ (fun line row => denseRow parse attrs.length line = .ok row) body V) {nl : ℕ}
    (hnl : nl ≤ attrs.length) (s : ℚ) :
    readDense parse lines nl s = (do
      let numeric := (List.range attrs.length).filter fun i => (attrs.getD i ([], false)).2
      let D ← binariseAll Quantile.binarise s (attrs.length - nl) numeric (V.map fun r => r.take (attrs.length - nl))
      return (dummies numeric (attrs.length - nl) D, (V.map fun r => r.drop (attrs.length - nl)).map (·.map truncate),
        sliceFrom (attrs.map Prod.fst) (-(nl : ℤ)))) := by
  obtain ⟨h1, h2, decls, sep, data, rfl, hd, hs⟩ := h
  have hlen := hd.length_eq
  have hmap : body.mapM (denseRow parse attrs.length) = .ok V := by
    clear hlen hd
    induction hV with
    | nil => rfl
    | cons h _ ih => rw [List.mapM_cons, h, ih]; rfl
  have hsplit : ((attrs.length : ℤ) - (nl : ℤ)) = ((attrs.length - nl : ℕ) : ℤ) := by omega
  have hto : ∀ {α : Type} (r : List α), sliceTo r ((attrs.length : ℤ) - (nl : ℤ)) = r.take (attrs.length - nl) := by
    intro α r
    rw [sliceTo, if_pos (by omega), hsplit, Int.toNat_natCast]
  have hfrom : ∀ {α : Type} (r : List α), sliceFrom r ((attrs.length : ℤ) - (nl : ℤ)) = r.drop (attrs.length - nl) := by
    intro α r
    rw [sliceFrom, if_pos (by omega), hsplit, Int.toNat_natCast]
  rw [readDense]
  show (do let attrs ← denseAttributes (decls ++ sep :: data :: body); _) = _
  rw [denseAttributes_ok hs _ hd]
  have hl : ¬ (h1 :: h2 :: (decls ++ sep :: data :: body)).length < attrs.length + 4 := by
    simp; omega
  have hdrop : (h1 :: h2 :: (decls ++ sep :: data :: body)).drop (attrs.length + 4) = body := by
    rw [← hlen, show decls.length + 4 = (decls.length + 2) + 1 + 1 by omega, List.drop_succ_cons, List.drop_succ_cons,
      List.drop_append, List.drop_eq_nil_of_le (by omega), List.nil_append,
      show decls.length + 2 - decls.length = 2 by omega]
    rfl
  have hwl : (List.take (attrs.length - nl) (List.range attrs.length)).length = attrs.length - nl := by
    rw [List.length_take, List.length_range]; omega
  simp only [bind, Except.bind, if_neg hl, hdrop, hmap, hto, hfrom, hwl]

theorem columns_agree {D V : List (List ℚ)} {c : ℕ} (hl : D.length = V.length)
    (h : ∀ r < V.length, (D.getD r []).getD c 0 = (V.getD r []).getD c 0) : column D c = column V c := by
  apply List.ext_getElem
  · rw [column_length, column_length, hl]
  · intro r g1 g2
    rw [column_length] at g1 g2
    have := h r g2
    rw [← column_getD D c r g1, ← column_getD V c r g2, getD_lt (by rw [column_length]; exact g1),
      getD_lt (by rw [column_length]; exact g2)] at this
    exact this

/-- The last part of both dense readers. -/
theorem features_ok {V : List (List ℚ)} (hne : V ≠ []) {n w : ℕ} (hlen : ∀ row ∈ V, row.length = n) (hwn : w ≤ n)
    {s : ℚ} (hb : Thresholds bin low s) (h0 : 0 ≤ s) (h1 : s ≤ 1) {num : List ℕ} (hnd : num.Nodup)
    (hlt : ∀ i ∈ num, i < w) :
    ∃ D, ∃ q : ℕ → ℚ, (do
        let D ← binariseAll bin s w num (V.map fun r => r.take w)
        return dummies num w D) = (.ok D : Py _) ∧
      (∀ c ∈ num, Quantile.IsQuantile (column V c) s (q c)) ∧ D.length = V.length ∧
      ∀ r < V.length, D.getD r [] =
          (((List.range w).filter fun c => c ∈ num ∨ (valuesOf (column V c)).length ≤ 2).map fun c =>
            if c ∈ num then (if low ((V.getD r []).getD c 0) (q c) then 0 else 1)
            else truncate ((V.getD r []).getD c 0)) ++
          ((List.range w).filter fun c => ¬ (c ∈ num ∨ (valuesOf (column V c)).length ≤ 2)).flatMap fun c =>
            (valuesOf (column V c)).map fun v => if (V.getD r []).getD c 0 = v then 1 else 0 := by
  have hcne : ∀ c, column V c ≠ [] := by
    intro c e
    have := congrArg List.length e
    rw [column_length] at this
    exact hne (List.length_eq_zero_iff.mp this)
  choose q hq1 hq2 using fun c => Quantile.quantile_ok h0 h1 (hcne c)
  have hVlen : ∀ r < V.length, (V.getD r []).length = n := by
    intro r hr
    rw [getD_lt hr]; exact hlen _ (List.getElem_mem _)
  have hTrow : ∀ r < V.length, (V.map fun r => r.take w).getD r [] = (V.getD r []).take w := by
    intro r hr
    rw [getD_lt (by simpa using hr), getD_lt hr, List.getElem_map]
  have hTcell : ∀ r < V.length, ∀ c < w, ((V.map fun r => r.take w).getD r []).getD c 0 = (V.getD r []).getD c 0 := by
    intro r hr c hc
    rw [hTrow r hr, List.getD_eq_getElem?_getD, List.getElem?_take_of_lt hc, ← List.getD_eq_getElem?_getD]
  have hTcol : ∀ c < w, column (V.map fun r => r.take w) c = column V c := fun c hc =>
    columns_agree (by simp) (fun r hr => hTcell r hr c hc)
  obtain ⟨D', e, l1, l2, l3⟩ := binariseAll_ok hb h0 h1 (w := w) num hnd hlt (V.map fun r => r.take w) (by simpa using hne)
    (by
      intro row hrow
      obtain ⟨row', hr', rfl⟩ := List.mem_map.mp hrow
      rw [List.length_take, hlen row' hr']; omega)
    q (by
      intro i hi
      rw [hTcol i (hlt i hi)]
      exact hq2 i)
  rw [List.length_map] at l1 l3
  have hDcell : ∀ r < V.length, ∀ c < w, (D'.getD r []).getD c 0 =
      if c ∈ num then (if low ((V.getD r []).getD c 0) (q c) then 0 else 1) else (V.getD r []).getD c 0 := by
    intro r hr c hc
    rw [l3 r hr c hc, hTcell r hr c hc]
  have hDcol : ∀ c < w, c ∉ num → column D' c = column V c := by
    intro c hc hn
    refine columns_agree l1 (fun r hr => ?_)
    rw [hDcell r hr c hc, if_neg hn]
  refine ⟨dummies num w D', q, ?_, fun c _ => hq2 c, ?_, ?_⟩
  · rw [e]; rfl
  · rw [dummies, List.length_map, l1]
  · intro r hr
    have hnb : ((List.range w).filter fun x => decide (x ∉ num ∧ 2 < (unique (column D' x)).length)) =
        (List.range w).filter fun c => decide (¬ (c ∈ num ∨ (valuesOf (column V c)).length ≤ 2)) := by
      apply List.filter_congr
      intro c hc
      have hc := List.mem_range.mp hc
      apply decide_eq_decide.mpr
      rw [not_or, not_le]
      constructor
      · rintro ⟨a1, a2⟩
        rw [unique_eq, hDcol c hc a1] at a2
        exact ⟨a1, a2⟩
      · rintro ⟨a1, a2⟩
        rw [unique_eq, hDcol c hc a1]
        exact ⟨a1, a2⟩
    have hkept : ((List.range w).filter fun x => decide (x ∉ (List.range w).filter fun c =>
          decide (¬ (c ∈ num ∨ (valuesOf (column V c)).length ≤ 2)))) =
        (List.range w).filter fun c => decide (c ∈ num ∨ (valuesOf (column V c)).length ≤ 2) := by
      apply List.filter_congr
      intro c hc
      apply decide_eq_decide.mpr
      rw [List.mem_filter, decide_eq_true_eq]
      tauto
    rw [dummies, getD_lt (by rw [List.length_map, l1]; exact hr), List.getElem_map,
      ← getD_lt (by rw [l1]; exact hr) []]
    simp only [hnb, hkept]
    congr 1
    · apply List.map_congr_left
      intro c hc
      have hc := List.mem_range.mp (List.mem_filter.mp hc).1
      rw [hDcell r hr c hc]
      by_cases hn : c ∈ num
      · rw [if_pos hn, if_pos hn]
        split
        · simp [truncate]
        · simp [truncate]
      · rw [if_neg hn, if_neg hn]
    · rw [List.flatMap_def, List.flatMap_def]
      congr 1
      apply List.map_congr_left
      intro c hc
      obtain ⟨hc1, hc2⟩ := List.mem_filter.mp hc
      have hc1 := List.mem_range.mp hc1
      rw [decide_eq_true_eq, not_or] at hc2
      rw [hDcell r hr c hc1, if_neg hc2.1, unique_eq, hDcol c hc1 hc2.1]

/-- A line that says a row of values is read as that row. -/
theorem denseRow_of_rowValues {line : Text} {row : List ℚ} (h : RowValues parse line row) :
    denseRow parse row.length line = .ok row := by
  obtain ⟨t, ts, h, hv⟩ | ⟨t, ts, u, ht, hu, hc, rfl, hv⟩ := h
  · rw [← hv.length_eq, List.length_cons]
    exact C98_first_character h hv
  · have : row.length = ts.length + 2 := by rw [← hv.length_eq]; simp
    rw [this]
    exact C98_last_character ht hu hc hv

/-- Every line that says a row is read as it. -/
theorem rows_of_rowValues {body : List Text} {V : List (List ℚ)} (hV : List.Forall₂ (RowValues parse) body V) {n : ℕ}
    (hlen : ∀ row ∈ V, row.length = n) : List.Forall₂ (fun line row => denseRow parse n line = .ok row) body V := by
  induction hV with
  | nil => exact .nil
  | cons a _ ih =>
    refine .cons ?_ (ih fun row hrow => hlen row (List.mem_cons_of_mem _ hrow))
    rw [← hlen _ List.mem_cons_self]; exact denseRow_of_rowValues a

/-- **C99.** Reading a dense file whose cells have the values `V`: labels are the last `nl` columns, rounded
towards 0. A numeric feature is 0 up to the quantile of its column in this file and 1 above. Of the others, a
feature with at most two different values keeps them, rounded towards 0, so that it need not be 0 or 1; one
with more values is replaced by one column for each value, after all other features. -/
theorem C99_dense {lines : List Text} {attrs : List (Text × Bool)} {body : List Text}
    (h : HasDenseShape lines attrs body) {V : List (List ℚ)} (hne : V ≠ [])
    (hV : List.Forall₂ (RowValues parse) body V)
    (hlen : ∀ row ∈ V, row.length = attrs.length) {nl : ℕ}
    (hnl : nl ≤ attrs.length) {s : ℚ} (h0 : 0 ≤ s) (h1 : s ≤ 1)
    (hfeat : ∀ c, isNumeric attrs c → c < attrs.length - nl) :
    ∃ D L, ∃ q : ℕ → ℚ, readDense parse lines nl s =
        .ok (D, L, if nl = 0 then attrs.map Prod.fst else (attrs.map Prod.fst).drop (attrs.length - nl)) ∧
      (∀ c, isNumeric attrs c → Quantile.IsQuantile (column V c) s (q c)) ∧
      D.length = V.length ∧ L.length = V.length ∧
      ∀ r < V.length, L.getD r [] = ((V.getD r []).drop (attrs.length - nl)).map truncate ∧
        D.getD r [] =
          (((List.range (attrs.length - nl)).filter fun c =>
              isNumeric attrs c ∨ (valuesOf (column V c)).length ≤ 2).map fun c =>
            if isNumeric attrs c then (if (V.getD r []).getD c 0 ≤ q c then 0 else 1)
            else truncate ((V.getD r []).getD c 0)) ++
          ((List.range (attrs.length - nl)).filter fun c =>
              ¬ (isNumeric attrs c ∨ (valuesOf (column V c)).length ≤ 2)).flatMap fun c =>
            (valuesOf (column V c)).map fun v => if (V.getD r []).getD c 0 = v then 1 else 0 := by
  obtain ⟨num, hnum⟩ : ∃ num, num = (List.range attrs.length).filter fun i => (attrs.getD i ([], false)).2 := ⟨_, rfl⟩
  have hmem : ∀ c, c ∈ num ↔ isNumeric attrs c := by
    intro c
    rw [hnum, List.mem_filter, List.mem_range]
    constructor
    · exact fun h => h.2
    · intro hc
      refine ⟨?_, hc⟩
      have := hfeat c hc
      omega
  have hnames : sliceFrom (attrs.map Prod.fst) (-(nl : ℤ)) =
      if nl = 0 then attrs.map Prod.fst else (attrs.map Prod.fst).drop (attrs.length - nl) := by
    rw [sliceFrom]
    by_cases h0 : nl = 0
    · subst h0; simp
    · rw [if_neg h0, if_neg (by omega)]
      congr 1
      rw [List.length_map]
      omega
  obtain ⟨D, q, e, hq, hl, hD⟩ := features_ok hne hlen (Nat.sub_le _ nl) (thresholds_binarise s) h0 h1
    (num := num) (by rw [hnum]; exact List.Nodup.filter _ List.nodup_range) (fun i hi => hfeat i ((hmem i).mp hi))
  refine ⟨D, (V.map fun r => r.drop (attrs.length - nl)).map (·.map truncate), q, ?_,
    fun c hc => hq c ((hmem c).mpr hc), hl, by simp, ?_⟩
  · rw [readDense_body h (rows_of_rowValues hV hlen) hnl s, hnames, ← hnum]
    cases hE : binariseAll Quantile.binarise s (attrs.length - nl) num (V.map fun r => r.take (attrs.length - nl)) with
    | error x => rw [hE] at e; cases e
    | ok D' =>
      rw [hE] at e
      cases e
      simp only [hE, bind, Except.bind, pure, Except.pure]
  · intro r hr
    refine ⟨?_, ?_⟩
    · rw [getD_lt (by simpa using hr), getD_lt hr]
      simp
    · rw [hD r hr]
      simp only [hmem]

/-- **C99.** A label declared `numeric` cannot be read: `IndexError`. -/
theorem C99_numeric_label {lines : List Text} {attrs : List (Text × Bool)} {body : List Text}
    (h : HasDenseShape lines attrs body) {V : List (List ℚ)} (hne : V ≠ [])
    (hV : List.Forall₂ (RowValues parse) body V) (hlen : ∀ row ∈ V, row.length = attrs.length) {nl : ℕ}
    (hnl : nl ≤ attrs.length) {s : ℚ} (h0 : 0 ≤ s) (h1 : s ≤ 1) {c : ℕ} (hc : isNumeric attrs c)
    (hlab : attrs.length - nl ≤ c) : readDense parse lines nl s = .error .indexError := by
  have hlt : c < attrs.length := by
    by_contra hge
    unfold isNumeric at hc
    rw [List.getD_eq_default _ _ (not_lt.mp hge)] at hc
    exact absurd hc (by decide)
  rw [readDense_body h (rows_of_rowValues hV hlen) hnl s]
  simp only [bind, Except.bind]
  rw [binariseAll_index (thresholds_binarise s) h0 h1 _ ⟨c, List.mem_filter.mpr ⟨List.mem_range.mpr hlt, hc⟩, hlab⟩ _ (by simpa using hne)]

/-- Three cells `7,1,0`: the 7 is read as 0. -/
example : HasCells "7,1,0\n".toList "7".toList ["1".toList, "0".toList] :=
  ⟨by decide, by decide, by decide⟩

/-- A file with a numeric feature and a label; each row starts with a character that is dropped. -/
def denseFile : List Text :=
  ["@relation r\n".toList, "\n".toList, "@attribute a numeric\n".toList, "@attribute y {0,1}\n".toList,
   "\n".toList, "@data\n".toList, "07,1\n".toList, "03,0\n".toList]

/-- The hypotheses of C99 hold for this file. -/
theorem denseFile_ok : HasDenseShape denseFile [("a".toList, true), ("y".toList, false)] ["07,1\n".toList, "03,0\n".toList] ∧
    List.Forall₂ (RowValues fun t => (parseInt t).map fun n : ℤ => (n : ℚ))
      ["07,1\n".toList, "03,0\n".toList] [[7, 1], [3, 0]] ∧
    ∀ c, isNumeric [("a".toList, true), ("y".toList, false)] c → c < 1 := by
  refine ⟨⟨_, _, _, _, _, rfl, .cons ⟨by decide, "numeric\n".toList, by decide, by simp, Or.inl (by decide)⟩
    (.cons ⟨by decide, "{0,1}\n".toList, by decide, by decide, Or.inl (by decide)⟩ .nil), by decide, ?_⟩, ?_, ?_⟩
  · rintro ⟨rest, h⟩
    exact absurd (congrArg (fun l => l.head?) h) (by simp)
  · refine .cons ?_ (.cons ?_ .nil)
    · refine Or.inl ⟨"07".toList, ["1".toList], ⟨by decide, by decide, by decide⟩,
        .cons (Or.inr ⟨by decide, ?_⟩) (.cons (Or.inr ⟨by decide, ?_⟩) .nil)⟩
      · rw [show List.drop 1 "07".toList = [Char.ofNat (48 + 7)] by decide]
        simp only [parseInt_numeral (Numeral.digit 7 (by omega))]; rfl
      · rw [show "1".toList = [Char.ofNat (48 + 1)] by decide]
        simp only [parseInt_numeral (Numeral.digit 1 (by omega))]; rfl
    · refine Or.inl ⟨"03".toList, ["0".toList], ⟨by decide, by decide, by decide⟩,
        .cons (Or.inr ⟨by decide, ?_⟩) (.cons (Or.inr ⟨by decide, ?_⟩) .nil)⟩
      · rw [show List.drop 1 "03".toList = [Char.ofNat (48 + 3)] by decide]
        simp only [parseInt_numeral (Numeral.digit 3 (by omega))]; rfl
      · rw [show "0".toList = [Char.ofNat (48 + 0)] by decide]
        simp only [parseInt_numeral (Numeral.digit 0 (by omega))]; rfl
  · intro c hc
    match c, hc with
    | 0, _ => omega
    | 1, hc => exact absurd hc (by decide)
    | n + 2, hc => exact absurd hc (by simp [isNumeric])

end Arff

end Verif
