/-
C99: every data line of a dense file, and every number of labels.
-/
import Verif.Props.DenseArff
import Verif.Props.ArffLines

namespace Verif

namespace Arff

variable {parse : Text → Py ℚ}

theorem denseRow_good {n : ℕ} {line : Text} {row : List ℚ} (h : DenseRowOf parse n line row) :
    denseRow parse n line = .ok row ∧ row.length = n := by
  obtain ⟨ts, vs, hp, hv, hr⟩ := h
  unfold denseRow
  rw [pieces_iff.1 hp, mapM_cells hv]
  simp only [bind, Except.bind]
  rcases hr with ⟨rfl, hl⟩ | ⟨v, rfl, rfl⟩
  · rw [if_pos hl]
    exact ⟨rfl, hl⟩
  · simp only [List.length_singleton, List.headD_cons, List.length_replicate, and_true]
    by_cases h1 : 1 = n
    · rw [if_pos h1, ← h1]
      rfl
    · rw [if_neg h1]
      simp

theorem denseRow_wrong {n : ℕ} {line : Text} {ts : List Text} {vs : List ℚ} (hp : Pieces line ts)
    (hv : List.Forall₂ (CellValue parse) ts vs) (h1 : ts.length ≠ n) (h2 : ts.length ≠ 1) :
    denseRow parse n line = .error .valueError := by
  have hl := hv.length_eq
  unfold denseRow
  rw [pieces_iff.1 hp, mapM_cells hv]
  simp only [bind, Except.bind]
  rw [if_neg (by omega), if_neg (by omega)]

theorem denseRow_unreadable {n : ℕ} {line : Text} {us ts : List Text} {t : Text} {vs : List ℚ} {e : PyErr}
    (hp : Pieces line (us ++ t :: ts)) (hv : List.Forall₂ (CellValue parse) us vs) (ht : t ≠ [])
    (he : parse t = .error e) : denseRow parse n line = .error e := by
  unfold denseRow
  rw [pieces_iff.1 hp, mapM_append_error (e := e) (by rw [if_neg ht, he]) ts (mapM_cells hv)]
  rfl

theorem mapM_dense {n : ℕ} {body : List Text} {V : List (List ℚ)} (hV : List.Forall₂ (DenseRowOf parse n) body V) :
    body.mapM (denseRow parse n) = .ok V ∧ ∀ row ∈ V, row.length = n := by
  induction hV with
  | nil => exact ⟨rfl, by simp⟩
  | cons h _ ih =>
    obtain ⟨h1, h2⟩ := denseRow_good h
    refine ⟨?_, List.forall_mem_cons.2 ⟨h2, ih.2⟩⟩
    rw [List.mapM_cons, h1, ih.1]
    rfl

theorem readDense_rows {lines : List Text} {attrs : List (Text × Bool)} {body : List Text}
    (h : HasDenseShape lines attrs body) (nl : ℤ) (s : ℚ) :
    readDense parse lines nl s = (do
      let A ← body.mapM (denseRow parse attrs.length)
      let split := (attrs.length : ℤ) - nl
      let w := (sliceTo (List.range attrs.length) split).length
      let numeric := (List.range attrs.length).filter fun i => (attrs.getD i ([], false)).2
      let D ← binariseAll Quantile.binarise s w numeric (A.map fun r => sliceTo r split)
      return (dummies numeric w D, (A.map fun r => sliceFrom r split).map (·.map truncate),
        sliceFrom (attrs.map Prod.fst) (-nl))) := by
  obtain ⟨h1, h2, decls, sep, data, rfl, hd, hs⟩ := h
  have hlen := hd.length_eq
  rw [readDense]
  show (do let attrs ← denseAttributes (decls ++ sep :: data :: body); _) = _
  rw [denseAttributes_ok hs _ hd]
  have hl : ¬ (h1 :: h2 :: (decls ++ sep :: data :: body)).length < attrs.length + 4 := by
    simp; omega
  have hdrop : (h1 :: h2 :: (decls ++ sep :: data :: body)).drop (attrs.length + 4) = body := by
    rw [← hlen, show decls.length + 4 = (decls.length + 2) + 1 + 1 by omega, List.drop_succ_cons, List.drop_succ_cons,
      List.drop_append, List.drop_eq_nil_of_le (by omega), List.nil_append,
      show decls.length + 2 - decls.length = 2 by omega]
    rfl
  simp only [bind, Except.bind, if_neg hl, hdrop]

/-- **C99.** Every file whose data lines can be read, for every number of labels, as in `C99_dense`; a line with a single
value gives it to every attribute. If more labels are asked for than there are `n` attributes, the last `nl - n`
columns are called labels (all of them if `nl` is `2 n` or more), and all names are label names. -/
theorem C99_every_good_file {lines : List Text} {attrs : List (Text × Bool)} {body : List Text}
    (h : HasDenseShape lines attrs body) {V : List (List ℚ)} (hne : V ≠ [])
    (hV : List.Forall₂ (DenseRowOf parse attrs.length) body V) (nl m : ℕ)
    (hm : m = if nl ≤ attrs.length then attrs.length - nl else 2 * attrs.length - nl) {s : ℚ} (h0 : 0 ≤ s) (h1 : s ≤ 1) :
    ((∃ c, m ≤ c ∧ isNumeric attrs c) → readDense parse lines nl s = .error .indexError) ∧
    ((∀ c, isNumeric attrs c → c < m) →
      ∃ D L, ∃ q : ℕ → ℚ, readDense parse lines nl s =
          .ok (D, L, if nl = 0 then attrs.map Prod.fst else (attrs.map Prod.fst).drop (attrs.length - nl)) ∧
        (∀ c, isNumeric attrs c → Quantile.IsQuantile (column V c) s (q c)) ∧
        D.length = V.length ∧ L.length = V.length ∧
        ∀ r < V.length, L.getD r [] = ((V.getD r []).drop m).map truncate ∧
          D.getD r [] =
            (((List.range m).filter fun c => isNumeric attrs c ∨ (valuesOf (column V c)).length ≤ 2).map fun c =>
              if isNumeric attrs c then (if (V.getD r []).getD c 0 ≤ q c then 0 else 1)
              else truncate ((V.getD r []).getD c 0)) ++
            ((List.range m).filter fun c => ¬ (isNumeric attrs c ∨ (valuesOf (column V c)).length ≤ 2)).flatMap fun c =>
              (valuesOf (column V c)).map fun v => if (V.getD r []).getD c 0 = v then 1 else 0) := by
  obtain ⟨hmap, hlen⟩ := mapM_dense hV
  have hmn : m ≤ attrs.length := by split_ifs at hm <;> omega
  have hto : ∀ {α : Type} (r : List α), r.length = attrs.length →
      sliceTo r ((attrs.length : ℤ) - (nl : ℤ)) = r.take m := by
    intro α r hr
    rw [sliceTo]
    split_ifs with h0 <;> · congr 1; split_ifs at hm <;> omega
  have hfrom : ∀ {α : Type} (r : List α), r.length = attrs.length →
      sliceFrom r ((attrs.length : ℤ) - (nl : ℤ)) = r.drop m := by
    intro α r hr
    rw [sliceFrom]
    split_ifs with h0 <;> · congr 1; split_ifs at hm <;> omega
  have hnames : sliceFrom (attrs.map Prod.fst) (-(nl : ℤ)) =
      if nl = 0 then attrs.map Prod.fst else (attrs.map Prod.fst).drop (attrs.length - nl) := by
    rw [sliceFrom]
    by_cases h0 : nl = 0
    · subst h0; simp
    · rw [if_neg h0, if_neg (by omega)]
      congr 1
      rw [List.length_map]
      omega
  have hw : (sliceTo (List.range attrs.length) ((attrs.length : ℤ) - (nl : ℤ))).length = m := by
    rw [hto _ List.length_range, List.length_take, List.length_range]
    omega
  have e1 : (V.map fun r => sliceTo r ((attrs.length : ℤ) - (nl : ℤ))) = V.map fun r => r.take m :=
    List.map_congr_left fun r hr => hto r (hlen r hr)
  have e2 : (V.map fun r => sliceFrom r ((attrs.length : ℤ) - (nl : ℤ))) = V.map fun r => r.drop m :=
    List.map_congr_left fun r hr => hfrom r (hlen r hr)
  have hnumlt : ∀ c, isNumeric attrs c → c < attrs.length := by
    intro c hc
    by_contra hge
    unfold isNumeric at hc
    rw [List.getD_eq_default _ _ (not_lt.mp hge)] at hc
    exact absurd hc (by decide)
  rw [readDense_rows h, hmap]
  simp only [bind, Except.bind, pure, Except.pure, hw, e1, e2, hnames]
  obtain ⟨num, hnum⟩ : ∃ num, num = (List.range attrs.length).filter fun i => (attrs.getD i ([], false)).2 := ⟨_, rfl⟩
  have hmem : ∀ c, c ∈ num ↔ isNumeric attrs c := by
    intro c
    rw [hnum, List.mem_filter, List.mem_range]
    exact ⟨fun h => h.2, fun hc => ⟨hnumlt c hc, hc⟩⟩
  rw [← hnum]
  constructor
  · rintro ⟨c, hc, hcn⟩
    rw [binariseAll_index (thresholds_binarise s) h0 h1 _ ⟨c, (hmem c).2 hcn, hc⟩ _ (by simpa using hne)]
  · intro hfeat
    obtain ⟨D, q, e, hq, hl, hD⟩ := features_ok hne hlen hmn (thresholds_binarise s) h0 h1
      (num := num) (by rw [hnum]; exact List.Nodup.filter _ List.nodup_range) (fun i hi => hfeat i ((hmem i).mp hi))
    refine ⟨D, (V.map fun r => r.drop m).map (·.map truncate), q, ?_, fun c hc => hq c ((hmem c).mpr hc), hl, by simp, ?_⟩
    · cases hE : binariseAll Quantile.binarise s m num (V.map fun r => r.take m) with
      | error x => rw [hE] at e; cases e
      | ok D' =>
        rw [hE] at e
        cases e
        rfl
    · intro r hr
      refine ⟨?_, ?_⟩
      · rw [getD_lt (by simpa using hr), getD_lt hr]
        simp
      · rw [hD r hr]
        simp only [hmem]

/-- **C99.** Every other file with numbers in every cell or not: the first line that cannot be read decides. A cell that
is not a number raises what `float` raises; a line with the wrong number of cells, other than one, raises
`ValueError`. -/
theorem C99_every_bad_file {lines : List Text} {attrs : List (Text × Bool)} {good more : List Text} {bad : Text}
    (h : HasDenseShape lines attrs (good ++ bad :: more)) {V : List (List ℚ)}
    (hV : List.Forall₂ (DenseRowOf parse attrs.length) good V) (nl : ℤ) (s : ℚ) :
    (∀ ts vs, Pieces bad ts → List.Forall₂ (CellValue parse) ts vs → ts.length ≠ attrs.length → ts.length ≠ 1 →
      readDense parse lines nl s = .error .valueError) ∧
    (∀ us t ts vs e, Pieces bad (us ++ t :: ts) → List.Forall₂ (CellValue parse) us vs → t ≠ [] → parse t = .error e →
      readDense parse lines nl s = .error e) := by
  obtain ⟨hmap, -⟩ := mapM_dense hV
  constructor
  · intro ts vs hp hv h1 h2
    rw [readDense_rows h, mapM_append_error (denseRow_wrong hp hv h1 h2) more hmap]
    rfl
  · intro us t ts vs e hp hv ht he
    rw [readDense_rows h, mapM_append_error (denseRow_unreadable hp hv ht he) more hmap]
    rfl

/-- The two theorems cover every data section. -/
theorem C99_good_or_bad (n : ℕ) (body : List Text) :
    (∃ V, List.Forall₂ (DenseRowOf parse n) body V) ∨
    ∃ good bad more V, body = good ++ bad :: more ∧ List.Forall₂ (DenseRowOf parse n) good V ∧
      ((∃ ts vs, Pieces bad ts ∧ List.Forall₂ (CellValue parse) ts vs ∧ ts.length ≠ n ∧ ts.length ≠ 1) ∨
        ∃ us t ts vs e, Pieces bad (us ++ t :: ts) ∧ List.Forall₂ (CellValue parse) us vs ∧ t ≠ [] ∧
          parse t = .error e) := by
  have pieces : ∀ ts : List Text, (∃ vs, List.Forall₂ (CellValue parse) ts vs) ∨
      ∃ us t vs' vs e, ts = us ++ t :: vs' ∧ List.Forall₂ (CellValue parse) us vs ∧ t ≠ [] ∧ parse t = .error e := by
    intro ts
    induction ts with
    | nil => exact Or.inl ⟨[], .nil⟩
    | cons t ts ih =>
      have hcell : (∃ v, CellValue parse t v) ∨ (t ≠ [] ∧ ∃ e, parse t = .error e) := by
        by_cases ht : t = []
        · exact Or.inl ⟨0, Or.inl ⟨ht, rfl⟩⟩
        · cases hp : parse t with
          | ok v => exact Or.inl ⟨v, Or.inr ⟨ht, hp⟩⟩
          | error e => exact Or.inr ⟨ht, e, rfl⟩
      rcases hcell with ⟨v, hv⟩ | ⟨ht, e, he⟩
      · rcases ih with ⟨vs, h⟩ | ⟨us, t', rest, vs, e, rfl, h1, h2, h3⟩
        · exact Or.inl ⟨v :: vs, .cons hv h⟩
        · exact Or.inr ⟨t :: us, t', rest, v :: vs, e, rfl, .cons hv h1, h2, h3⟩
      · exact Or.inr ⟨[], t, ts, [], e, rfl, .nil, ht, he⟩
  induction body with
  | nil => exact Or.inl ⟨[], .nil⟩
  | cons line body ih =>
    obtain ⟨ts, hp⟩ := pieces_exist line
    rcases pieces ts with ⟨vs, hv⟩ | ⟨us, t, rest, vs, e, rfl, h1, h2, h3⟩
    · have hl := hv.length_eq
      have hrow : (∃ row, DenseRowOf parse n line row) ∨ (ts.length ≠ n ∧ ts.length ≠ 1) := by
        by_cases c1 : ts.length = n
        · exact Or.inl ⟨vs, ts, vs, hp, hv, Or.inl ⟨rfl, by omega⟩⟩
        · by_cases c2 : ts.length = 1
          · obtain ⟨v, rfl⟩ := List.length_eq_one_iff.1 (show vs.length = 1 by omega)
            exact Or.inl ⟨_, ts, [v], hp, hv, Or.inr ⟨v, rfl, rfl⟩⟩
          · exact Or.inr ⟨c1, c2⟩
      rcases hrow with ⟨row, hrow⟩ | ⟨c1, c2⟩
      · rcases ih with ⟨V, h⟩ | ⟨good, bad, more, V, rfl, h1, h2⟩
        · exact Or.inl ⟨row :: V, .cons hrow h⟩
        · exact Or.inr ⟨line :: good, bad, more, row :: V, rfl, .cons hrow h1, h2⟩
      · exact Or.inr ⟨[], line, body, [], rfl, .nil, Or.inl ⟨ts, vs, hp, hv, c1, c2⟩⟩
    · exact Or.inr ⟨[], line, body, [], rfl, .nil, Or.inr ⟨us, t, rest, vs, e, hp, h1, h2, h3⟩⟩

/-- A line with the single value 5 stands for three times 5. -/
example : DenseRowOf (fun t => (parseInt t).map fun n : ℤ => (n : ℚ)) 3 "x5\n".toList [5, 5, 5] := by
  refine ⟨["5".toList], [5], ⟨by simp, by decide, by decide⟩, .cons (Or.inr ⟨by decide, ?_⟩) .nil,
    Or.inr ⟨5, rfl, rfl⟩⟩
  rw [show "5".toList = [Char.ofNat (48 + 5)] by decide]
  simp only [parseInt_numeral (Numeral.digit 5 (by omega))]
  rfl

end Arff

end Verif
