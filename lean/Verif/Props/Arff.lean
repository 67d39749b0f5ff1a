/-
C95: reading sparse ARFF files.
-/
import Verif.Lemmas.Arff

namespace Verif

namespace Arff

theorem mapM_rows {n : ℕ} : ∀ {body : List Text} {rows : List (List ℕ)}, List.Forall₂ Lists body rows →
    (∀ r ∈ rows, ∀ c ∈ r, c < n) → body.mapM (sparseRow n) = .ok (rows.map (indicator n))
  | _, _, .nil, _ => rfl
  | _, _, .cons h hs, hc => by
    rw [List.mapM_cons, sparseRow_ok h (hc _ List.mem_cons_self),
      mapM_rows hs (fun r hr => hc r (List.mem_cons_of_mem _ hr))]
    rfl

theorem mapM_append_error {α β : Type} {f : α → Py β} {e : PyErr} {bad : α} (hb : f bad = .error e)
    (more : List α) : ∀ {good : List α} {bs : List β}, good.mapM f = .ok bs →
      (good ++ bad :: more).mapM f = .error e
  | [], _, _ => by rw [List.nil_append, List.mapM_cons, hb]; rfl
  | x :: good, bs, h => by
    rw [List.mapM_cons] at h
    rw [List.cons_append, List.mapM_cons]
    cases hx : f x with
    | error e' => rw [hx] at h; cases h
    | ok y =>
      rw [hx] at h
      cases hg : good.mapM f with
      | error e' => rw [hg] at h; cases h
      | ok ys =>
        show (do let ys ← (good ++ bad :: more).mapM f; pure (y :: ys)) = _
        rw [mapM_append_error hb more hg]; rfl

theorem readSparse_body {lines names body : List Text} (h : HasShape lines names body) (nl : ℤ) :
    readSparse lines nl = (do
      let A ← body.mapM (sparseRow names.length)
      return (A.map fun r => sliceTo r ((names.length : ℤ) - nl),
        A.map fun r => sliceFrom r ((names.length : ℤ) - nl), sliceFrom names (-nl))) := by
  obtain ⟨h1, h2, decls, sep, data, rfl, hd, hs⟩ := h
  have hlen := hd.length_eq
  rw [readSparse]
  show (do let names ← attributeNames (decls ++ sep :: data :: body); _) = _
  rw [attributeNames_ok hs _ hd]
  have hl : ¬ (h1 :: h2 :: (decls ++ sep :: data :: body)).length < names.length + 4 := by
    simp; omega
  have hdrop : (h1 :: h2 :: (decls ++ sep :: data :: body)).drop (names.length + 4) = body := by
    rw [← hlen, show decls.length + 4 = (decls.length + 2) + 1 + 1 by omega, List.drop_succ_cons, List.drop_succ_cons,
      List.drop_append, List.drop_eq_nil_of_le (by omega), List.nil_append,
      show decls.length + 2 - decls.length = 2 by omega]
    rfl
  simp only [bind, Except.bind, if_neg hl, hdrop]

/-- **C95.** Reading back a sparse file: the cell of a row and column is 1 exactly if the row lists the
column, whatever value it gives; the last `nl` columns are the labels, and the names of the last `nl`
attributes are the label names (all of them if `nl` is 0). -/
theorem C95_roundtrip {lines names body : List Text} (h : HasShape lines names body) {rows : List (List ℕ)}
    (hb : List.Forall₂ Lists body rows) (hc : ∀ r ∈ rows, ∀ c ∈ r, c < names.length) {nl : ℕ}
    (hnl : nl ≤ names.length) :
    ∃ D L, readSparse lines nl = .ok (D, L, if nl = 0 then names else names.drop (names.length - nl)) ∧
      D.length = rows.length ∧ L.length = rows.length ∧
      ∀ r < rows.length, (D.getD r []).length = names.length - nl ∧ (L.getD r []).length = nl ∧
        (∀ c < names.length - nl, (D.getD r []).getD c 0 = if c ∈ rows.getD r [] then 1 else 0) ∧
        ∀ j < nl, (L.getD r []).getD j 0 = if names.length - nl + j ∈ rows.getD r [] then 1 else 0 := by
  have hsplit : ((names.length : ℤ) - (nl : ℤ)) = ((names.length - nl : ℕ) : ℤ) := by omega
  have hto : ∀ r : List ℕ, sliceTo r ((names.length : ℤ) - (nl : ℤ)) = r.take (names.length - nl) := by
    intro r
    rw [sliceTo, if_pos (by omega), hsplit, Int.toNat_natCast]
  have hfrom : ∀ r : List ℕ, sliceFrom r ((names.length : ℤ) - (nl : ℤ)) = r.drop (names.length - nl) := by
    intro r
    rw [sliceFrom, if_pos (by omega), hsplit, Int.toNat_natCast]
  have hnames : sliceFrom names (-(nl : ℤ)) = if nl = 0 then names else names.drop (names.length - nl) := by
    rw [sliceFrom]
    by_cases h0 : nl = 0
    · subst h0; simp
    · rw [if_neg h0, if_neg (by omega)]
      congr 1
      omega
  refine ⟨(rows.map (indicator names.length)).map fun r => sliceTo r ((names.length : ℤ) - (nl : ℤ)),
    (rows.map (indicator names.length)).map fun r => sliceFrom r ((names.length : ℤ) - (nl : ℤ)), ?_, ?_, ?_, ?_⟩
  · rw [readSparse_body h, mapM_rows hb hc, ← hnames]
    rfl
  · simp
  · simp
  · intro r hr
    have e : ((rows.map (indicator names.length)).map fun r => sliceTo r ((names.length : ℤ) - (nl : ℤ))).getD r [] =
        (indicator names.length (rows.getD r [])).take (names.length - nl) := by
      rw [List.getD_eq_getElem?_getD, List.getD_eq_getElem?_getD]
      simp [hr, hto]
    have e' : ((rows.map (indicator names.length)).map fun r => sliceFrom r ((names.length : ℤ) - (nl : ℤ))).getD r [] =
        (indicator names.length (rows.getD r [])).drop (names.length - nl) := by
      rw [List.getD_eq_getElem?_getD, List.getD_eq_getElem?_getD]
      simp [hr, hfrom]
    rw [e, e']
    have hlen : (indicator names.length (rows.getD r [])).length = names.length := by simp [indicator]
    refine ⟨by rw [List.length_take, hlen]; omega, by rw [List.length_drop, hlen]; omega, ?_, ?_⟩
    · intro c hc
      rw [List.getD_eq_getElem?_getD, List.getElem?_take_of_lt hc]
      have : c < names.length := by omega
      simp [indicator, this]
    · intro j hj
      rw [List.getD_eq_getElem?_getD, List.getElem?_drop]
      have : names.length - nl + j < names.length := by omega
      simp [indicator, this]

/-- **C95.** A row without entries (`{}`) or a blank line cannot be read: `ValueError`. -/
theorem C95_empty_row {lines names good more : List Text} {bad : Text}
    (h : HasShape lines names (good ++ bad :: more)) {rows : List (List ℕ)} (hb : List.Forall₂ Lists good rows)
    (hc : ∀ r ∈ rows, ∀ c ∈ r, c < names.length)
    (hbad : bad = ['{', '}', '\n'] ∨ bad = ['{', '}'] ∨ bad = ['\n']) (nl : ℤ) :
    readSparse lines nl = .error .valueError := by
  have hrow : sparseRow names.length bad = .error .valueError := by
    rcases hbad with rfl | rfl | rfl <;> rfl
  rw [readSparse_body h, mapM_append_error hrow more (mapM_rows hb hc)]
  rfl

/-- **C95.** A listed column that is not declared: `IndexError`. -/
theorem C95_undeclared {lines names good more : List Text} {bad : Text}
    (h : HasShape lines names (good ++ bad :: more)) {rows : List (List ℕ)} (hb : List.Forall₂ Lists good rows)
    (hc : ∀ r ∈ rows, ∀ c ∈ r, c < names.length) {cols : List ℕ} (hbad : Lists bad cols)
    (hout : ∃ c ∈ cols, names.length ≤ c) (nl : ℤ) : readSparse lines nl = .error .indexError := by
  rw [readSparse_body h, mapM_append_error (sparseRow_out_of_range hbad hout) more (mapM_rows hb hc)]
  rfl

/-- **C95.** A file that ends with the declarations, or one line later. -/
theorem C95_truncated {h1 h2 : Text} {decls names : List Text} (hd : List.Forall₂ Declares decls names) (nl : ℤ) :
    readSparse (h1 :: h2 :: decls) nl = .error .indexError ∧
    ∀ sep, EndsHeader sep → readSparse (h1 :: h2 :: (decls ++ [sep])) nl = .error .valueError := by
  constructor
  · have : ∀ {decls names : List Text}, List.Forall₂ Declares decls names →
        attributeNames decls = .error .indexError := by
      intro decls names hd
      induction hd with
      | nil => rfl
      | cons h _ ih =>
        obtain ⟨h0, h1, -⟩ := declares_split h
        rw [attributeNames, h0, ih]
        simp only [bind, Except.bind, if_true, h1]
    rw [readSparse]
    show (do let names ← attributeNames decls; _) = _
    rw [this hd]; rfl
  · intro sep hs
    rw [readSparse]
    show (do let names ← attributeNames (decls ++ [sep]); _) = _
    rw [attributeNames_ok hs [] hd]
    have hlen := hd.length_eq
    have hl : (h1 :: h2 :: (decls ++ [sep])).length < names.length + 4 := by simp; omega
    simp only [bind, Except.bind, if_pos hl]

/-! ### A concrete case -/

/-- Three attributes, the last one a label; the second row gives column 0 the value 0. -/
def sampleFile : List Text :=
  ["@relation r\n".toList, "\n".toList, "@attribute a {0,1}\n".toList, "@attribute b {0,1}\n".toList,
   "@attribute y {0,1}\n".toList, "\n".toList, "@data\n".toList, "{1 1,2 1}\n".toList, "{0 0}".toList]

theorem sampleFile_shape : HasShape sampleFile ["a".toList, "b".toList, "y".toList]
    ["{1 1,2 1}\n".toList, "{0 0}".toList] := by
  refine ⟨_, _, _, _, _, rfl, .cons ⟨by decide, "{0,1}\n".toList, by decide⟩
    (.cons ⟨by decide, "{0,1}\n".toList, by decide⟩ (.cons ⟨by decide, "{0,1}\n".toList, by decide⟩ .nil)),
    by decide, ?_⟩
  rintro ⟨rest, h⟩
  exact absurd (congrArg (fun l => l.head?) h) (by simp)

theorem sampleFile_rows : List.Forall₂ Lists ["{1 1,2 1}\n".toList, "{0 0}".toList] [[1, 2], [0]] := by
  refine .cons ⟨["1 1".toList, "2 1".toList], .cons ⟨"1".toList, "1".toList, by decide, ?_, by decide, by decide⟩
    (.cons ⟨"2".toList, "1".toList, by decide, ?_, by decide, by decide⟩ .nil), by simp, Or.inl (by decide)⟩
    (.cons ⟨["0 0".toList], .cons ⟨"0".toList, "0".toList, by decide, ?_, by decide, by decide⟩ .nil, by simp,
      Or.inr (by decide)⟩ .nil)
  · exact Numeral.digit 1 (by omega)
  · exact Numeral.digit 2 (by omega)
  · exact Numeral.digit 0 (by omega)

/-- The hypotheses hold for this file; the explicit 0 is read as 1. -/
example : readSparse sampleFile 1 =
    .ok ([[0, 1], [1, 0]], [[1], [0]], ["y".toList]) := by
  rw [show ((1 : ℤ)) = ((1 : ℕ) : ℤ) from rfl, readSparse_body sampleFile_shape,
    mapM_rows sampleFile_rows (by decide)]
  decide

end Arff

end Verif
