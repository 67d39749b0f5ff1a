/-
Lemmas about texts.
-/
import Verif.Spec.Arff
import Verif.Lemmas.Py

namespace Verif

namespace Arff

theorem splitChar_ne_nil (c : Char) (t : Text) : splitChar c t ≠ [] := by
  cases t with
  | nil => simp [splitChar]
  | cons x xs =>
    rw [splitChar]
    split
    · simp
    · split <;> simp

theorem splitChar_of_notMem {c : Char} : ∀ {t : Text}, c ∉ t → splitChar c t = [t]
  | [], _ => rfl
  | x :: xs, h => by
    rw [List.mem_cons, not_or] at h
    rw [splitChar, if_neg (fun e => h.1 e.symm), splitChar_of_notMem h.2]

theorem splitChar_append {c : Char} : ∀ {t : Text}, c ∉ t → ∀ (u : Text),
    splitChar c (t ++ c :: u) = t :: splitChar c u
  | [], _, u => by rw [List.nil_append, splitChar, if_pos rfl]
  | x :: xs, h, u => by
    rw [List.mem_cons, not_or] at h
    rw [List.cons_append, splitChar, if_neg (fun e => h.1 e.symm), splitChar_append h.2]

/-- Splitting a joined text. -/
theorem splitChar_intercalate {c : Char} : ∀ {ts : List Text}, ts ≠ [] → (∀ t ∈ ts, c ∉ t) →
    splitChar c (List.intercalate [c] ts) = ts
  | [], h, _ => absurd rfl h
  | [t], _, h => by
    have : List.intercalate [c] [t] = t := by simp [List.intercalate]
    rw [this, splitChar_of_notMem (h t List.mem_cons_self)]
  | t :: u :: ts, _, h => by
    have : List.intercalate [c] (t :: u :: ts) = t ++ c :: List.intercalate [c] (u :: ts) := by
      simp [List.intercalate]
    rw [this, splitChar_append (h t List.mem_cons_self),
      splitChar_intercalate (by simp) (fun x hx => h x (List.mem_cons_of_mem _ hx))]

/-! ### Numerals -/

theorem digit_facts {d : ℕ} (h : d < 10) : (Char.ofNat (48 + d)).isDigit = true ∧
    (Char.ofNat (48 + d)).toNat - '0'.toNat = d ∧ (Char.ofNat (48 + d)).isWhitespace = false ∧
    Char.ofNat (48 + d) ≠ ' ' ∧ Char.ofNat (48 + d) ≠ ',' ∧ Char.ofNat (48 + d) ≠ '-' ∧
    Char.ofNat (48 + d) ≠ '+' := by
  interval_cases d <;> decide

theorem digits_append : ∀ (t u : Text) (acc : ℕ), digits acc (t ++ u) = (digits acc t).bind fun m => digits m u
  | [], u, acc => rfl
  | c :: t, u, acc => by
    rw [List.cons_append, digits, digits]
    split
    · exact digits_append t u _
    · rfl

theorem digits_numeral {t : Text} {n : ℕ} (h : Numeral t n) : digits 0 t = some n := by
  induction h with
  | digit d hd =>
    obtain ⟨h1, h2, -⟩ := digit_facts hd
    rw [digits, if_pos h1, h2, digits]; simp
  | snoc d hd _ ih =>
    obtain ⟨h1, h2, -⟩ := digit_facts hd
    rw [digits_append, ih]
    show digits _ [_] = _
    rw [digits, if_pos h1, h2, digits]

theorem numeral_ne_nil {t : Text} {n : ℕ} (h : Numeral t n) : t ≠ [] := by
  cases h <;> simp

theorem numeral_char {t : Text} {n : ℕ} (h : Numeral t n) : ∀ c ∈ t, ∃ d < 10, c = Char.ofNat (48 + d) := by
  induction h with
  | digit d hd => intro c hc; exact ⟨d, hd, by simpa using hc⟩
  | snoc d hd _ ih =>
    intro c hc
    rw [List.mem_append, List.mem_singleton] at hc
    rcases hc with hc | rfl
    · exact ih c hc
    · exact ⟨d, hd, rfl⟩

theorem dropWhile_eq_self {t : Text} (h : ∀ c ∈ t, c.isWhitespace = false) :
    t.dropWhile Char.isWhitespace = t := by
  cases t with
  | nil => rfl
  | cons c t => rw [List.dropWhile_cons, h c List.mem_cons_self]; rfl

theorem strip_numeral {t : Text} {n : ℕ} (h : Numeral t n) : strip t = t := by
  have hw : ∀ c ∈ t, c.isWhitespace = false := by
    intro c hc
    obtain ⟨d, hd, rfl⟩ := numeral_char h c hc
    exact (digit_facts hd).2.2.1
  rw [strip, dropWhile_eq_self hw, dropWhile_eq_self (fun c hc => hw c (List.mem_reverse.mp hc)),
    List.reverse_reverse]

theorem parseInt_numeral {t : Text} {n : ℕ} (h : Numeral t n) : parseInt t = .ok (n : ℤ) := by
  rw [parseInt, strip_numeral h]
  obtain ⟨c, cs, rfl⟩ := List.exists_cons_of_ne_nil (numeral_ne_nil h)
  obtain ⟨d, hd, hc⟩ := numeral_char h c List.mem_cons_self
  obtain ⟨-, -, -, -, -, h1, h2⟩ := digit_facts hd
  rw [← hc] at h1 h2
  split
  · rename_i heq; cases heq
  · rename_i heq; cases heq; exact absurd rfl h1
  · rename_i heq; cases heq; exact absurd rfl h2
  · rw [digits_numeral h]

/-! ### Rows -/

theorem setEntry_ok {n : ℕ} {row : List ℕ} {t : Text} {c : ℕ} (h : EntryFor t c) :
    setEntry n row t = if c < n then .ok (row.set c 1) else .error .indexError := by
  obtain ⟨a, v, rfl, ha, hv, -⟩ := h
  have hsp : ' ' ∉ a := by
    intro hm
    obtain ⟨d, hd, hc⟩ := numeral_char ha _ hm
    exact (digit_facts hd).2.2.2.1 hc.symm
  rw [setEntry, splitChar_append hsp, splitChar_of_notMem hv]
  show (do let k ← parseInt a; _) = _
  rw [parseInt_numeral ha]
  show (match pyIndex n (c : ℤ) with | some j => _ | none => _) = _
  unfold pyIndex
  by_cases hc : c < n
  · simp [hc]
  · simp [hc]

theorem entry_no_comma {t : Text} {c : ℕ} (h : EntryFor t c) : ',' ∉ t := by
  obtain ⟨a, v, rfl, ha, -, hv⟩ := h
  rw [List.mem_append, List.mem_cons, not_or, not_or]
  refine ⟨?_, by decide, hv⟩
  intro hm
  obtain ⟨d, hd, hc⟩ := numeral_char ha _ hm
  exact (digit_facts hd).2.2.2.2.1 hc.symm

/-- The row with ones in the listed columns. -/
def indicator (n : ℕ) (cols : List ℕ) : List ℕ := (List.range n).map fun c => if c ∈ cols then 1 else 0

theorem foldlM_entries {n : ℕ} : ∀ {ts : List Text} {cols : List ℕ}, List.Forall₂ EntryFor ts cols →
    (∀ c ∈ cols, c < n) → ∀ (done : List ℕ), ts.foldlM (setEntry n) (indicator n done) =
      .ok (indicator n (done ++ cols))
  | _, _, .nil, _, done => by rw [List.append_nil]; rfl
  | _, _, .cons (a := t) (b := c) (l₁ := ts) (l₂ := cols) h hs, hc, done => by
    rw [List.foldlM_cons, setEntry_ok h, if_pos (hc c List.mem_cons_self)]
    have : (indicator n done).set c 1 = indicator n (done ++ [c]) := by
      apply List.ext_getElem
      · simp [indicator]
      · intro i h1 h2
        rw [List.getElem_set]
        simp only [indicator, List.getElem_map, List.getElem_range, List.mem_append, List.mem_singleton]
        by_cases hi : c = i
        · simp [hi]
        · have hi' : ¬ i = c := fun e => hi e.symm
          simp [hi, hi']
    show ts.foldlM (setEntry n) ((indicator n done).set c 1) = _
    rw [this, foldlM_entries hs (fun x hx => hc x (List.mem_cons_of_mem _ hx))]
    simp

theorem foldlM_out_of_range {n : ℕ} : ∀ {ts : List Text} {cols : List ℕ}, List.Forall₂ EntryFor ts cols →
    (∃ c ∈ cols, n ≤ c) → ∀ (row : List ℕ), ts.foldlM (setEntry n) row = .error .indexError
  | _, _, .nil, h, _ => by simp at h
  | _, _, .cons (a := t) (b := c) (l₁ := ts) (l₂ := cols) h hs, hc, row => by
    rw [List.foldlM_cons, setEntry_ok h]
    by_cases hlt : c < n
    · rw [if_pos hlt]
      refine foldlM_out_of_range hs ?_ _
      obtain ⟨x, hx, hn⟩ := hc
      rcases List.mem_cons.mp hx with rfl | hx
      · omega
      · exact ⟨x, hx, hn⟩
    · rw [if_neg hlt]; rfl

/-- The texts between the braces: the last value keeps the brace when the line has a line break. -/
theorem inner_lists {line : Text} {cols : List ℕ} (h : Lists line cols) :
    ∃ ts, List.Forall₂ EntryFor ts cols ∧ ts ≠ [] ∧ splitChar ',' (inner line) = ts := by
  obtain ⟨ts, h1, h2, h3 | h3⟩ := h
  · -- the brace joins the last value
    have hlast : ∀ {ts : List Text} {cols : List ℕ}, List.Forall₂ EntryFor ts cols → ts ≠ [] →
        ∃ us, List.Forall₂ EntryFor us cols ∧ us ≠ [] ∧
          List.intercalate [','] ts ++ ['}'] = List.intercalate [','] us := by
      intro ts
      induction ts with
      | nil => intro cols _ hne; exact absurd rfl hne
      | cons t ts ih =>
        intro cols hf _
        cases hf with
        | cons h hs =>
          rename_i c cols
          cases ts with
          | nil =>
            cases hs
            obtain ⟨a, v, rfl, ha, hv, hv'⟩ := h
            refine ⟨[a ++ ' ' :: (v ++ ['}'])], ?_, by simp, by simp [List.intercalate]⟩
            refine .cons ⟨a, v ++ ['}'], rfl, ha, ?_, ?_⟩ .nil
            · rw [List.mem_append, not_or]; exact ⟨hv, by decide⟩
            · rw [List.mem_append, not_or]; exact ⟨hv', by decide⟩
          | cons t' ts =>
            obtain ⟨us, g1, g2, g3⟩ := ih hs (by simp)
            refine ⟨t :: us, .cons h g1, by simp, ?_⟩
            obtain ⟨u, us', rfl⟩ := List.exists_cons_of_ne_nil g2
            have e1 : List.intercalate [','] (t :: t' :: ts) = t ++ ',' :: List.intercalate [','] (t' :: ts) := by
              simp [List.intercalate]
            have e2 : List.intercalate [','] (t :: u :: us') = t ++ ',' :: List.intercalate [','] (u :: us') := by
              simp [List.intercalate]
            rw [e1, e2, ← g3]; simp
    obtain ⟨us, g1, g2, g3⟩ := hlast h1 h2
    refine ⟨us, g1, g2, ?_⟩
    have : inner line = List.intercalate [','] us := by
      rw [inner, h3, ← g3, List.drop_succ_cons, List.drop_zero,
        show List.intercalate [','] ts ++ ['}', '\n'] = (List.intercalate [','] ts ++ ['}']) ++ ['\n'] by simp,
        List.dropLast_concat]
    rw [this]
    refine splitChar_intercalate g2 ?_
    intro t ht
    obtain ⟨i, hi, rfl⟩ := List.mem_iff_getElem.mp ht
    have hl := g1.length_eq
    exact entry_no_comma ((List.forall₂_iff_get.mp g1).2 i hi (by omega))
  · refine ⟨ts, h1, h2, ?_⟩
    have : inner line = List.intercalate [','] ts := by
      rw [inner, h3, List.drop_succ_cons, List.drop_zero, List.dropLast_concat]
    rw [this]
    refine splitChar_intercalate h2 ?_
    intro t ht
    obtain ⟨i, hi, rfl⟩ := List.mem_iff_getElem.mp ht
    have hl := h1.length_eq
    exact entry_no_comma ((List.forall₂_iff_get.mp h1).2 i hi (by omega))

theorem sparseRow_ok {n : ℕ} {line : Text} {cols : List ℕ} (h : Lists line cols) (hc : ∀ c ∈ cols, c < n) :
    sparseRow n line = .ok (indicator n cols) := by
  obtain ⟨ts, h1, -, h3⟩ := inner_lists h
  have : List.replicate n 0 = indicator n [] := by simp [indicator]
  rw [sparseRow, h3, this, foldlM_entries h1 hc]
  rfl

theorem sparseRow_out_of_range {n : ℕ} {line : Text} {cols : List ℕ} (h : Lists line cols)
    (hc : ∃ c ∈ cols, n ≤ c) : sparseRow n line = .error .indexError := by
  obtain ⟨ts, h1, -, h3⟩ := inner_lists h
  rw [sparseRow, h3, foldlM_out_of_range h1 hc]

/-! ### Header -/

theorem pyGet_cons_zero {α : Type} (x : α) (xs : List α) : pyGet (x :: xs) 0 = .ok x := by
  simp [pyGet, pyIndex]

theorem pyGet_cons_one {α : Type} (x y : α) (xs : List α) : pyGet (x :: y :: xs) 1 = .ok y := by
  simp [pyGet, pyIndex]

theorem declares_split {line name : Text} (h : Declares line name) :
    pyGet (splitChar ' ' line) 0 = .ok "@attribute".toList ∧ pyGet (splitChar ' ' line) 1 = .ok name ∧
      ∃ type, line = "@attribute ".toList ++ name ++ ' ' :: type ∧
        splitChar ' ' line = "@attribute".toList :: name :: splitChar ' ' type := by
  obtain ⟨hn, type, rfl⟩ := h
  have e : "@attribute ".toList ++ name ++ ' ' :: type = "@attribute".toList ++ ' ' :: (name ++ ' ' :: type) := by
    simp
  have hs : splitChar ' ' ("@attribute ".toList ++ name ++ ' ' :: type) =
      "@attribute".toList :: name :: splitChar ' ' type := by
    rw [e, splitChar_append (by decide), splitChar_append hn]
  rw [hs]
  exact ⟨pyGet_cons_zero _ _, pyGet_cons_one _ _ _, type, rfl, rfl⟩

theorem splitChar_head (c : Char) (t : Text) :
    ∃ h r, splitChar c t = h :: r ∧ ((r = [] ∧ t = h) ∨ ∃ u, t = h ++ c :: u) := by
  induction t with
  | nil => exact ⟨[], [], rfl, Or.inl ⟨rfl, rfl⟩⟩
  | cons x xs ih =>
    by_cases hx : x = c
    · subst hx
      refine ⟨[], splitChar x xs, by rw [splitChar, if_pos rfl], Or.inr ⟨xs, rfl⟩⟩
    · obtain ⟨h, r, h1, h2⟩ := ih
      refine ⟨x :: h, r, by rw [splitChar, if_neg hx, h1], ?_⟩
      rcases h2 with ⟨h2, h3⟩ | ⟨u, h2⟩
      · exact Or.inl ⟨h2, by rw [h3]⟩
      · exact Or.inr ⟨u, by rw [h2]; rfl⟩

theorem endsHeader_split {line : Text} (h : EndsHeader line) :
    ∃ kind, pyGet (splitChar ' ' line) 0 = .ok kind ∧ kind ≠ "@attribute".toList := by
  obtain ⟨k, r, h1, h2⟩ := splitChar_head ' ' line
  refine ⟨k, by rw [h1]; exact pyGet_cons_zero _ _, ?_⟩
  rintro rfl
  rcases h2 with ⟨-, h2⟩ | ⟨u, h2⟩
  · exact h.1 h2
  · exact h.2 ⟨u, by rw [h2]; simp⟩

theorem attributeNames_ok {sep : Text} (hsep : EndsHeader sep) (rest : List Text) :
    ∀ {decls names : List Text}, List.Forall₂ Declares decls names →
      attributeNames (decls ++ sep :: rest) = .ok names
  | _, _, .nil => by
    obtain ⟨k, h1, h2⟩ := endsHeader_split hsep
    rw [List.nil_append, attributeNames, h1]
    show (if k = "@attribute".toList then _ else _) = _
    rw [if_neg h2]; rfl
  | _, _, .cons h hs => by
    obtain ⟨h0, h1, -⟩ := declares_split h
    rw [List.cons_append, attributeNames, h0, attributeNames_ok hsep rest hs]
    simp only [bind, Except.bind, if_true, h1]
    rfl

end Arff

end Verif
