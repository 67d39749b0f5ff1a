/-
C95: every data line of a sparse file.
-/
import Verif.Props.Arff
import Verif.Spec.ArffLines

namespace Verif

namespace Arff

theorem digit_char {c : Char} (h : c.isDigit = true) : ∃ d < 10, c = Char.ofNat (48 + d) ∧ c.toNat - '0'.toNat = d := by
  simp only [Char.isDigit, Bool.and_eq_true, decide_eq_true_eq] at h
  have h1 : 48 ≤ c.toNat := h.1
  have h2 : c.toNat ≤ 57 := h.2
  refine ⟨c.toNat - 48, by omega, ?_, rfl⟩
  rw [show 48 + (c.toNat - 48) = c.toNat by omega, Char.ofNat_toNat]

theorem numeral_of_digits : ∀ {t : Text} {n : ℕ}, t ≠ [] → digits 0 t = some n → Numeral t n := by
  intro t
  induction t using List.reverseRecOn with
  | nil => intro n h; exact absurd rfl h
  | append_singleton t c ih =>
    intro n _ h
    rw [digits_append] at h
    obtain ⟨m, hm, h⟩ := Option.bind_eq_some_iff.1 h
    rw [digits] at h
    split at h
    · rename_i hc
      obtain ⟨d, hd, hcd, hv⟩ := digit_char hc
      rw [digits, Option.some.injEq, hv] at h
      subst h
      rcases eq_or_ne t [] with rfl | hne
      · rw [digits, Option.some.injEq] at hm
        subst hm
        rw [hcd]
        simpa using Numeral.digit d hd
      · rw [hcd]
        exact Numeral.snoc d hd (ih hne hm)
    · cases h

theorem digits_iff {t : Text} {n : ℕ} (h : t ≠ []) : digits 0 t = some n ↔ Numeral t n :=
  ⟨numeral_of_digits h, digits_numeral⟩

theorem mem_takeWhile_ws {x : Char} : ∀ {t : Text}, x ∈ t.takeWhile Char.isWhitespace → x.isWhitespace = true
  | [], h => by cases h
  | y :: t, h => by
    rw [List.takeWhile_cons] at h
    split at h
    · rcases List.mem_cons.1 h with rfl | h
      · assumption
      · exact mem_takeWhile_ws h
    · cases h

/-- The parts that `strip` removes. -/
theorem strip_parts (t : Text) : ∃ w w', t = w ++ strip t ++ w' ∧ ∀ x ∈ w ++ w', x.isWhitespace = true := by
  refine ⟨t.takeWhile Char.isWhitespace,
    ((t.dropWhile Char.isWhitespace).reverse.takeWhile Char.isWhitespace).reverse, ?_, ?_⟩
  · have h1 := List.takeWhile_append_dropWhile (p := Char.isWhitespace) (l := t)
    have h2 := List.takeWhile_append_dropWhile (p := Char.isWhitespace) (l := (t.dropWhile Char.isWhitespace).reverse)
    have h3 := congrArg List.reverse h2
    rw [List.reverse_append, List.reverse_reverse] at h3
    rw [strip, List.append_assoc, h3, h1]
  · intro x hx
    rw [List.mem_append, List.mem_reverse] at hx
    rcases hx with hx | hx
    · exact mem_takeWhile_ws hx
    · exact mem_takeWhile_ws hx

theorem dropWhile_append_ws {w u : Text} (h : ∀ x ∈ w, x.isWhitespace = true) :
    (w ++ u).dropWhile Char.isWhitespace = u.dropWhile Char.isWhitespace := by
  induction w with
  | nil => rfl
  | cons x w ih =>
    rw [List.cons_append, List.dropWhile_cons, h x List.mem_cons_self]
    exact ih fun y hy => h y (List.mem_cons_of_mem _ hy)

theorem strip_core {w u w' : Text} (h : ∀ x ∈ w ++ w', x.isWhitespace = true)
    (hu : ∀ x ∈ u, x.isWhitespace = false) (hne : u ≠ []) : strip (w ++ u ++ w') = u := by
  have h1 : ∀ x ∈ w, x.isWhitespace = true := fun x hx => h x (List.mem_append_left _ hx)
  have h2 : ∀ x ∈ w'.reverse, x.isWhitespace = true :=
    fun x hx => h x (List.mem_append_right _ (List.mem_reverse.1 hx))
  have h3 : (w ++ u ++ w').dropWhile Char.isWhitespace = u ++ w' := by
    rw [List.append_assoc, dropWhile_append_ws h1]
    obtain ⟨x, xs, rfl⟩ := List.exists_cons_of_ne_nil hne
    rw [List.cons_append, List.dropWhile_cons, hu x List.mem_cons_self]
    rfl
  rw [strip, h3, List.reverse_append, dropWhile_append_ws h2,
    dropWhile_eq_self fun x hx => hu x (List.mem_reverse.1 hx), List.reverse_reverse]

theorem numeral_not_ws {a : Text} {c : ℕ} (h : Numeral a c) : ∀ x ∈ a, x.isWhitespace = false := by
  intro x hx
  obtain ⟨d, hd, rfl⟩ := numeral_char h x hx
  exact (digit_facts hd).2.2.1

/-- Reading the digits that must follow. -/
theorem digits_or (cs : Text) (hne : cs ≠ []) (f : ℕ → ℤ) :
    (∃ c, Numeral cs c ∧ (match digits 0 cs with | some n => (.ok (f n) : Py ℤ) | none => .error .valueError) = .ok (f c)) ∨
    ((∀ c, ¬ Numeral cs c) ∧
      (match digits 0 cs with | some n => (.ok (f n) : Py ℤ) | none => .error .valueError) = .error .valueError) := by
  cases h : digits 0 cs with
  | some n => exact Or.inl ⟨n, (digits_iff hne).1 h, rfl⟩
  | none =>
    refine Or.inr ⟨fun c hc => ?_, rfl⟩
    rw [digits_numeral hc] at h
    cases h

theorem intText_strip {t : Text} {k : ℤ} : IntText t k ↔ ∃ s a c, strip t = s ++ a ∧ Numeral a c ∧
    ((s = [] ∧ k = c) ∨ (s = ['+'] ∧ k = c) ∨ (s = ['-'] ∧ k = -c)) := by
  constructor
  · rintro ⟨w, s, a, w', c, rfl, hw, ha, hs⟩
    refine ⟨s, a, c, ?_, ha, hs⟩
    rw [show w ++ s ++ a ++ w' = w ++ (s ++ a) ++ w' by simp]
    refine strip_core hw ?_ (by simp [numeral_ne_nil ha])
    intro x hx
    rcases List.mem_append.1 hx with hx | hx
    · rcases hs with ⟨rfl, -⟩ | ⟨rfl, -⟩ | ⟨rfl, -⟩
      · cases hx
      · rw [List.mem_singleton.1 hx]; decide
      · rw [List.mem_singleton.1 hx]; decide
    · exact numeral_not_ws ha x hx
  · rintro ⟨s, a, c, h, ha, hs⟩
    obtain ⟨w, w', e, hw⟩ := strip_parts t
    exact ⟨w, s, a, w', c, by rw [e, h]; simp, hw, ha, hs⟩

theorem numeral_head {x : Char} {xs : Text} {c : ℕ} (h : Numeral (x :: xs) c) : x ≠ '-' ∧ x ≠ '+' := by
  obtain ⟨d, hd, hc⟩ := numeral_char h x List.mem_cons_self
  obtain ⟨-, -, -, -, -, h1, h2⟩ := digit_facts hd
  exact ⟨hc ▸ h1, hc ▸ h2⟩

/-- `int(text)` accepts integers and nothing else. -/
theorem parseInt_iff (t : Text) : (∃ k, IntText t k ∧ parseInt t = .ok k) ∨
    ((∀ k, ¬ IntText t k) ∧ parseInt t = .error .valueError) := by
  simp only [intText_strip]
  unfold parseInt
  generalize strip t = u
  split
  · refine Or.inr ⟨?_, rfl⟩
    rintro k ⟨s, a, c, e, ha, -⟩
    exact numeral_ne_nil ha (List.append_eq_nil_iff.1 e.symm).2
  · rename_i c cs
    rcases digits_or (c :: cs) (by simp) (fun n => -(n : ℤ)) with ⟨n, hn, e⟩ | ⟨hn, e⟩
    · exact Or.inl ⟨_, ⟨['-'], c :: cs, n, rfl, hn, Or.inr (Or.inr ⟨rfl, rfl⟩)⟩, e⟩
    · refine Or.inr ⟨?_, e⟩
      rintro k ⟨s, a, m, e, ha, ⟨rfl, -⟩ | ⟨rfl, -⟩ | ⟨rfl, -⟩⟩
      · rw [List.nil_append] at e
        subst e
        exact (numeral_head ha).1 rfl
      · rw [List.singleton_append, List.cons.injEq] at e
        exact absurd e.1 (by decide)
      · rw [List.singleton_append, List.cons.injEq] at e
        rw [← e.2] at ha
        exact hn _ ha
  · rename_i c cs
    rcases digits_or (c :: cs) (by simp) (fun n => (n : ℤ)) with ⟨n, hn, e⟩ | ⟨hn, e⟩
    · exact Or.inl ⟨_, ⟨['+'], c :: cs, n, rfl, hn, Or.inr (Or.inl ⟨rfl, rfl⟩)⟩, e⟩
    · refine Or.inr ⟨?_, e⟩
      rintro k ⟨s, a, m, e, ha, ⟨rfl, -⟩ | ⟨rfl, -⟩ | ⟨rfl, -⟩⟩
      · rw [List.nil_append] at e
        subst e
        exact (numeral_head ha).2 rfl
      · rw [List.singleton_append, List.cons.injEq] at e
        rw [← e.2] at ha
        exact hn _ ha
      · rw [List.singleton_append, List.cons.injEq] at e
        exact absurd e.1 (by decide)
  · rename_i cs h1 h2 h3
    rcases digits_or u h1 (fun n => (n : ℤ)) with ⟨n, hn, e⟩ | ⟨hn, e⟩
    · exact Or.inl ⟨_, ⟨[], u, n, rfl, hn, Or.inl ⟨rfl, rfl⟩⟩, e⟩
    · refine Or.inr ⟨?_, e⟩
      rintro k ⟨s, a, m, e, ha, ⟨rfl, -⟩ | ⟨rfl, -⟩ | ⟨rfl, -⟩⟩
      · rw [List.nil_append] at e
        rw [← e] at ha
        exact hn _ ha
      · obtain ⟨x, xs, rfl⟩ := List.exists_cons_of_ne_nil (numeral_ne_nil ha)
        exact h3 _ _ e
      · obtain ⟨x, xs, rfl⟩ := List.exists_cons_of_ne_nil (numeral_ne_nil ha)
        exact h2 _ _ e

/-- `splitChar` gives the only pieces. -/
theorem splitChar_spec (c : Char) : ∀ t : Text, (∀ u ∈ splitChar c t, c ∉ u) ∧ List.intercalate [c] (splitChar c t) = t
  | [] => by simp [splitChar, List.intercalate]
  | x :: xs => by
    obtain ⟨h1, h2⟩ := splitChar_spec c xs
    obtain ⟨y, ys, e⟩ := List.exists_cons_of_ne_nil (splitChar_ne_nil c xs)
    rw [e] at h1 h2
    rw [splitChar]
    by_cases hx : x = c
    · rw [if_pos hx, e]
      refine ⟨?_, ?_⟩
      · intro u hu
        rcases List.mem_cons.1 hu with rfl | hu
        · simp
        · exact h1 u hu
      · rw [show List.intercalate [c] ([] :: y :: ys) = c :: List.intercalate [c] (y :: ys) by
          simp [List.intercalate], h2, hx]
    · rw [if_neg hx, e]
      refine ⟨?_, ?_⟩
      · intro u hu
        rcases List.mem_cons.1 hu with rfl | hu
        · rw [List.mem_cons, not_or]
          exact ⟨fun h => hx h.symm, h1 y List.mem_cons_self⟩
        · exact h1 u (List.mem_cons_of_mem _ hu)
      · rw [← h2]
        cases ys <;> simp [List.intercalate]

theorem pieces_iff {line : Text} {ts : List Text} : Pieces line ts ↔ splitChar ',' (inner line) = ts := by
  constructor
  · rintro ⟨h1, h2, h3⟩
    rw [inner, h3, splitChar_intercalate h1 h2]
  · rintro rfl
    exact ⟨splitChar_ne_nil _ _, (splitChar_spec ',' _).1, (splitChar_spec ',' _).2.symm⟩

/-- Every line has pieces. -/
theorem pieces_exist (line : Text) : ∃ ts, Pieces line ts := ⟨_, pieces_iff.2 rfl⟩

theorem entry_iff {t : Text} {k : ℤ} : Entry t k ↔ ∃ a v, splitChar ' ' t = [a, v] ∧ IntText a k := by
  constructor
  · rintro ⟨a, v, rfl, ha, hv, h⟩
    exact ⟨a, v, by rw [splitChar_append ha, splitChar_of_notMem hv], h⟩
  · rintro ⟨a, v, e, h⟩
    obtain ⟨h1, h2⟩ := splitChar_spec ' ' t
    rw [e] at h1 h2
    exact ⟨a, v, by rw [← h2]; simp [List.intercalate], h1 a (by simp), h1 v (by simp), h⟩

/-- The column that a number in range stands for. -/
def columnOf (n : ℕ) (k : ℤ) : ℕ := (if k < 0 then (n : ℤ) + k else k).toNat

theorem setEntry_entry {n : ℕ} {row : List ℕ} {t : Text} {k : ℤ} (h : Entry t k) :
    (InRange n k → columnOf n k < n ∧ setEntry n row t = .ok (row.set (columnOf n k) 1)) ∧
    (¬ InRange n k → setEntry n row t = .error .indexError) := by
  obtain ⟨a, v, e, hi⟩ := entry_iff.1 h
  have hp : parseInt a = .ok k := by
    rcases parseInt_iff a with ⟨k', hk', e'⟩ | ⟨hn, -⟩
    · rw [e']
      obtain ⟨s, b, c, h1, h2, h3⟩ := intText_strip.1 hi
      obtain ⟨s', b', c', h1', h2', h3'⟩ := intText_strip.1 hk'
      rw [h1] at h1'
      have key : ∀ {s b s' b' : Text} {c c' : ℕ}, Numeral b c → Numeral b' c' → s ++ b = s' ++ b' →
          (s = [] ∨ s = ['+'] ∨ s = ['-']) → (s' = [] ∨ s' = ['+'] ∨ s' = ['-']) → s = s' ∧ b = b' := by
        rintro s b s' b' c c' hb hb' e (rfl | rfl | rfl) (rfl | rfl | rfl)
        · exact ⟨rfl, e⟩
        · simp only [List.nil_append, List.singleton_append] at e
          subst e; exact absurd rfl (numeral_head hb).2
        · simp only [List.nil_append, List.singleton_append] at e
          subst e; exact absurd rfl (numeral_head hb).1
        · simp only [List.nil_append, List.singleton_append] at e
          subst e; exact absurd rfl (numeral_head hb').2
        · simp only [List.singleton_append, List.cons.injEq, true_and] at e
          exact ⟨rfl, e⟩
        · simp only [List.singleton_append, List.cons.injEq] at e
          exact absurd e.1 (by decide)
        · simp only [List.nil_append, List.singleton_append] at e
          subst e; exact absurd rfl (numeral_head hb').1
        · simp only [List.singleton_append, List.cons.injEq] at e
          exact absurd e.1 (by decide)
        · simp only [List.singleton_append, List.cons.injEq, true_and] at e
          exact ⟨rfl, e⟩
      obtain ⟨rfl, rfl⟩ := key h2 h2' h1' (by tauto) (by tauto)
      have hcc : c = c' := Option.some.inj ((digits_numeral h2).symm.trans (digits_numeral h2'))
      subst hcc
      rcases h3 with ⟨rfl, rfl⟩ | ⟨rfl, rfl⟩ | ⟨rfl, rfl⟩ <;> simp at h3' <;> rw [h3']
    · exact absurd hi (hn k)
  unfold setEntry
  rw [e]
  simp only [hp, bind, Except.bind]
  unfold pyIndex InRange columnOf
  constructor
  · rintro ⟨h1, h2⟩
    split_ifs <;> (first | omega | skip)
    all_goals exact ⟨by omega, rfl⟩
  · intro h
    split_ifs <;> (first | omega | rfl)

theorem setEntry_bad {n : ℕ} {row : List ℕ} {t : Text} (h : ∀ k, ¬ Entry t k) :
    setEntry n row t = .error .valueError := by
  unfold setEntry
  split
  · rename_i a v e
    rcases parseInt_iff a with ⟨k, hk, -⟩ | ⟨-, hp⟩
    · exact absurd (entry_iff.2 ⟨a, v, e, hk⟩) (h k)
    · rw [hp]
      rfl
  · rfl

theorem indicator_set {n : ℕ} (done : List ℕ) (c : ℕ) : (indicator n done).set c 1 = indicator n (done ++ [c]) := by
  apply List.ext_getElem
  · simp [indicator]
  · intro i h1 h2
    rw [List.getElem_set]
    simp only [indicator, List.getElem_map, List.getElem_range, List.mem_append, List.mem_singleton]
    by_cases hi : c = i
    · simp [hi]
    · have hi' : ¬ i = c := fun e => hi e.symm
      simp [hi, hi']

theorem foldlM_good {n : ℕ} : ∀ {ts : List Text} {ks : List ℤ}, List.Forall₂ Entry ts ks →
    (∀ k ∈ ks, InRange n k) → ∀ (done : List ℕ), ts.foldlM (setEntry n) (indicator n done) =
      .ok (indicator n (done ++ ks.map (columnOf n)))
  | _, _, .nil, _, done => by rw [List.map_nil, List.append_nil]; rfl
  | _, _, .cons (a := t) (b := k) (l₁ := ts) (l₂ := ks) h hs, hc, done => by
    rw [List.foldlM_cons, ((setEntry_entry h).1 (hc k List.mem_cons_self)).2]
    show ts.foldlM (setEntry n) ((indicator n done).set (columnOf n k) 1) = _
    rw [indicator_set, foldlM_good hs (fun x hx => hc x (List.mem_cons_of_mem _ hx))]
    simp

theorem sparseRow_good {n : ℕ} {line : Text} {ks : List ℤ} (h : RowOf n line ks) :
    sparseRow n line = .ok (indicator n (ks.map (columnOf n))) := by
  obtain ⟨ts, hp, he, hk⟩ := h
  have : List.replicate n 0 = indicator n [] := by simp [indicator]
  rw [sparseRow, pieces_iff.1 hp, this, foldlM_good he hk, List.nil_append]

theorem mapM_good {n : ℕ} : ∀ {body : List Text} {rows : List (List ℤ)}, List.Forall₂ (RowOf n) body rows →
    body.mapM (sparseRow n) = .ok (rows.map fun ks => indicator n (ks.map (columnOf n)))
  | _, _, .nil => rfl
  | _, _, .cons h hs => by
    rw [List.mapM_cons, sparseRow_good h, mapM_good hs]
    rfl

theorem mem_columns {n : ℕ} {ks : List ℤ} (hk : ∀ k ∈ ks, InRange n k) {c : ℕ} (hc : c < n) :
    c ∈ ks.map (columnOf n) ↔ Lists.Has n ks c := by
  rw [List.mem_map, Lists.Has]
  constructor
  · rintro ⟨k, hm, e⟩
    obtain ⟨h1, h2⟩ := hk k hm
    unfold columnOf at e
    split_ifs at e
    · exact Or.inr (by rwa [show (c : ℤ) - n = k by omega])
    · exact Or.inl (by rwa [show (c : ℤ) = k by omega])
  · rintro (hm | hm)
    · exact ⟨_, hm, by unfold columnOf; split_ifs <;> omega⟩
    · exact ⟨_, hm, by unfold columnOf; split_ifs <;> omega⟩

/-- **C95.** Every file whose data lines list columns in range, for every number of labels. A cell is 1 exactly if its
column is listed, from the start or from the end. If more labels are asked for than there are attributes, the last
`nl - n` of the `n` columns are called labels (all of them if `nl` is `2 n` or more), and all names are label names. -/
theorem C95_every_good_file {lines names body : List Text} (h : HasShape lines names body) {rows : List (List ℤ)}
    (hb : List.Forall₂ (RowOf names.length) body rows) (nl m : ℕ)
    (hm : m = if nl ≤ names.length then names.length - nl else 2 * names.length - nl) :
    ∃ D L, readSparse lines nl = .ok (D, L, if nl = 0 then names else names.drop (names.length - nl)) ∧
      D.length = rows.length ∧ L.length = rows.length ∧
      ∀ r < rows.length, (D.getD r []).length = m ∧ (L.getD r []).length = names.length - m ∧
        (∀ c < m, (D.getD r []).getD c 0 = if Lists.Has names.length (rows.getD r []) c then 1 else 0) ∧
        ∀ j < names.length - m,
          (L.getD r []).getD j 0 = if Lists.Has names.length (rows.getD r []) (m + j) then 1 else 0 := by
  have hmn : m ≤ names.length := by split_ifs at hm <;> omega
  have hto : ∀ r : List ℕ, r.length = names.length → sliceTo r ((names.length : ℤ) - (nl : ℤ)) = r.take m := by
    intro r hr
    rw [sliceTo]
    split_ifs with h0 <;> · congr 1; split_ifs at hm <;> omega
  have hfrom : ∀ r : List ℕ, r.length = names.length → sliceFrom r ((names.length : ℤ) - (nl : ℤ)) = r.drop m := by
    intro r hr
    rw [sliceFrom]
    split_ifs with h0 <;> · congr 1; split_ifs at hm <;> omega
  have hnames : sliceFrom names (-(nl : ℤ)) = if nl = 0 then names else names.drop (names.length - nl) := by
    rw [sliceFrom]
    by_cases h0 : nl = 0
    · subst h0; simp
    · rw [if_neg h0, if_neg (by omega)]
      congr 1
      omega
  have hlen : ∀ ks : List ℤ, (indicator names.length (ks.map (columnOf names.length))).length = names.length := by
    intro ks; simp [indicator]
  refine ⟨(rows.map fun ks => indicator names.length (ks.map (columnOf names.length))).map
      fun r => sliceTo r ((names.length : ℤ) - (nl : ℤ)),
    (rows.map fun ks => indicator names.length (ks.map (columnOf names.length))).map
      fun r => sliceFrom r ((names.length : ℤ) - (nl : ℤ)), ?_, ?_, ?_, ?_⟩
  · rw [readSparse_body h, mapM_good hb, ← hnames]
    rfl
  · simp
  · simp
  · intro r hr
    have hk : ∀ k ∈ rows.getD r [], InRange names.length k := by
      have hl := hb.length_eq
      have := (List.forall₂_iff_get.mp hb).2 r (by omega) hr
      obtain ⟨-, -, -, hk⟩ := this
      rw [List.getD_eq_getElem?_getD, List.getElem?_eq_getElem hr, Option.getD_some]
      exact hk
    have e : ((rows.map fun ks => indicator names.length (ks.map (columnOf names.length))).map
        fun r => sliceTo r ((names.length : ℤ) - (nl : ℤ))).getD r [] =
        (indicator names.length ((rows.getD r []).map (columnOf names.length))).take m := by
      rw [List.getD_eq_getElem?_getD, List.getD_eq_getElem?_getD]
      simp only [List.getElem?_map, List.getElem?_eq_getElem hr, Option.map_some, Option.getD_some]
      exact hto _ (hlen _)
    have e' : ((rows.map fun ks => indicator names.length (ks.map (columnOf names.length))).map
        fun r => sliceFrom r ((names.length : ℤ) - (nl : ℤ))).getD r [] =
        (indicator names.length ((rows.getD r []).map (columnOf names.length))).drop m := by
      rw [List.getD_eq_getElem?_getD, List.getD_eq_getElem?_getD]
      simp only [List.getElem?_map, List.getElem?_eq_getElem hr, Option.map_some, Option.getD_some]
      exact hfrom _ (hlen _)
    rw [e, e']
    refine ⟨by rw [List.length_take, hlen]; omega, by rw [List.length_drop, hlen], ?_, ?_⟩
    · intro c hc
      have hcn : c < names.length := by omega
      rw [List.getD_eq_getElem?_getD, List.getElem?_take_of_lt hc]
      simp only [indicator, List.getElem?_map, List.getElem?_range hcn, Option.map_some, Option.getD_some,
        mem_columns hk hcn]
    · intro j hj
      have hcn : m + j < names.length := by omega
      rw [List.getD_eq_getElem?_getD, List.getElem?_drop]
      simp only [indicator, List.getElem?_map, List.getElem?_range hcn, Option.map_some, Option.getD_some,
        mem_columns hk hcn]

theorem foldlM_bad {n : ℕ} {t : Text} {vs : List Text} {e : PyErr} (hbad : ∀ row, setEntry n row t = .error e) :
    ∀ {us : List Text} {ks : List ℤ}, List.Forall₂ Entry us ks → (∀ k ∈ ks, InRange n k) → ∀ row,
      (us ++ t :: vs).foldlM (setEntry n) row = .error e
  | _, _, .nil, _, row => by rw [List.nil_append, List.foldlM_cons, hbad]; rfl
  | _, _, .cons (a := u) (b := k) (l₁ := us) (l₂ := ks) h hs, hk, row => by
    rw [List.cons_append, List.foldlM_cons, ((setEntry_entry h).1 (hk k List.mem_cons_self)).2]
    exact foldlM_bad hbad hs (fun x hx => hk x (List.mem_cons_of_mem _ hx)) _

/-- **C95.** Every other file: the first piece of the first line that is not an integer and one more word, or is out of
range, decides: `ValueError` in the first case, `IndexError` in the second. -/
theorem C95_every_bad_file {lines names good more : List Text} {bad : Text}
    (h : HasShape lines names (good ++ bad :: more)) {rows : List (List ℤ)}
    (hb : List.Forall₂ (RowOf names.length) good rows) {us vs : List Text} {t : Text}
    (hp : Pieces bad (us ++ t :: vs)) {ks : List ℤ} (hus : List.Forall₂ Entry us ks)
    (hks : ∀ k ∈ ks, InRange names.length k) (nl : ℤ) :
    ((∀ k, ¬ Entry t k) → readSparse lines nl = .error .valueError) ∧
    (∀ k, Entry t k → ¬ InRange names.length k → readSparse lines nl = .error .indexError) := by
  constructor
  · intro ht
    have : sparseRow names.length bad = .error .valueError := by
      rw [sparseRow, pieces_iff.1 hp, foldlM_bad (fun row => setEntry_bad ht) hus hks]
    rw [readSparse_body h, mapM_append_error this more (mapM_good hb)]
    rfl
  · intro k ht hk
    have : sparseRow names.length bad = .error .indexError := by
      rw [sparseRow, pieces_iff.1 hp, foldlM_bad (fun row => (setEntry_entry ht).2 hk) hus hks]
    rw [readSparse_body h, mapM_append_error this more (mapM_good hb)]
    rfl

/-- The two theorems cover every data section. -/
theorem C95_good_or_bad (n : ℕ) (body : List Text) :
    (∃ rows, List.Forall₂ (RowOf n) body rows) ∨
    ∃ good bad more rows us t vs ks, body = good ++ bad :: more ∧ List.Forall₂ (RowOf n) good rows ∧
      Pieces bad (us ++ t :: vs) ∧ List.Forall₂ Entry us ks ∧ (∀ k ∈ ks, InRange n k) ∧
      ((∀ k, ¬ Entry t k) ∨ ∃ k, Entry t k ∧ ¬ InRange n k) := by
  have pieces : ∀ ts : List Text, (∃ ks, List.Forall₂ Entry ts ks ∧ ∀ k ∈ ks, InRange n k) ∨
      ∃ us t vs ks, ts = us ++ t :: vs ∧ List.Forall₂ Entry us ks ∧ (∀ k ∈ ks, InRange n k) ∧
        ((∀ k, ¬ Entry t k) ∨ ∃ k, Entry t k ∧ ¬ InRange n k) := by
    intro ts
    induction ts with
    | nil => exact Or.inl ⟨[], .nil, by simp⟩
    | cons t ts ih =>
      by_cases h1 : ∃ k, Entry t k
      · obtain ⟨k, hk⟩ := h1
        by_cases h2 : InRange n k
        · rcases ih with ⟨ks, h3, h4⟩ | ⟨us, t', vs, ks, rfl, h3, h4, h5⟩
          · exact Or.inl ⟨k :: ks, .cons hk h3, List.forall_mem_cons.2 ⟨h2, h4⟩⟩
          · exact Or.inr ⟨t :: us, t', vs, k :: ks, rfl, .cons hk h3, List.forall_mem_cons.2 ⟨h2, h4⟩, h5⟩
        · exact Or.inr ⟨[], t, ts, [], rfl, .nil, by simp, Or.inr ⟨k, hk, h2⟩⟩
      · exact Or.inr ⟨[], t, ts, [], rfl, .nil, by simp, Or.inl (not_exists.1 h1)⟩
  induction body with
  | nil => exact Or.inl ⟨[], .nil⟩
  | cons line body ih =>
    obtain ⟨ts, hp⟩ := pieces_exist line
    rcases pieces ts with ⟨ks, h1, h2⟩ | ⟨us, t, vs, ks, rfl, h1, h2, h3⟩
    · rcases ih with ⟨rows, h3⟩ | ⟨good, bad, more, rows, us, t, vs, ks', rfl, h3, h4⟩
      · exact Or.inl ⟨ks :: rows, .cons ⟨ts, hp, h1, h2⟩ h3⟩
      · exact Or.inr ⟨line :: good, bad, more, ks :: rows, us, t, vs, ks', rfl, .cons ⟨ts, hp, h1, h2⟩ h3, h4⟩
    · exact Or.inr ⟨[], line, body, [], us, t, vs, ks, rfl, .nil, hp, h1, h2, h3⟩

/-! ### Concrete cases -/

/-- `-1` is the last column: the hypotheses hold for the line `{0 1,-1 1}`. -/
example : RowOf 3 "{0 1,-1 1}\n".toList [0, -1] := by
  refine ⟨["0 1".toList, "-1 1}".toList], ⟨by simp, by decide, by decide⟩, .cons ?_ (.cons ?_ .nil), ?_⟩
  · exact ⟨"0".toList, "1".toList, by decide, by decide, by decide, [], [], "0".toList, [], 0, by decide, by decide,
      Numeral.digit 0 (by omega), Or.inl ⟨rfl, rfl⟩⟩
  · exact ⟨"-1".toList, "1}".toList, by decide, by decide, by decide, [], ['-'], "1".toList, [], 1, by decide, by decide,
      Numeral.digit 1 (by omega), Or.inr (Or.inr ⟨rfl, rfl⟩)⟩
  · intro k hk
    simp only [List.mem_cons, List.not_mem_nil, or_false] at hk
    unfold InRange
    rcases hk with rfl | rfl <;> omega

/-- Two blanks are too many. -/
example : ∀ k, ¬ Entry "0  1".toList k := by
  intro k h
  obtain ⟨a, v, e, -⟩ := entry_iff.1 h
  have e' : (splitChar ' ' "0  1".toList).length = 2 := by rw [e]; rfl
  exact absurd e' (by decide)

end Arff

end Verif
