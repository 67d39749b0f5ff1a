/-
C103: `read_data_arff`, which chooses the files and puts their contents together.
-/
import Verif.Props.Genbase
import Verif.Props.Data

namespace Verif

namespace Arff

variable {parse : Text → Py ℚ}

/-! ### One file -/

theorem readSparse_says {lines : List Text} {nl : ℕ} {X Y : List (List ℤ)} {labels : List Text}
    (h : SparseSays lines nl X Y labels) : ∃ D L, readSparse lines nl = .ok (D, L, labels) ∧
      X = D.map (·.map fun v : ℕ => (v : ℤ)) ∧ Y = L.map (·.map fun v : ℕ => (v : ℤ)) := by
  obtain ⟨names, body, rows, hs, hb, hc, hnl, rfl, rfl, rfl⟩ := h
  obtain ⟨D, L, e, d1, d2, d3⟩ := C95_roundtrip hs hb hc hnl
  refine ⟨D, L, e, ?_, ?_⟩
  · apply List.ext_getElem
    · simp [d1]
    · intro r h1 h2
      rw [List.length_map] at h1 h2
      obtain ⟨g1, g2, g3, g4⟩ := d3 r h1
      rw [List.getElem_map, List.getElem_map]
      rw [getD_lt h2] at g1 g3
      rw [getD_lt h1] at g3
      apply List.ext_getElem
      · simp [g1]
      · intro c c1 c2
        rw [List.length_map, List.length_range] at c1
        have := g3 c c1
        rw [getD_lt (by omega)] at this
        rw [List.getElem_map, List.getElem_map, List.getElem_range, this]
        split <;> rfl
  · apply List.ext_getElem
    · simp [d2]
    · intro r h1 h2
      rw [List.length_map] at h1 h2
      obtain ⟨g1, g2, g3, g4⟩ := d3 r h1
      rw [List.getElem_map, List.getElem_map]
      rw [getD_lt h2] at g2 g4
      rw [getD_lt h1] at g4
      apply List.ext_getElem
      · simp [g2]
      · intro c c1 c2
        rw [List.length_map, List.length_range] at c1
        have := g4 c c1
        rw [getD_lt (by omega)] at this
        rw [List.getElem_map, List.getElem_map, List.getElem_range, this]
        split <;> rfl

theorem readDense_says {lines : List Text} {nl : ℕ} {s : ℚ} {X Y : List (List ℤ)} {labels : List Text}
    (h : DenseSays parse lines nl s X Y labels) : readDense parse lines nl s = .ok (X, Y, labels) := by
  obtain ⟨attrs, body, V, q, hs, hV, hne, hlen, hnl, h0, h1, hq, rfl, rfl, rfl⟩ := h
  obtain ⟨D, L, q', e, hq', d1, d2, d3⟩ := C99_dense hs hne hV hlen hnl h0 h1 (fun c hc => (hq c hc).1)
  have hcne : ∀ c, column V c ≠ [] := by
    intro c e
    have := congrArg List.length e
    rw [column_length] at this
    exact hne (List.length_eq_zero_iff.mp this)
  have hqq : ∀ c, isNumeric attrs c → q' c = q c := by
    intro c hc
    have a := (Quantile.quantile_eq_iff h0 h1 (hcne c)).mpr (hq' c hc)
    have b := (Quantile.quantile_eq_iff h0 h1 (hcne c)).mpr (hq c hc).2
    rw [a] at b
    exact Except.ok.inj b
  have hD : denseFeatures attrs V (attrs.length - nl) q = D := by
    apply List.ext_getElem
    · simp [denseFeatures, d1]
    · intro r r1 r2
      have hr : r < V.length := by omega
      obtain ⟨-, g⟩ := d3 r hr
      rw [getD_lt r2, getD_lt hr] at g
      rw [g]
      simp only [denseFeatures, List.getElem_map]
      congr 1
      apply List.map_congr_left
      intro c _
      by_cases hc : isNumeric attrs c
      · rw [if_pos hc, if_pos hc, hqq c hc]
      · rw [if_neg hc, if_neg hc]
  have hL : (V.map fun row => (row.drop (attrs.length - nl)).map truncate) = L := by
    apply List.ext_getElem
    · simp [d2]
    · intro r r1 r2
      have hr : r < V.length := by omega
      obtain ⟨g, -⟩ := d3 r hr
      rw [getD_lt r2, getD_lt hr] at g
      rw [g, List.getElem_map]
  rw [e, hD, hL, lastNames, List.length_map]

theorem readOne_says {content : Text → Py (List Text)} {sparse : Bool} {nl : ℕ} {s : ℚ} {path : Text}
    {lines : List Text} (hc : content path = .ok lines) {X Y : List (List ℤ)} {labels : List Text}
    (h : FileSays parse sparse lines nl s X Y labels) :
    readOne parse content sparse nl s path = .ok (X, Y, labels) := by
  rw [readOne, hc]
  unfold FileSays at h
  cases sparse with
  | false => exact readDense_says h
  | true =>
    obtain ⟨D, L, e, rfl, rfl⟩ := readSparse_says h
    show (do let (D, L, names) ← readSparse lines nl; _) = _
    rw [e]; rfl

theorem says_lengths {sparse : Bool} {lines : List Text} {nl : ℕ} {s : ℚ} {X Y : List (List ℤ)} {labels : List Text}
    (h : FileSays parse sparse lines nl s X Y labels) : Y.length = X.length := by
  unfold FileSays at h
  cases sparse with
  | false =>
    obtain ⟨attrs, body, V, q, -, -, -, -, -, -, -, -, -, rfl, rfl⟩ := h
    simp [denseFeatures]
  | true =>
    obtain ⟨names, body, rows, -, -, -, -, -, rfl, rfl⟩ := h
    simp

/-! ### The choice of files -/

theorem splitChar_last {c : Char} : ∀ {dir name : Text}, c ∉ name →
    (splitChar c (dir ++ c :: name)).getLastD [] = name
  | [], name, h => by
    rw [List.nil_append, splitChar, if_pos rfl, splitChar_of_notMem h]; rfl
  | x :: dir, name, h => by
    have ih := splitChar_last (dir := dir) h
    rw [List.cons_append, splitChar]
    have hne := splitChar_ne_nil c (dir ++ c :: name)
    by_cases hx : x = c
    · rw [if_pos hx]
      cases hs : splitChar c (dir ++ c :: name) with
      | nil => exact absurd hs hne
      | cons y ys => rw [hs] at ih; simpa using ih
    · rw [if_neg hx]
      cases hs : splitChar c (dir ++ c :: name) with
      | nil => exact absurd hs hne
      | cons y ys =>
        rw [hs] at ih
        cases ys with
        | nil =>
          exfalso
          have : ∀ t : Text, c ∈ t → 2 ≤ (splitChar c t).length := by
            intro t
            induction t with
            | nil => intro h; cases h
            | cons z zs ih2 =>
              intro hm
              rw [splitChar]
              by_cases hz : z = c
              · rw [if_pos hz, List.length_cons]
                have := List.length_pos_iff.mpr (splitChar_ne_nil c zs)
                omega
              · rw [if_neg hz]
                have := ih2 (by rcases List.mem_cons.mp hm with h | h; exact absurd h.symm hz; exact h)
                cases hs2 : splitChar c zs with
                | nil => rw [hs2] at this; simp at this
                | cons u us => rw [hs2] at this; simpa using this
          have := this (dir ++ c :: name) (by simp)
          rw [hs] at this; simp at this
        | cons y' ys' => simpa using ih

theorem dataset_eq {base name : Text} (h : LastComponent base name) : (splitChar '/' base).getLastD [] = name := by
  obtain ⟨hn, rfl | ⟨dir, rfl⟩⟩ := h
  · rw [splitChar_of_notMem hn]; rfl
  · exact splitChar_last hn

theorem any_train {files : List Text} (h : MentionsTrain files) :
    (files.any fun f => decide ("train".toList <:+: f)) = true := by
  obtain ⟨f, hf, a, b, rfl⟩ := h
  rw [List.any_eq_true]
  exact ⟨_, hf, decide_eq_true ⟨a, b, rfl⟩⟩

theorem any_train_iff {files : List Text} :
    (files.any fun f => decide ("train".toList <:+: f)) = true ↔ MentionsTrain files := by
  refine ⟨fun h => ?_, any_train⟩
  rw [List.any_eq_true] at h
  obtain ⟨f, hf, h⟩ := h
  obtain ⟨a, b, e⟩ := of_decide_eq_true h
  exact ⟨f, hf, a, b, e.symm⟩

variable {files : List Text} {content : Text → Py (List Text)} {base name : Text} {nl : ℕ} {s p : ℚ} {sparse : Bool}

/-- **C103.** If a file name in the directory contains `train`, or the proportion is 0, the two files
`<name>-train.arff` and `<name>-test.arff` are read, each by itself: the quantiles of numeric columns, the
columns that are kept and the values for which columns are made are those of that file. Nothing is drawn. The
label names are those of the second file. -/
theorem C103_two_files (hf : MentionsTrain files ∨ p = 0) (hb : LastComponent base name)
    (hg : sparse = true ∨ name ≠ "genbase".toList) {train test : List Text}
    (htrain : content (base ++ "/".toList ++ name ++ "-train.arff".toList) = .ok train)
    (htest : content (base ++ "/".toList ++ name ++ "-test.arff".toList) = .ok test)
    {X Y X' Y' : List (List ℤ)} {labels labels' : List Text} (h : FileSays parse sparse train nl s X Y labels)
    (h' : FileSays parse sparse test nl s X' Y' labels') (r : Py Loaded) :
    (readArff parse files content base nl s p sparse).Outcome r ↔
      r = .ok { trainX := X, trainY := Y, testX := X', testY := Y', names := labels' } := by
  have hp : (if files.any fun f => decide ("train".toList <:+: f) then 0 else p) = 0 := by
    rcases hf with hf | hf
    · rw [if_pos (any_train hf)]
    · split
      · rfl
      · exact hf
  have hg' : ¬ ((!sparse && decide (name = "genbase".toList)) = true) := by
    rcases hg with h | h
    · simp [h]
    · rw [decide_eq_false h, Bool.and_false]; decide
  have e1 : base ++ '/' :: name ++ "-train.arff".toList = base ++ "/".toList ++ name ++ "-train.arff".toList := by simp
  have e2 : base ++ '/' :: name ++ "-test.arff".toList = base ++ "/".toList ++ name ++ "-test.arff".toList := by simp
  simp only [readArff, hp, dataset_eq hb, if_true, if_neg hg', e1, e2, readOne_says htrain h, readOne_says htest h']
  simp only [bind, Except.bind, pure, Except.pure, Rand.lift, Rand.outcome_done]

/-- **C103.** The proportion is then ignored: a file with an unrelated name that contains `train` is enough. -/
theorem C103_proportion_ignored (hf : MentionsTrain files) (p p' : ℚ) (nl : ℤ) :
    readArff parse files content base nl s p sparse = readArff parse files content base nl s p' sparse := by
  simp only [readArff, any_train hf, if_true]

/-- **C103.** If there is no file `<name>-train.arff`, the exception of `open` is raised. -/
theorem C103_missing (hf : MentionsTrain files ∨ p = 0) (hb : LastComponent base name) {e : PyErr}
    (hmiss : content (base ++ "/".toList ++ name ++ "-train.arff".toList) = .error e) (nl : ℤ) (r : Py Loaded) :
    (readArff parse files content base nl s p sparse).Outcome r ↔ r = .error e := by
  have hp : (if files.any fun f => decide ("train".toList <:+: f) then 0 else p) = 0 := by
    rcases hf with hf | hf
    · rw [if_pos (any_train hf)]
    · split
      · rfl
      · exact hf
  have e1 : base ++ '/' :: name ++ "-train.arff".toList = base ++ "/".toList ++ name ++ "-train.arff".toList := by simp
  simp only [readArff, hp, dataset_eq hb, if_true, e1, readOne, hmiss]
  simp only [bind, Except.bind, ite_self, Rand.lift, Rand.outcome_done]

/-- **C103.** Otherwise the one file `<name>.arff` is read, with quantiles and values of all its rows, and then
divided: the training part consists of `⌊p n⌋` rows drawn with replacement, the test part of their mirror
images. -/
theorem C103_one_file (hf : ¬ MentionsTrain files) (hp : 0 < p) (hb : LastComponent base name) {lines : List Text}
    (hfile : content (base ++ "/".toList ++ name ++ ".arff".toList) = .ok lines)
    {X Y : List (List ℤ)} {labels : List Text} (h : FileSays parse sparse lines nl s X Y labels) (hX : X ≠ [])
    (r : Py Loaded) :
    (readArff parse files content base nl s p sparse).Outcome r ↔
      ∃ idx : List (Fin X.length), idx.length = ⌊p * X.length⌋₊ ∧
        r = .ok { trainX := idx.map X.get, trainY := idx.map fun i => Y.get (i.cast (says_lengths h).symm),
                  testX := idx.map fun i => X.get i.rev, testY := idx.map fun i => Y.get (i.rev.cast (says_lengths h).symm),
                  names := labels } := by
  have hany : ¬ ((files.any fun f => decide ("train".toList <:+: f)) = true) := fun e => hf (any_train_iff.mp e)
  have e1 : base ++ '/' :: name ++ ".arff".toList = base ++ "/".toList ++ name ++ ".arff".toList := by simp
  have he : readArff parse files content base nl s p sparse = (shuffleSplitData X Y p).bind fun s =>
      Rand.done (.ok { trainX := s.trainX, trainY := s.trainY, testX := s.testX, testY := s.testY, names := labels }) := by
    simp only [readArff, if_neg hany, hp.ne', if_false, dataset_eq hb, e1, readOne_says hfile h]
    rfl
  rw [he, Rand.outcome_bind]
  simp only [C65_split X Y p hX (says_lengths h) hp.le, Rand.outcome_done]
  constructor
  · rintro (⟨a, ⟨idx, hl, h1⟩, rfl⟩ | ⟨e, ⟨idx, _, h1⟩, _⟩)
    · cases h1
      exact ⟨idx, hl, rfl⟩
    · cases h1
  · rintro ⟨idx, hl, rfl⟩
    exact Or.inl ⟨_, ⟨idx, hl, rfl⟩, rfl⟩

/-- **C103.** The dense data set `genbase` with given split can never be loaded. -/
theorem C103_genbase (hf : MentionsTrain files ∨ p = 0) (hb : LastComponent base "genbase".toList) (nl : ℤ)
    (x : Loaded) : ¬ (readArff parse files content base nl s p false).Outcome (.ok x) := by
  have hp : (if files.any fun f => decide ("train".toList <:+: f) then 0 else p) = 0 := by
    rcases hf with hf | hf
    · rw [if_pos (any_train hf)]
    · split
      · rfl
      · exact hf
  simp only [readArff, hp, dataset_eq hb, if_true, Bool.not_false, decide_true, Bool.and_self, Rand.lift, Rand.outcome_done]
  intro h
  simp only [bind, Except.bind] at h
  repeat' split at h
  all_goals cases h

/-- **C103.** If both files of `genbase` can be read, the exception is `UnboundLocalError`. -/
theorem C103_genbase_unbound (hf : MentionsTrain files ∨ p = 0) (hb : LastComponent base "genbase".toList)
    {train test : List Text}
    (htrain : content (base ++ "/".toList ++ "genbase".toList ++ "-train.arff".toList) = .ok train)
    (htest : content (base ++ "/".toList ++ "genbase".toList ++ "-test.arff".toList) = .ok test) (nl : ℤ)
    {D D'} (h : readGenbase parse train nl s = .ok D) (h' : readGenbase parse test nl s = .ok D') (r : Py Loaded) :
    (readArff parse files content base nl s p false).Outcome r ↔ r = .error .unboundLocalError := by
  have hp : (if files.any fun f => decide ("train".toList <:+: f) then 0 else p) = 0 := by
    rcases hf with hf | hf
    · rw [if_pos (any_train hf)]
    · split
      · rfl
      · exact hf
  have e1 : base ++ '/' :: "genbase".toList ++ "-train.arff".toList =
    base ++ "/".toList ++ "genbase".toList ++ "-train.arff".toList := by simp
  have e2 : base ++ '/' :: "genbase".toList ++ "-test.arff".toList =
    base ++ "/".toList ++ "genbase".toList ++ "-test.arff".toList := by simp
  simp only [readArff, hp, dataset_eq hb, if_true, Bool.not_false, decide_true, Bool.and_self, e1, e2, htrain, htest]
  simp only [bind, Except.bind, h, h', Rand.lift, Rand.outcome_done]

/-- **C103.** The number of feature columns of a dense file: one for each kept feature and one for each value of
the others. It depends on the values that occur in the file. -/
theorem C103_width (attrs : List (Text × Bool)) (V : List (List ℚ)) (w : ℕ) (q : ℕ → ℚ) :
    ∀ row ∈ denseFeatures attrs V w q, row.length = ((List.range w).map fun c =>
        if Kept attrs V c then 1 else (valuesOf (column V c)).length).sum := by
  intro row hrow
  obtain ⟨v, hv, rfl⟩ := List.mem_map.mp hrow
  rw [List.length_append, List.length_map, List.length_flatMap]
  generalize List.range w = cs
  induction cs with
  | nil => rfl
  | cons c cs ih =>
    rw [List.map_cons, List.sum_cons, ← ih, List.filter_cons, List.filter_cons]
    by_cases hc : Kept attrs V c
    · simp [hc]
      omega
    · simp [hc]
      omega

/-- **C103.** If one feature has more than two values in the training file and at most two in the test file and
all others are kept in both, the two parts have different numbers of columns. -/
theorem C103_columns_differ (attrs : List (Text × Bool)) (V V' : List (List ℚ)) {w c : ℕ} (q q' : ℕ → ℚ) (hc : c < w)
    (hnum : ¬ isNumeric attrs c) (h1 : 2 < (valuesOf (column V c)).length)
    (h2 : (valuesOf (column V' c)).length ≤ 2) (hk : ∀ d < w, d ≠ c → Kept attrs V d ∧ Kept attrs V' d) :
    (∀ row ∈ denseFeatures attrs V w q, row.length = w - 1 + (valuesOf (column V c)).length) ∧
      ∀ row ∈ denseFeatures attrs V' w q', row.length = w := by
  have key : ∀ (f : ℕ → ℕ), (∀ d < w, d ≠ c → f d = 1) → ((List.range w).map f).sum = w - 1 + f c := by
    intro f hf
    have : ∀ n, (∀ d < n, d ≠ c → f d = 1) → ((List.range n).map f).sum = if c < n then n - 1 + f c else n := by
      intro n
      induction n with
      | zero => intro _; rfl
      | succ n ih =>
        intro h
        rw [List.range_succ, List.map_append, List.sum_append, ih fun d hd => h d (by omega)]
        simp only [List.map_cons, List.map_nil, List.sum_cons, List.sum_nil, Nat.add_zero]
        by_cases hn : n = c
        · subst hn
          simp
        · have := h n (by omega) hn
          by_cases h2 : c < n
          · rw [if_pos h2, if_pos (by omega)]; omega
          · rw [if_neg h2, if_neg (by omega)]; omega
    rw [this w hf, if_pos hc]
  constructor
  · intro row hrow
    rw [C103_width attrs V w q row hrow, key _ (fun d hd hdc => if_pos (hk d hd hdc).1), if_neg]
    rintro (h | h)
    · exact hnum h
    · omega
  · intro row hrow
    rw [C103_width attrs V' w q' row hrow, key _ (fun d hd hdc => if_pos (hk d hd hdc).2),
      if_pos (show Kept attrs V' c from Or.inr h2)]
    omega

/-- The path `data/birds`, a directory with a file of notes, and the two files of the data set. -/
example : LastComponent "data/birds".toList "birds".toList ∧ MentionsTrain ["training-notes.txt".toList] ∧
    ∃ X Y labels, FileSays (fun t => (parseInt t).map fun n : ℤ => (n : ℚ)) false denseFile 1 (1 / 2) X Y labels := by
  refine ⟨⟨by decide, Or.inr ⟨"data".toList, by decide⟩⟩,
    ⟨_, List.mem_singleton_self _, [], "ing-notes.txt".toList, by decide⟩, ?_⟩
  obtain ⟨h1, h2, h3⟩ := denseFile_ok
  obtain ⟨q, -, hq⟩ := Quantile.quantile_ok (xs := [7, 3]) (q := 1 / 2) (by norm_num) (by norm_num) (by simp)
  refine ⟨denseFeatures [("a".toList, true), ("y".toList, false)] [[7, 1], [3, 0]] 1 (fun _ => q),
    [[7, 1], [3, 0]].map fun row => (row.drop 1).map truncate, lastNames ["a".toList, "y".toList] 1, ?_⟩
  show DenseSays _ _ _ _ _ _ _
  refine ⟨_, _, _, fun _ => q, h1, h2, by simp, by simp, by simp, by norm_num, by norm_num, ?_, rfl, rfl, rfl⟩
  intro c hc
  have := h3 c hc
  have hc0 : c = 0 := by omega
  subst hc0
  exact ⟨by simp, by simpa [column] using hq⟩

/-- A feature with the values 0, 1, 2 in the training file and 0, 1 in the test file: three columns against one. -/
example : (∀ row ∈ denseFeatures [("a".toList, false)] [[0], [1], [2]] 1 (fun _ => 0), row.length = 3) ∧
    ∀ row ∈ denseFeatures [("a".toList, false)] [[0], [1]] 1 (fun _ => 0), row.length = 1 := by
  have e1 : (valuesOf (column [[0], [1], [2]] 0)).length = 3 := by
    rw [valuesOf, Finset.length_sort]; decide
  have e2 : (valuesOf (column [[0], [1]] 0)).length = 2 := by
    rw [valuesOf, Finset.length_sort]; decide
  have := C103_columns_differ [("a".toList, false)] [[0], [1], [2]] [[0], [1]] (w := 1) (c := 0) (fun _ => 0) (fun _ => 0)
    (by omega) (by decide) (by omega) (by omega) (fun d hd hdc => absurd hdc (by omega))
  rw [e1] at this
  exact this

end Arff

end Verif
