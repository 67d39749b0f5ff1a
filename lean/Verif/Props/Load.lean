/-
`Dataset.load`.
-/
import Verif.Spec.Load
import Verif.Props.Dataset
import Verif.Props.ArffFiles

namespace Verif

theorem Rand.outcome_attempt {α : Type} (m : Rand α) (x : Py (Py α)) :
    m.attempt.Outcome x ↔ ∃ r, m.Outcome r ∧ x = .ok r := by
  induction m with
  | done r => simp [Rand.attempt, Rand.Outcome]
  | choice p k ih =>
    simp only [Rand.attempt, Rand.Outcome, ih]
    constructor
    · rintro ⟨i, h, hp, r, hr, rfl⟩; exact ⟨r, ⟨i, h, hp, hr⟩, rfl⟩
    · rintro ⟨r, ⟨i, h, hp, hr⟩, rfl⟩; exact ⟨i, h, hp, r, hr, rfl⟩

namespace Load

open Arff (Text)

/-- Every outcome of `load` comes from an outcome of reading. -/
theorem outcome_load (w : World) (perm : ℕ → List ℕ) (o : Obj) (x : Py (Py Unit × Obj)) :
    (load w perm o).Outcome x ↔
      (∃ e, (fetch w o.datadir o.name).Outcome (.error e) ∧ x = .ok (.error e, o)) ∨
      ∃ f, (fetch w o.datadir o.name).Outcome (.ok f) ∧ x = .ok (finish perm o f) := by
  unfold load
  rw [show ∀ (m : Rand (Py Fetched)) (k : Py Fetched → Rand (Py Unit × Obj)), (m >>= k) = m.bind k from
    fun _ _ => rfl, Rand.outcome_bind]
  constructor
  · rintro (⟨r, hr, hx⟩ | ⟨e, hr, -⟩)
    · rw [Rand.outcome_attempt] at hr
      obtain ⟨r', hr', e⟩ := hr
      injection e with e
      subst e
      cases r with
      | error e => exact Or.inl ⟨e, hr', hx⟩
      | ok f => exact Or.inr ⟨f, hr', hx⟩
    · rw [Rand.outcome_attempt] at hr
      obtain ⟨r', -, e⟩ := hr
      cases e
  · rintro (⟨e, he, rfl⟩ | ⟨f, hf, rfl⟩)
    · exact Or.inl ⟨.error e, (Rand.outcome_attempt _ _).2 ⟨_, he, rfl⟩, rfl⟩
    · exact Or.inl ⟨.ok f, (Rand.outcome_attempt _ _).2 ⟨_, hf, rfl⟩, rfl⟩

theorem columnSums_spec (Y : Mat) : (columnSums Y).length = Y.ncols ∧
    ∀ (l : ℕ) (h : l < (columnSums Y).length), (columnSums Y)[l] = total Y l := by
  refine ⟨by simp [columnSums], fun l h => ?_⟩
  simp [columnSums, total]

/-- **C106.** After a successful `load`, whatever the name: the shapes agree; the test matrices are as read; the
label frequencies are the column sums of the training labels as read; the training matrices are as read, or, with
`split_train`, they and the held-out matrices are a division of the training records as read. -/
theorem C106_success (w : World) (perm : ℕ → List ℕ) (hperm : ∀ n, (perm n).Perm (List.range n)) (o o' : Obj)
    (h : (load w perm o).Outcome (.ok (.ok (), o'))) :
    ∃ (X Y X' Y' : Mat) (freq : List ℤ), ShapesAgree X Y X' Y' ∧ o'.data.tstX = some X' ∧ o'.data.tstY = some Y' ∧
      o'.labelFreq = some freq ∧ freq.length = Y.ncols ∧
      (∀ (l : ℕ) (hl : l < freq.length), freq[l] = total Y l) ∧
      (o.data.splitTrain = false → o'.data.trnX = some X ∧ o'.data.trnY = some Y ∧
        o'.data.devX = none ∧ o'.data.devY = none) ∧
      (o.data.splitTrain = true → ∃ xt yt xd yd, o'.data.trnX = some xt ∧ o'.data.trnY = some yt ∧
        o'.data.devX = some xd ∧ o'.data.devY = some yd ∧ SplitOf X Y xt yt xd yd o.data.trainRatio) := by
  rw [outcome_load] at h
  rcases h with ⟨e, -, h⟩ | ⟨f, -, h⟩
  · cases h
  · injection h with h
    unfold finish at h
    injection h with h1 h2
    subst h2
    have hs := ((C78_set_data_succeeds_iff perm hperm _ _ _ _ _).1 h1.symm).1
    refine ⟨f.trnX, f.trnY, f.tstX, f.tstY, columnSums f.trnY, hs, ?_, ?_, rfl, (columnSums_spec _).1,
      (columnSums_spec _).2, ?_, ?_⟩
    · by_cases hd : o.data.splitTrain = true
      · obtain ⟨_, _, _, _, e, -⟩ := C78_split_is_partition perm hperm _ _ _ _ _ hd h1.symm
        simp only [e]
      · simp only [(C78_no_split perm _ _ _ _ _ (by simpa using hd) h1.symm).1]
    · by_cases hd : o.data.splitTrain = true
      · obtain ⟨_, _, _, _, e, -⟩ := C78_split_is_partition perm hperm _ _ _ _ _ hd h1.symm
        simp only [e]
      · simp only [(C78_no_split perm _ _ _ _ _ (by simpa using hd) h1.symm).1]
    · intro hd
      simp only [(C78_no_split perm _ _ _ _ _ hd h1.symm).1, and_self]
    · intro hd
      obtain ⟨xt, yt, xd, yd, e, sp⟩ := C78_split_is_partition perm hperm _ _ _ _ _ hd h1.symm
      exact ⟨xt, yt, xd, yd, by simp only [e], by simp only [e], by simp only [e], by simp only [e], sp⟩

theorem records_snd {ρ : Type} {X Y : RowMat ρ} (h : Y.rows.length = X.rows.length) :
    (records X Y).map Prod.snd = Y.rows := by
  unfold records
  rw [List.map_snd_zip]
  omega

theorem total_split {X Y xt yt xd yd : Mat} {ratio : ℚ} (hXY : X.rows.length = Y.rows.length)
    (h : SplitOf X Y xt yt xd yd ratio) (l : ℕ) : total Y l = total yt l + total yd l := by
  have hp := (h.partition.map Prod.snd)
  rw [List.map_append, records_snd h.trainAligned, records_snd h.devAligned, records_snd hXY.symm] at hp
  have := (hp.map fun r : List ℤ => r.getD l 0).sum_eq
  rw [List.map_append, List.sum_append] at this
  exact this.symm

/-- **C106.** With `split_train` the label frequencies count the held-out records too: they are the sums of
training and held-out part. -/
theorem C106_freq_counts_dev (w : World) (perm : ℕ → List ℕ) (hperm : ∀ n, (perm n).Perm (List.range n)) (o o' : Obj)
    (h : (load w perm o).Outcome (.ok (.ok (), o'))) (hd : o.data.splitTrain = true) :
    ∃ (yt yd : Mat) (freq : List ℤ), o'.data.trnY = some yt ∧ o'.data.devY = some yd ∧ o'.labelFreq = some freq ∧
      ∀ (l : ℕ) (hl : l < freq.length), freq[l] = total yt l + total yd l := by
  obtain ⟨X, Y, X', Y', freq, hs, -, -, hf, -, hsum, -, hsp⟩ := C106_success w perm hperm o o' h
  obtain ⟨xt, yt, xd, yd, -, h2, -, h4, sp⟩ := hsp hd
  exact ⟨yt, yd, freq, h2, h4, hf, fun l hl => by rw [hsum l hl, total_split hs.1 sp]⟩

theorem enumerateFrom_spec : ∀ (names : List Name) (i : ℕ) (d : Name → Option ℕ) (x : Name) (k : ℕ),
    enumerateFrom i names d x = some k ↔
      (∃ j, k = i + j ∧ LastAt names x j) ∨ ((∀ j : ℕ, names[j]? ≠ some x) ∧ d x = some k)
  | [], i, d, x, k => by simp [enumerateFrom, LastAt]
  | y :: ys, i, d, x, k => by
    rw [enumerateFrom, enumerateFrom_spec ys]
    constructor
    · rintro (⟨j, rfl, h1, h2⟩ | ⟨h1, h2⟩)
      · refine Or.inl ⟨j + 1, by omega, by simpa using h1, fun j' hj' => ?_⟩
        obtain ⟨m, rfl⟩ : ∃ m, j' = m + 1 := ⟨j' - 1, by omega⟩
        simpa using h2 m (by omega)
      · by_cases hxy : x = y
        · subst hxy
          rw [if_pos rfl] at h2
          injection h2 with h2
          refine Or.inl ⟨0, by omega, by simp, fun j' hj' => ?_⟩
          obtain ⟨m, rfl⟩ : ∃ m, j' = m + 1 := ⟨j' - 1, by omega⟩
          simpa using h1 m
        · rw [if_neg hxy] at h2
          refine Or.inr ⟨fun j => ?_, h2⟩
          cases j with
          | zero => simpa using Ne.symm hxy
          | succ j => simpa using h1 j
    · rintro (⟨j, rfl, h1, h2⟩ | ⟨h1, h2⟩)
      · cases j with
        | zero =>
          have hxy : y = x := by simpa using h1
          refine Or.inr ⟨fun j => ?_, ?_⟩
          · simpa using h2 (j + 1) (by omega)
          · rw [if_pos hxy.symm]; rfl
        | succ j =>
          refine Or.inl ⟨j, by omega, by simpa using h1, fun j' hj' => ?_⟩
          simpa using h2 (j' + 1) (by omega)
      · have hxy : x ≠ y := fun e => h1 0 (by simp [e])
        refine Or.inr ⟨fun j => by simpa using h1 (j + 1), ?_⟩
        rw [if_neg hxy]; exact h2

theorem isIndexOf_enumerate (l : List Name) : IsIndexOf l (enumerateFrom 0 l fun _ => none) := by
  intro x i
  rw [enumerateFrom_spec]
  simp

theorem isIndexOf_unique {l : List Name} {d d' : Name → Option ℕ} (h : IsIndexOf l d) (h' : IsIndexOf l d') :
    d = d' := by
  funext x
  ext i
  rw [h, h']

theorem loadedFrom_iff (perm : ℕ → List ℕ) (o : Obj) (f : Fetched) (r : Py (Py Unit × Obj)) :
    r = .ok (finish perm o f) ↔ LoadedFrom perm o f.trnX f.trnY f.tstX f.tstY f.labels f.features r := by
  constructor
  · rintro rfl
    exact ⟨_, _, _, rfl, rfl, rfl, rfl, rfl, rfl, rfl, isIndexOf_enumerate _, rfl, isIndexOf_enumerate _, rfl⟩
  · rintro ⟨o', lid, fid, rfl, h1, h2, h3, h4, h5, h6, hl, h7, hf, h8⟩
    rw [isIndexOf_unique hl (isIndexOf_enumerate _)] at h6
    rw [isIndexOf_unique hf (isIndexOf_enumerate _)] at h7
    cases o'
    simp only at h1 h2 h3 h4 h5 h6 h7 h8
    subst h1; subst h2; subst h3; subst h4; subst h5; subst h6; subst h7; subst h8
    rfl

/-- **C106.** `label2id` and `feature2id` give the last position of a name, and nothing for other names. -/
theorem C106_ids (w : World) (perm : ℕ → List ℕ) (o o' : Obj) (h : (load w perm o).Outcome (.ok (.ok (), o'))) :
    ∃ (labels features : List Name) (lid fid : Name → Option ℕ), o'.labelNames = some labels ∧
      o'.featureNames = some features ∧ o'.label2id = some lid ∧ o'.feature2id = some fid ∧
      IsIndexOf labels lid ∧ IsIndexOf features fid := by
  rw [outcome_load] at h
  rcases h with ⟨e, -, h⟩ | ⟨f, -, h⟩
  · cases h
  · injection h with h
    unfold finish at h
    injection h with h1 h2
    subst h2
    exact ⟨f.labels, f.features, _, _, rfl, rfl, rfl, rfl, isIndexOf_enumerate _, isIndexOf_enumerate _⟩

/-- **C106.** When names are distinct, the dictionary is the inverse of the list. -/
theorem C106_ids_inverse (names : List Name) (h : names.Nodup) (x : Name) (i : ℕ) :
    LastAt names x i ↔ names[i]? = some x := by
  refine ⟨fun h => h.1, fun h' => ⟨h', fun j hj hj' => ?_⟩⟩
  have hi : i < names.length := (List.getElem?_eq_some_iff.1 h').1
  have := (List.getElem?_inj hi h).1 (h'.trans hj'.symm)
  omega

/-- **C106.** The data set `genbase` cannot be loaded: whatever the files say the call raises, `TypeError` if the
library reads the file; the object is unchanged. -/
theorem C106_genbase (w : World) (perm : ℕ → List ℕ) (o : Obj) (hn : o.name = "genbase".toList)
    (x : Py (Py Unit × Obj)) :
    (load w perm o).Outcome x ↔
      ∃ e, x = .ok (.error e, o) ∧
        ((∃ d, w.lib (o.datadir ++ "/genbase".toList) "genbase.arff".toList "genbase.xml".toList = .ok d) ∧
            e = .typeError ∨
          w.lib (o.datadir ++ "/genbase".toList) "genbase.arff".toList "genbase.xml".toList = .error e) := by
  rw [outcome_load]
  have hf : fetch w o.datadir o.name = Rand.lift (do
      let _ ← w.lib (o.datadir ++ "/genbase".toList) "genbase.arff".toList "genbase.xml".toList
      .error .typeError) := by
    rw [hn]
    rfl
  rw [hf]
  cases w.lib (o.datadir ++ "/genbase".toList) "genbase.arff".toList "genbase.xml".toList with
  | error e =>
    simp [Rand.lift, Rand.Outcome, bind, Except.bind]
  | ok d =>
    simp [Rand.lift, Rand.Outcome, bind, Except.bind]

theorem fetch_arff (w : World) (datadir name : Text) (sparse : Bool) (nl : ℕ) (h : (name, sparse, nl) ∈ arffSets) :
    fetch w datadir name = fetchArff w datadir name sparse nl := by
  simp only [arffSets, List.mem_cons, List.not_mem_nil, or_false, Prod.mk.injEq] at h
  rcases h with ⟨rfl, rfl, rfl⟩ | ⟨rfl, rfl, rfl⟩ | ⟨rfl, rfl, rfl⟩ | ⟨rfl, rfl, rfl⟩ | ⟨rfl, rfl, rfl⟩ <;> rfl

theorem lastComponent_arff (datadir name : Text) (sparse : Bool) (nl : ℕ) (h : (name, sparse, nl) ∈ arffSets) :
    Arff.LastComponent (datadir ++ '/' :: name) name := by
  refine ⟨?_, Or.inr ⟨datadir, rfl⟩⟩
  simp only [arffSets, List.mem_cons, List.not_mem_nil, or_false, Prod.mk.injEq] at h
  rcases h with ⟨rfl, -⟩ | ⟨rfl, -⟩ | ⟨rfl, -⟩ | ⟨rfl, -⟩ | ⟨rfl, -⟩ <;> decide

theorem not_genbase (name : Text) (sparse : Bool) (nl : ℕ) (h : (name, sparse, nl) ∈ arffSets) :
    name ≠ "genbase".toList := by
  simp only [arffSets, List.mem_cons, List.not_mem_nil, or_false, Prod.mk.injEq] at h
  rcases h with ⟨rfl, -⟩ | ⟨rfl, -⟩ | ⟨rfl, -⟩ | ⟨rfl, -⟩ | ⟨rfl, -⟩ <;> decide

/-- **C106.** The five ARFF sets, when their directory has a file whose name contains `train`: `load` reads the
two files, takes the last columns as labels, as many as the table says, thresholds numeric columns at the 0.9 quantile,
and goes on as `set_data` does with what the two files say (C78). -/
theorem C106_two_files (w : World) (perm : ℕ → List ℕ) (o : Obj) (sparse : Bool) (nl : ℕ)
    (hn : (o.name, sparse, nl) ∈ arffSets) (files : List Text)
    (hl : w.listing (o.datadir ++ "/".toList ++ o.name) = .ok files) (hm : Arff.MentionsTrain files)
    {train test : List Text}
    (htrain : w.content (o.datadir ++ "/".toList ++ o.name ++ "/".toList ++ o.name ++ "-train.arff".toList) = .ok train)
    (htest : w.content (o.datadir ++ "/".toList ++ o.name ++ "/".toList ++ o.name ++ "-test.arff".toList) = .ok test)
    {X Y X' Y' : List (List ℤ)} {labels labels' : List Text}
    (h : Arff.FileSays w.parse sparse train nl (9 / 10) X Y labels)
    (h' : Arff.FileSays w.parse sparse test nl (9 / 10) X' Y' labels') (r : Py (Py Unit × Obj)) :
    (load w perm o).Outcome r ↔ LoadedFrom perm o (ofRows X) (ofRows Y) (ofRows X') (ofRows Y') (labels'.map .text)
      ((List.range (ofRows X).ncols).map .num) r := by
  have hb : o.datadir ++ "/".toList ++ o.name = o.datadir ++ '/' :: o.name := by simp
  rw [hb] at hl htrain htest
  have hr := Arff.C103_two_files (parse := w.parse) (content := w.content) (s := 9 / 10) (p := 7 / 10)
    (Or.inl hm) (lastComponent_arff o.datadir o.name sparse nl hn) (Or.inr (not_genbase _ _ _ hn)) htrain htest h h'
  have hfetch : ∀ x, (fetch w o.datadir o.name).Outcome x ↔ x = .ok
      { trnX := ofRows X, trnY := ofRows Y, tstX := ofRows X', tstY := ofRows Y',
        features := (List.range (ofRows X).ncols).map .num, labels := labels'.map .text } := by
    intro x
    rw [fetch_arff w _ _ _ _ hn]
    unfold fetchArff
    rw [hl]
    change (Rand.bind (Arff.readArff w.parse files w.content (o.datadir ++ '/' :: o.name) nl (9 / 10) (7 / 10) sparse)
      _).Outcome x ↔ _
    rw [Rand.outcome_bind]
    constructor
    · rintro (⟨d, hd, hx⟩ | ⟨e, he, -⟩)
      · rw [hr] at hd
        injection hd with hd
        subst hd
        exact hx
      · rw [hr] at he; cases he
    · rintro rfl
      exact Or.inl ⟨_, (hr _).2 rfl, rfl⟩
  rw [outcome_load]
  simp only [hfetch]
  rw [← loadedFrom_iff perm o ⟨_, _, _, _, _, _⟩]
  simp

/-- **C106.** The five ARFF sets, when no file name contains `train`: the one file is read, the training records
are `⌊0.7 n⌋` draws with replacement, and the test records their mirror images. -/
theorem C106_one_file (w : World) (perm : ℕ → List ℕ) (o : Obj) (sparse : Bool) (nl : ℕ)
    (hn : (o.name, sparse, nl) ∈ arffSets) (files : List Text)
    (hl : w.listing (o.datadir ++ "/".toList ++ o.name) = .ok files) (hm : ¬ Arff.MentionsTrain files)
    {lines : List Text}
    (hfile : w.content (o.datadir ++ "/".toList ++ o.name ++ "/".toList ++ o.name ++ ".arff".toList) = .ok lines)
    {X Y : List (List ℤ)} {labels : List Text}
    (h : Arff.FileSays w.parse sparse lines nl (9 / 10) X Y labels) (hX : X ≠ []) (r : Py (Py Unit × Obj)) :
    (load w perm o).Outcome r ↔
      ∃ idx : List (Fin X.length), idx.length = ⌊(7 / 10 : ℚ) * X.length⌋₊ ∧
        LoadedFrom perm o (ofRows (idx.map X.get))
          (ofRows (idx.map fun i => Y.get (i.cast (Arff.says_lengths h).symm)))
          (ofRows (idx.map fun i => X.get i.rev))
          (ofRows (idx.map fun i => Y.get (i.rev.cast (Arff.says_lengths h).symm)))
          (labels.map .text) ((List.range (ofRows (idx.map X.get)).ncols).map .num) r := by
  have hb : o.datadir ++ "/".toList ++ o.name = o.datadir ++ '/' :: o.name := by simp
  rw [hb] at hl hfile
  have hr := Arff.C103_one_file (parse := w.parse) (content := w.content) (s := 9 / 10) (p := 7 / 10)
    hm (by norm_num) (lastComponent_arff o.datadir o.name sparse nl hn) hfile h hX
  have hfetch : ∀ x, (fetch w o.datadir o.name).Outcome x ↔
      ∃ idx : List (Fin X.length), idx.length = ⌊(7 / 10 : ℚ) * X.length⌋₊ ∧ x = .ok
        { trnX := ofRows (idx.map X.get), trnY := ofRows (idx.map fun i => Y.get (i.cast (Arff.says_lengths h).symm)),
          tstX := ofRows (idx.map fun i => X.get i.rev),
          tstY := ofRows (idx.map fun i => Y.get (i.rev.cast (Arff.says_lengths h).symm)),
          features := (List.range (ofRows (idx.map X.get)).ncols).map .num, labels := labels.map .text } := by
    intro x
    rw [fetch_arff w _ _ _ _ hn]
    unfold fetchArff
    rw [hl]
    change (Rand.bind (Arff.readArff w.parse files w.content (o.datadir ++ '/' :: o.name) nl (9 / 10) (7 / 10) sparse)
      _).Outcome x ↔ _
    rw [Rand.outcome_bind]
    constructor
    · rintro (⟨d, hd, hx⟩ | ⟨e, he, -⟩)
      · rw [hr] at hd
        obtain ⟨idx, hi, hd⟩ := hd
        injection hd with hd
        subst hd
        exact ⟨idx, hi, hx⟩
      · rw [hr] at he
        obtain ⟨_, _, he⟩ := he
        cases he
    · rintro ⟨idx, hi, rfl⟩
      exact Or.inl ⟨_, (hr _).2 ⟨idx, hi, rfl⟩, rfl⟩
  rw [outcome_load]
  simp only [hfetch]
  constructor
  · rintro (⟨e, ⟨_, _, he⟩, -⟩ | ⟨f, ⟨idx, hi, hf⟩, hr⟩)
    · cases he
    · injection hf with hf
      subst hf
      exact ⟨idx, hi, (loadedFrom_iff perm o ⟨_, _, _, _, _, _⟩ r).1 hr⟩
  · rintro ⟨idx, hi, hr⟩
    exact Or.inr ⟨_, ⟨idx, hi, rfl⟩, (loadedFrom_iff perm o ⟨_, _, _, _, _, _⟩ r).2 hr⟩

/-- **C106.** Any name that is not one of the special ones: two calls of the library; names are those of the second. -/
theorem C106_library (w : World) (perm : ℕ → List ℕ) (o : Obj)
    (hn : o.name ≠ "toy".toList ∧ o.name ≠ "genbase".toList ∧ o.name ∉ arffSets.map Prod.fst) {trn tst : LibSet}
    (h1 : w.lib (o.datadir ++ "/".toList ++ o.name) (o.name ++ "-train.arff".toList) (o.name ++ ".xml".toList) = .ok trn)
    (h2 : w.lib (o.datadir ++ "/".toList ++ o.name) (o.name ++ "-test.arff".toList) (o.name ++ ".xml".toList) = .ok tst)
    (r : Py (Py Unit × Obj)) :
    (load w perm o).Outcome r ↔
      LoadedFrom perm o trn.X trn.Y tst.X tst.Y (tst.labels.map .text) (tst.features.map .text) r := by
  have hb : o.datadir ++ "/".toList ++ o.name = o.datadir ++ '/' :: o.name := by simp
  rw [hb] at h1 h2
  have ha : arffOf o.name = none := by
    have h3 := hn.2.2
    simp only [arffSets, List.map_cons, List.map_nil, List.mem_cons, List.not_mem_nil, or_false, not_or] at h3
    simp only [arffOf, h3, if_false]
  have hf : fetch w o.datadir o.name = .done (.ok
      { trnX := trn.X, trnY := trn.Y, tstX := tst.X, tstY := tst.Y, features := tst.features.map .text,
        labels := tst.labels.map .text }) := by
    unfold fetch fetchLib
    rw [if_neg hn.1, ha]
    simp only [if_neg hn.2.1, h1, h2]
    rfl
  rw [outcome_load, hf, ← loadedFrom_iff perm o ⟨_, _, _, _, _, _⟩]
  simp [Rand.outcome_done]

/-- **C106.** The toy data set. -/
theorem C106_toy (w : World) (perm : ℕ → List ℕ) (o : Obj) (hn : o.name = "toy".toList) (r : Py (Py Unit × Obj)) :
    (load w perm o).Outcome r ↔
      LoadedFrom perm o ⟨[[1, 1, 0], [0, 1, 1], [1, 0, 1]], 3⟩ ⟨[[1, 1], [0, 1], [1, 0]], 2⟩
        ⟨[[1, 1, 0], [0, 1, 1], [1, 0, 1]], 3⟩ ⟨[[1, 1], [0, 1], [1, 0]], 2⟩ [.num 0, .num 1]
        [.num 0, .num 1, .num 2] r := by
  have hf : fetch w o.datadir o.name = .done (.ok toy) := by rw [hn]; rfl
  rw [outcome_load, hf]
  have := loadedFrom_iff perm o toy r
  simp only [Rand.outcome_done]
  constructor
  · rintro (⟨e, he, -⟩ | ⟨f, hf, hr⟩)
    · cases he
    · injection hf with hf
      subst hf
      exact this.1 hr
  · intro h
    exact Or.inr ⟨toy, rfl, this.2 h⟩

theorem says_widths {parse : Text → Py ℚ} {sparse : Bool} {lines : List Text} {nl : ℕ} {s : ℚ} {X Y : List (List ℤ)}
    {labels : List Text} (h : Arff.FileSays parse sparse lines nl s X Y labels) (hnl : 0 < nl) :
    labels.length = nl ∧ ∀ y ∈ Y, y.length = nl := by
  unfold Arff.FileSays at h
  cases sparse with
  | false =>
    obtain ⟨attrs, body, V, q, -, -, -, hlen, hle, -, -, -, rfl, rfl, rfl⟩ := h
    refine ⟨?_, fun y hy => ?_⟩
    · rw [Arff.lastNames, if_neg hnl.ne', List.length_drop, List.length_map]; omega
    · obtain ⟨v, hv, rfl⟩ := List.mem_map.1 hy
      rw [List.length_map, List.length_drop, hlen v hv]; omega
  | true =>
    obtain ⟨names, body, rows, -, -, -, hle, rfl, rfl, rfl⟩ := h
    refine ⟨?_, fun y hy => ?_⟩
    · rw [Arff.lastNames, if_neg hnl.ne', List.length_drop]; omega
    · obtain ⟨v, hv, rfl⟩ := List.mem_map.1 hy
      rw [List.length_map, List.length_range]

theorem ofRows_ncols {rows : List (List ℤ)} {n : ℕ} (hne : rows ≠ []) (h : ∀ r ∈ rows, r.length = n) :
    (ofRows rows).ncols = n := by
  cases rows with
  | nil => exact absurd rfl hne
  | cons r rs => exact h r (by simp)

/-- **C106.** What `load` sets for the five ARFF sets is consistent: as many label names and label columns as the
table says. -/
theorem C106_labels (sparse : Bool) (nl : ℕ) {name : Text} (hn : (name, sparse, nl) ∈ arffSets)
    {parse : Text → Py ℚ} {lines : List Text} {X Y : List (List ℤ)} {labels : List Text}
    (h : Arff.FileSays parse sparse lines nl (9 / 10) X Y labels) (hY : Y ≠ []) :
    labels.length = nl ∧ (ofRows Y).ncols = nl := by
  have hnl : 0 < nl := by
    simp only [arffSets, List.mem_cons, List.not_mem_nil, or_false, Prod.mk.injEq] at hn
    rcases hn with ⟨-, -, rfl⟩ | ⟨-, -, rfl⟩ | ⟨-, -, rfl⟩ | ⟨-, -, rfl⟩ | ⟨-, -, rfl⟩ <;> decide
  exact ⟨(says_widths h hnl).1, ofRows_ncols hY (says_widths h hnl).2⟩

/-- **C106.** If the two files give different numbers of feature columns, as happens when a nominal attribute has
different values in them (C103), every call raises `AssertionError`. -/
theorem C106_columns_differ (w : World) (perm : ℕ → List ℕ) (hperm : ∀ n, (perm n).Perm (List.range n)) (o : Obj)
    (sparse : Bool) (nl : ℕ) (hn : (o.name, sparse, nl) ∈ arffSets) (files : List Text)
    (hl : w.listing (o.datadir ++ "/".toList ++ o.name) = .ok files) (hm : Arff.MentionsTrain files)
    {train test : List Text}
    (htrain : w.content (o.datadir ++ "/".toList ++ o.name ++ "/".toList ++ o.name ++ "-train.arff".toList) = .ok train)
    (htest : w.content (o.datadir ++ "/".toList ++ o.name ++ "/".toList ++ o.name ++ "-test.arff".toList) = .ok test)
    {X Y X' Y' : List (List ℤ)} {labels labels' : List Text}
    (h : Arff.FileSays w.parse sparse train nl (9 / 10) X Y labels)
    (h' : Arff.FileSays w.parse sparse test nl (9 / 10) X' Y' labels')
    (hne : X ≠ [] ∧ X' ≠ []) {a b : ℕ} (ha : ∀ x ∈ X, x.length = a) (hb : ∀ x ∈ X', x.length = b) (hab : a ≠ b)
    (x : Py Unit × Obj) (hx : (load w perm o).Outcome (.ok x)) : x.1 = .error .assertionError := by
  obtain ⟨o', lid, fid, e, -⟩ := (C106_two_files w perm o sparse nl hn files hl hm htrain htest h h' _).1 hx
  injection e with e
  subst e
  have hns : ¬ ShapesAgree (ofRows X) (ofRows Y) (ofRows X') (ofRows Y') := by
    rintro ⟨-, -, h3, -⟩
    rw [ofRows_ncols hne.1 ha, ofRows_ncols hne.2 hb] at h3
    exact hab h3
  cases hs : (o.data.setData perm (ofRows X) (ofRows Y) (ofRows X') (ofRows Y')).1 with
  | ok u =>
    exact absurd ((C78_set_data_succeeds_iff perm hperm _ _ _ _ _).1 hs).1 hns
  | error e =>
    rcases (C78_failure_state perm hperm _ _ _ _ _ e hs).2 with ⟨rfl, -⟩ | ⟨-, hs', -⟩
    · rfl
    · exact absurd hs' hns

/-- **C106.** Loading again is harmless when reading gives the same again: the object stays as it is, and the
training part is not divided once more (in contrast to calling `split_train_if_needed` again, C78). -/
theorem C106_reload (w : World) (perm : ℕ → List ℕ) (hperm : ∀ n, (perm n).Perm (List.range n)) (o o' : Obj)
    (f : Fetched) (hf : ∀ r, (fetch w o.datadir o.name).Outcome r ↔ r = .ok f)
    (h : (load w perm o).Outcome (.ok (.ok (), o'))) (r : Py (Py Unit × Obj)) :
    (load w perm o').Outcome r ↔ r = .ok (.ok (), o') := by
  rw [outcome_load] at h
  simp only [hf] at h
  rcases h with ⟨e, he, -⟩ | ⟨f', hf', h⟩
  · cases he
  · injection hf' with hf'
    subst hf'
    injection h with h
    have hname : o'.name = o.name ∧ o'.datadir = o.datadir := by
      unfold finish at h
      injection h with _ h2
      subst h2
      exact ⟨rfl, rfl⟩
    rw [outcome_load, hname.1, hname.2]
    simp only [hf]
    have hfin : finish perm o' f' = (.ok (), o') := by
      unfold finish at h
      injection h with h1 h2
      have key : o'.data.setData perm f'.trnX f'.trnY f'.tstX f'.tstY = (.ok (), o'.data) := by
        rw [show o'.data = (o.data.setData perm f'.trnX f'.trnY f'.tstX f'.tstY).2 by rw [h2]]
        by_cases hd : o.data.splitTrain = true
        · obtain ⟨xt, yt, xd, yd, e, sp⟩ := C78_split_is_partition perm hperm _ _ _ _ _ hd h1.symm
          have hs := (C78_set_data_succeeds_iff perm hperm _ _ _ _ _).1 h1.symm
          have h1' : ((o.data.setData perm f'.trnX f'.trnY f'.tstX f'.tstY).2.setData perm f'.trnX f'.trnY f'.tstX
              f'.tstY).1 = .ok () := by
            rw [C78_set_data_succeeds_iff perm hperm, e]
            exact hs
          refine Prod.ext h1' ?_
          have c1 := (checkShapes_eq
            { o.data with trnX := some f'.trnX, trnY := some f'.trnY, tstX := some f'.tstX, tstY := some f'.tstY }
            f'.trnX f'.trnY f'.tstX f'.tstY rfl rfl rfl rfl).1 hs.1
          obtain ⟨xt', xd', yt', yd', e', -⟩ := trainTestSplit_spec perm hperm f'.trnX f'.trnY _ hs.1.1 (hs.2 hd)
          have e1 : ∀ d : DatasetObj (List ℤ), d.splitTrain = true → d.trainRatio = o.data.trainRatio →
              (d.setData perm f'.trnX f'.trnY f'.tstX f'.tstY).2 =
                { d with trnX := some xt', trnY := some yt', devX := some xd', devY := some yd',
                         tstX := some f'.tstX, tstY := some f'.tstY } := by
            intro d hd1 hd2
            have c := (checkShapes_eq
              { d with trnX := some f'.trnX, trnY := some f'.trnY, tstX := some f'.tstX, tstY := some f'.tstY }
              f'.trnX f'.trnY f'.tstX f'.tstY rfl rfl rfl rfl).1 hs.1
            unfold DatasetObj.setData
            rw [c]
            simp only [DatasetObj.splitTrainIfNeeded, hd1, if_true, attr, hd2, e']
          rw [e1 o.data hd rfl]
          exact e1 { o.data with trnX := some xt', trnY := some yt', devX := some xd', devY := some yd',
                                  tstX := some f'.tstX, tstY := some f'.tstY } hd rfl
        · have hd' : o.data.splitTrain = false := by simpa using hd
          have e := (C78_no_split perm _ _ _ _ _ hd' h1.symm).1
          have hs := (C78_set_data_succeeds_iff perm hperm _ _ _ _ _).1 h1.symm
          have h1' : ((o.data.setData perm f'.trnX f'.trnY f'.tstX f'.tstY).2.setData perm f'.trnX f'.trnY f'.tstX
              f'.tstY).1 = .ok () := by
            rw [C78_set_data_succeeds_iff perm hperm, e]
            exact ⟨hs.1, fun hc => absurd hc (by simp [hd'])⟩
          refine Prod.ext h1' ?_
          rw [e] at h1' ⊢
          have h2' := fun hc => (C78_no_split perm _ _ _ _ _ hc h1').1
          exact h2' hd'
      unfold finish
      rw [key]
      subst h2
      rfl
    constructor
    · rintro (⟨e, he, -⟩ | ⟨g, hg, rfl⟩)
      · cases he
      · injection hg with hg
        subst hg
        rw [hfin]
    · rintro rfl
      exact Or.inr ⟨f', rfl, by rw [hfin]⟩

/-- **C106.** The graph of a loaded data set is that of the training part (after the split); `which` must be `X`
or `Y`. -/
theorem C106_graph {G : Type} (construct : Mat → Option (List Name) → Py G) (o : Obj) (X Y : Mat) (names : List Name)
    (hX : o.data.trnX = some X) (hY : o.data.trnY = some Y) (hN : o.labelNames = some names) :
    buildConfidenceGraph construct o "Y".toList = construct Y (some names) ∧
    buildConfidenceGraph construct o "X".toList = construct X none ∧
    ∀ which, which ≠ "X".toList → which ≠ "Y".toList →
      buildConfidenceGraph construct o which = .error .unboundLocalError := by
  refine ⟨?_, ?_, ?_⟩
  · simp [buildConfidenceGraph, hY, hN, attr, bind, Except.bind]
  · simp [buildConfidenceGraph, hX, attr, bind, Except.bind]
  · intro which h1 h2
    unfold buildConfidenceGraph
    rw [if_neg h2, if_neg h1]

/-- A world without files. -/
def emptyWorld : World :=
  ⟨fun _ => .error .valueError, fun _ => .error .keyError, fun _ => .error .keyError, fun _ _ _ => .error .keyError⟩

/-- `Dataset(name="toy", split_train=True)`. -/
def toyObj : Obj := ⟨"toy".toList, "./data".toList, DatasetObj.new true (7 / 10), none, none, none, none, none⟩

/-- A toy object that is loaded with a split: the frequencies are those of all three records, one of which is held
out. -/
example : ∃ o', (load emptyWorld List.range toyObj).Outcome (.ok (.ok (), o')) ∧ o'.labelFreq = some [2, 2] ∧
      o'.data.trnY.map (·.rows) = some [[0, 1], [1, 0]] ∧ o'.data.devY.map (·.rows) = some [[1, 1]] := by
  refine ⟨(finish List.range toyObj toy).2, (outcome_load _ _ _ _).2 (Or.inr ⟨toy, rfl, ?_⟩), ?_, ?_, ?_⟩
  · refine congrArg Except.ok (Prod.ext ?_ rfl)
    decide +kernel
  all_goals decide +kernel

/-- A parser for single digits. -/
def digitParse : Text → Py ℚ
  | [c] => .ok ((c.toNat - 48 : ℕ) : ℚ)
  | _ => .error .valueError

/-- A file with a nominal attribute, six labels, and a row for each of the given digits: the value of the
attribute, the labels 0, 0, 0, 0, 1, 1. -/
def emotionsFile (digits : List Char) : List Text :=
  "@relation r\n".toList :: "\n".toList :: (("@attribute a {0,1,2}\n".toList ::
    List.replicate 6 "@attribute y {0,1}\n".toList) ++ "\n".toList :: "@data\n".toList ::
    digits.map fun c => 'x' :: c :: ",0,0,0,0,1,1\n".toList)

theorem emotionsFile_says (digits : List Char) (hne : digits ≠ []) (hd : ∀ c ∈ digits, c ≠ ',') :
    Arff.FileSays digitParse false (emotionsFile digits) 6 (9 / 10)
      (Arff.denseFeatures (("a".toList, false) :: List.replicate 6 ("y".toList, false))
        (digits.map fun c => [((c.toNat - 48 : ℕ) : ℚ), 0, 0, 0, 0, 1, 1]) 1 fun _ => 0)
      (digits.map fun _ => [0, 0, 0, 0, 1, 1]) (List.replicate 6 "y".toList) := by
  show Arff.DenseSays _ _ _ _ _ _ _
  refine ⟨("a".toList, false) :: List.replicate 6 ("y".toList, false), digits.map fun c => 'x' :: c :: ",0,0,0,0,1,1\n".toList,
    digits.map fun c => [((c.toNat - 48 : ℕ) : ℚ), 0, 0, 0, 0, 1, 1], fun _ => 0,
    ⟨_, _, "@attribute a {0,1,2}\n".toList :: List.replicate 6 "@attribute y {0,1}\n".toList, _, _, rfl, ?_, ?_⟩, ?_, ?_, ?_, ?_,
    by norm_num, by norm_num, ?_, by decide, ?_, ?_⟩
  · have hy : Arff.DeclaresType "@attribute y {0,1}\n".toList "y".toList false :=
      ⟨by decide, "{0,1}\n".toList, by decide, by decide, Or.inl (by decide)⟩
    exact .cons ⟨by decide, "{0,1,2}\n".toList, by decide, by decide, Or.inl (by decide)⟩
      (.cons hy (.cons hy (.cons hy (.cons hy (.cons hy (.cons hy .nil))))))
  · refine ⟨by decide, ?_⟩
    rintro ⟨rest, h⟩
    exact absurd (congrArg (fun l => l.head?) h) (by simp)
  · rw [List.forall₂_map_left_iff, List.forall₂_map_right_iff, List.forall₂_same]
    intro c hc
    refine Or.inl ⟨['x', c], ["0".toList, "0".toList, "0".toList, "0".toList, "1".toList, "1".toList],
      ⟨by simp, ?_, by simp [List.intercalate, List.intersperse]⟩, ?_⟩
    · intro u hu
      simp only [List.mem_cons, List.not_mem_nil, or_false] at hu
      rcases hu with rfl | rfl | rfl | rfl | rfl | rfl | rfl
      · simp only [List.mem_cons, List.not_mem_nil, or_false, not_or]
        exact ⟨by decide, (hd c hc).symm⟩
      all_goals decide
    · have h0 : Arff.CellValue digitParse "0".toList 0 := Or.inr ⟨by decide, by simp [digitParse]⟩
      have h1 : Arff.CellValue digitParse "1".toList 1 := Or.inr ⟨by decide, by simp [digitParse]⟩
      exact .cons (Or.inr ⟨by simp, rfl⟩) (.cons h0 (.cons h0 (.cons h0 (.cons h0 (.cons h1 (.cons h1 .nil))))))
  · simpa using hne
  · simp
  · simp
  · intro c hc
    exfalso
    have : ∀ e ∈ ("a".toList, false) :: List.replicate 6 ("y".toList, false), e.2 = false := by decide
    unfold Arff.isNumeric at hc
    rw [List.getD_eq_getElem?_getD] at hc
    cases he : (("a".toList, false) :: List.replicate 6 ("y".toList, false))[c]? with
    | none => rw [he] at hc; exact absurd hc (by decide)
    | some e =>
      rw [he, Option.getD_some, this e (List.mem_of_getElem? he)] at hc
      exact absurd hc (by decide)
  · have : ((("a".toList, false) :: List.replicate 6 ("y".toList, false)).length - 6) = 1 := by decide
    rw [this]
  · rw [List.map_map]
    refine List.map_congr_left fun c _ => ?_
    simp [Arff.truncate]

/-- A world with the data set `emotions` in `data`: in the training file the attribute has three values, in the test
file two. -/
def emotionsWorld : World :=
  { parse := digitParse
    listing := fun _ => .ok ["emotions-train.arff".toList, "emotions-test.arff".toList]
    content := fun p => if p = "data/emotions/emotions-train.arff".toList then .ok (emotionsFile ['0', '1', '2'])
      else if p = "data/emotions/emotions-test.arff".toList then .ok (emotionsFile ['0', '1']) else .error .keyError
    lib := fun _ _ _ => .error .keyError }

/-- `Dataset(name="emotions", datadir="data")` cannot be loaded in this world: the hypotheses of C106 hold. -/
example (x : Py Unit × Obj)
    (hx : (load emotionsWorld List.range ⟨"emotions".toList, "data".toList, DatasetObj.new false (7 / 10), none, none,
      none, none, none⟩).Outcome (.ok x)) : x.1 = .error .assertionError := by
  refine C106_columns_differ emotionsWorld List.range (fun n => List.Perm.refl _) _ false 6 (by decide) _ rfl
    ⟨_, List.mem_cons_self, "emotions-".toList, ".arff".toList, by decide⟩ (train := emotionsFile ['0', '1', '2'])
    (test := emotionsFile ['0', '1']) (by rfl) (by rfl) (emotionsFile_says _ (by decide) (by decide))
    (emotionsFile_says _ (by decide) (by decide)) ⟨by simp [Arff.denseFeatures], by simp [Arff.denseFeatures]⟩
    (a := 3) (b := 1) ?_ ?_ (by omega) x hx
  · intro row hrow
    rw [Arff.C103_width _ _ _ _ row hrow]
    have e1 : (Arff.valuesOf (Arff.column (['0', '1', '2'].map fun c => [((c.toNat - 48 : ℕ) : ℚ), 0, 0, 0, 0, 1, 1]) 0)).length
        = 3 := by
      rw [Arff.valuesOf, Finset.length_sort]; decide +kernel
    rw [List.range_one, List.map_singleton, List.sum_singleton, if_neg, e1]
    rintro (h | h)
    · exact absurd h (by decide)
    · omega
  · intro row hrow
    rw [Arff.C103_width _ _ _ _ row hrow]
    have e1 : (Arff.valuesOf (Arff.column (['0', '1'].map fun c => [((c.toNat - 48 : ℕ) : ℚ), 0, 0, 0, 0, 1, 1]) 0)).length
        = 2 := by
      rw [Arff.valuesOf, Finset.length_sort]; decide +kernel
    rw [List.range_one, List.map_singleton, List.sum_singleton, if_pos (Or.inr (by omega))]

end Load

end Verif
