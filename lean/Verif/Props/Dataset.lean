/-
C78: `Dataset.set_data`, the split into training and development rows, and the reported shapes.
-/
import Verif.Props.Data
import Mathlib.Data.List.FinRange

namespace Verif

/-- The rows of a feature matrix paired with the rows of a label matrix. -/
def records {ρ : Type} (X Y : RowMat ρ) : List (ρ × ρ) := X.rows.zip Y.rows

/-- The four shape conditions a `Dataset` insists on. -/
def ShapesAgree {ρ : Type} (X Y X' Y' : RowMat ρ) : Prop :=
  X.rows.length = Y.rows.length ∧ X'.rows.length = Y'.rows.length ∧ X.ncols = X'.ncols ∧
    Y.ncols = Y'.ncols

/-- The ratio leaves at least one row on each side. -/
def Splittable (n : ℕ) (ratio : ℚ) : Prop := 0 < ratio ∧ ratio < 1 ∧ 1 ≤ ratio * n

/-- `xt`, `yt` and `xd`, `yd` are the two parts of a split of the training data `X`, `Y`: together a
rearrangement of its records, with every feature row still beside its label row. -/
structure SplitOf {ρ : Type} (X Y xt yt xd yd : RowMat ρ) (ratio : ℚ) : Prop where
  partition : (records xt yt ++ records xd yd).Perm (records X Y)
  trainRows : xt.rows.length = ⌊ratio * X.rows.length⌋₊
  devRows : xd.rows.length = X.rows.length - ⌊ratio * X.rows.length⌋₊
  trainAligned : yt.rows.length = xt.rows.length
  devAligned : yd.rows.length = xd.rows.length
  trainNonempty : 0 < xt.rows.length
  devNonempty : 0 < xd.rows.length
  columns : xt.ncols = X.ncols ∧ xd.ncols = X.ncols ∧ yt.ncols = Y.ncols ∧ yd.ncols = Y.ncols

theorem splitSizes_ok {n : ℕ} {ratio : ℚ} (h : Splittable n ratio) :
    splitSizes n ratio = .ok (⌊ratio * n⌋₊, n - ⌊ratio * n⌋₊) ∧ 1 ≤ ⌊ratio * n⌋₊ ∧ ⌊ratio * n⌋₊ < n := by
  obtain ⟨h0, h1, h2⟩ := h
  have e : ⌊ratio * n⌋.toNat = ⌊ratio * n⌋₊ := rfl
  have k1 : 1 ≤ ⌊ratio * n⌋₊ := Nat.le_floor (by simpa using h2)
  have hn : (0 : ℚ) < n := by
    by_contra hc
    have : ratio * n ≤ 0 := mul_nonpos_of_nonneg_of_nonpos h0.le (not_lt.mp hc)
    linarith
  refine ⟨?_, k1, ?_⟩
  · rw [splitSizes, if_neg (by push Not; exact ⟨h0, h1⟩), e, if_neg (by omega)]
  · rw [Nat.floor_lt (by positivity)]
    nlinarith

theorem splitSizes_error {n : ℕ} {ratio : ℚ} (h : ¬ Splittable n ratio) :
    splitSizes n ratio = .error .valueError := by
  unfold splitSizes
  split_ifs with h1 h2
  · rfl
  · rfl
  · exfalso
    push Not at h1
    have h2' : ⌊ratio * n⌋₊ ≠ 0 := h2
    refine h ⟨h1.1, h1.2, ?_⟩
    have := Nat.floor_le (a := ratio * n) (by have := h1.1; positivity)
    have k : (1 : ℚ) ≤ (⌊ratio * n⌋₊ : ℚ) := by exact_mod_cast Nat.one_le_iff_ne_zero.mpr h2'
    linarith

/-- A list of the numbers below `n` as a list of `Fin n`. -/
theorem perm_fin {n : ℕ} {l : List ℕ} (h : l.Perm (List.range n)) :
    ∃ F : List (Fin n), F.map Fin.val = l ∧ F.Perm (List.finRange n) := by
  refine ⟨l.pmap (fun i hi => ⟨i, hi⟩) (fun i hi => by simpa using h.mem_iff.mp hi), ?_, ?_⟩
  · simp [List.map_pmap]
  · have : ((l.pmap (fun i hi => (⟨i, hi⟩ : Fin n))
        (fun i hi => by simpa using h.mem_iff.mp hi)).map Fin.val).Perm
        ((List.finRange n).map Fin.val) := by
      simp only [List.map_pmap, List.pmap_eq_map, List.map_id']
      rw [List.map_coe_finRange_eq_range]
      exact h
    exact (List.map_perm_map_iff Fin.val_injective).mp this

theorem trainTestSplit_ok {ρ : Type} (perm : ℕ → List ℕ) (n : ℕ) (F : List (Fin n))
    (hF : F.map Fin.val = perm n) (hFp : F.Perm (List.finRange n)) (X Y : RowMat ρ) (ratio : ℚ)
    (hX : X.rows.length = n) (hY : Y.rows.length = n) (hr : Splittable n ratio) :
    trainTestSplit perm X Y ratio = .ok
      (⟨(F.drop (n - ⌊ratio * n⌋₊)).map fun i => X.rows.get (i.cast hX.symm), X.ncols⟩,
       ⟨(F.take (n - ⌊ratio * n⌋₊)).map fun i => X.rows.get (i.cast hX.symm), X.ncols⟩,
       ⟨(F.drop (n - ⌊ratio * n⌋₊)).map fun i => Y.rows.get (i.cast hY.symm), Y.ncols⟩,
       ⟨(F.take (n - ⌊ratio * n⌋₊)).map fun i => Y.rows.get (i.cast hY.symm), Y.ncols⟩) := by
  obtain ⟨e, h1, h2⟩ := splitSizes_ok hr
  have hl : F.length = n := by simpa using hFp.length_eq
  subst hX
  unfold trainTestSplit
  rw [if_neg (by simp [hY]), e, ← hF]
  have s1 : pySlice (F.map Fin.val) (X.rows.length - ⌊ratio * X.rows.length⌋₊) (X.rows.length - ⌊ratio * X.rows.length⌋₊ + ⌊ratio * X.rows.length⌋₊) =
      (F.drop (X.rows.length - ⌊ratio * X.rows.length⌋₊)).map Fin.val := by
    unfold pySlice
    rw [List.take_of_length_le (by simp [hl]; omega), List.map_drop]
  have g : ∀ (l : List (Fin X.rows.length)) (Z : RowMat ρ) (hZ : Z.rows.length = X.rows.length),
      takeRows Z.rows ((l.map Fin.val).map fun i : ℕ => (i : ℤ)) =
        .ok (l.map fun i => Z.rows.get (i.cast hZ.symm)) := by
    intro l Z hZ
    rw [List.map_map]
    exact takeRows_of _ _ _ _ fun i _ => pyGet_nat Z.rows i (by omega)
  simp only [bind, Except.bind]
  rw [s1, ← List.map_take, g _ X rfl, g _ X rfl, g _ Y hY, g _ Y hY]
  rfl

theorem trainTestSplit_spec {ρ : Type} (perm : ℕ → List ℕ)
    (hperm : ∀ n, (perm n).Perm (List.range n)) (X Y : RowMat ρ) (ratio : ℚ)
    (hY : X.rows.length = Y.rows.length) (hr : Splittable X.rows.length ratio) :
    ∃ xt xd yt yd, trainTestSplit perm X Y ratio = .ok (xt, xd, yt, yd) ∧
      SplitOf X Y xt yt xd yd ratio := by
  obtain ⟨F, hF, hFp⟩ := perm_fin (hperm X.rows.length)
  obtain ⟨-, k1, k2⟩ := splitSizes_ok hr
  have hl : F.length = X.rows.length := by simpa using hFp.length_eq
  refine ⟨_, _, _, _, trainTestSplit_ok perm _ F hF hFp X Y _ rfl hY.symm hr, ?_⟩
  constructor
  · unfold records
    simp only [List.zip_map', ← List.map_append]
    refine ((List.perm_append_comm.trans
      (by rw [List.take_append_drop] : List.Perm _ F)).trans hFp |>.map _).trans ?_
    apply List.Perm.of_eq
    refine List.ext_getElem (by simp [hY]) fun i h1 h2 => ?_
    simp
  all_goals simp [hl] <;> omega

theorem trainTestSplit_error {ρ : Type} (perm : ℕ → List ℕ) (X Y : RowMat ρ) (ratio : ℚ)
    (h : ¬ Splittable X.rows.length ratio) : trainTestSplit perm X Y ratio = .error .valueError := by
  unfold trainTestSplit
  split_ifs
  · rfl
  · rw [splitSizes_error h]; rfl

theorem checkShapes_eq {ρ : Type} (d : DatasetObj ρ) (X Y X' Y' : RowMat ρ) (h1 : d.trnX = some X)
    (h2 : d.trnY = some Y) (h3 : d.tstX = some X') (h4 : d.tstY = some Y') :
    (ShapesAgree X Y X' Y' → d.checkShapes = .ok ()) ∧
      (¬ ShapesAgree X Y X' Y' → d.checkShapes = .error .assertionError) := by
  unfold DatasetObj.checkShapes
  simp only [h1, h2, h3, h4, attr, bind, Except.bind]
  constructor
  · rintro ⟨a, b, c, e⟩
    rw [if_neg (by simpa using a), if_neg (by simpa using b), if_neg (by simpa using c),
      if_neg (by simpa using e)]
  · intro h
    split_ifs with a b c e <;> first | rfl | skip
    push Not at a b c e
    exact absurd ⟨a, b, c, e⟩ h

/-- **C78 (when `set_data` succeeds).** On any `Dataset` object, in any state, `set_data` succeeds exactly
when features and labels have as many rows, training and test data as many columns, and, if the object is
told to split, the ratio lies strictly between 0 and 1 and leaves at least one training row. -/
theorem C78_set_data_succeeds_iff {ρ : Type} (perm : ℕ → List ℕ)
    (hperm : ∀ n, (perm n).Perm (List.range n)) (d : DatasetObj ρ) (X Y X' Y' : RowMat ρ) :
    (d.setData perm X Y X' Y').1 = .ok () ↔
      ShapesAgree X Y X' Y' ∧ (d.splitTrain = true → Splittable X.rows.length d.trainRatio) := by
  obtain ⟨c1, c2⟩ := checkShapes_eq
    { d with trnX := some X, trnY := some Y, tstX := some X', tstY := some Y' } X Y X' Y' rfl rfl rfl rfl
  unfold DatasetObj.setData
  by_cases hs : ShapesAgree X Y X' Y'
  · rw [c1 hs]
    simp only [hs, true_and, DatasetObj.splitTrainIfNeeded]
    by_cases hd : d.splitTrain = true
    · simp only [hd, if_true, attr, forall_const]
      by_cases hr : Splittable X.rows.length d.trainRatio
      · obtain ⟨xt, xd, yt, yd, e, -⟩ := trainTestSplit_spec perm hperm X Y _ hs.1 hr
        rw [e]
        simp [hr]
      · rw [trainTestSplit_error perm X Y _ hr]
        simp [hr]
    · simp [hd]
  · rw [c2 hs]
    simp [hs]

/-- **C78 (splitting partitions the records).** After a successful `set_data` on an object that splits,
the training and development data are the two parts of a split of the given training data, and the test
data are those given. -/
theorem C78_split_is_partition {ρ : Type} (perm : ℕ → List ℕ)
    (hperm : ∀ n, (perm n).Perm (List.range n)) (d : DatasetObj ρ) (X Y X' Y' : RowMat ρ)
    (hd : d.splitTrain = true) (h : (d.setData perm X Y X' Y').1 = .ok ()) :
    ∃ xt yt xd yd : RowMat ρ,
      (d.setData perm X Y X' Y').2 =
        { d with trnX := some xt, trnY := some yt, devX := some xd, devY := some yd,
                 tstX := some X', tstY := some Y' } ∧
      SplitOf X Y xt yt xd yd d.trainRatio := by
  obtain ⟨hs, hr⟩ := (C78_set_data_succeeds_iff perm hperm d X Y X' Y').mp h
  have c1 := (checkShapes_eq
    { d with trnX := some X, trnY := some Y, tstX := some X', tstY := some Y' } X Y X' Y' rfl rfl rfl
      rfl).1 hs
  obtain ⟨xt, xd, yt, yd, e, sp⟩ := trainTestSplit_spec perm hperm X Y _ hs.1 (hr hd)
  refine ⟨xt, yt, xd, yd, ?_, sp⟩
  unfold DatasetObj.setData
  rw [c1]
  simp only [DatasetObj.splitTrainIfNeeded, hd, if_true, attr, e]

/-- **C78 (no split).** After a successful `set_data` on an object that does not split, the data are those
given and no development set is left over from earlier use. -/
theorem C78_no_split {ρ : Type} (perm : ℕ → List ℕ) (d : DatasetObj ρ) (X Y X' Y' : RowMat ρ)
    (hd : d.splitTrain = false) (h : (d.setData perm X Y X' Y').1 = .ok ()) :
    (d.setData perm X Y X' Y').2 =
      { d with trnX := some X, trnY := some Y, devX := none, devY := none,
               tstX := some X', tstY := some Y' } ∧
      (d.setData perm X Y X' Y').2.ndev = .error .attributeError := by
  obtain ⟨c1, c2⟩ := checkShapes_eq
    { d with trnX := some X, trnY := some Y, tstX := some X', tstY := some Y' } X Y X' Y' rfl rfl rfl rfl
  unfold DatasetObj.setData at h ⊢
  by_cases hs : ShapesAgree X Y X' Y'
  · rw [c1 hs]
    simp [DatasetObj.splitTrainIfNeeded, hd, DatasetObj.ndev]
  · rw [c2 hs] at h; cases h

/-- **C78 (a failing `set_data` leaves a mixture).** When `set_data` raises, the new training and test
data are nevertheless in place, unsplit, together with the development set of the previous data; the
exception is `AssertionError` for inconsistent shapes and `ValueError` for an unusable ratio. -/
theorem C78_failure_state {ρ : Type} (perm : ℕ → List ℕ)
    (hperm : ∀ n, (perm n).Perm (List.range n)) (d : DatasetObj ρ) (X Y X' Y' : RowMat ρ) (e : PyErr)
    (h : (d.setData perm X Y X' Y').1 = .error e) :
    (d.setData perm X Y X' Y').2 =
      { d with trnX := some X, trnY := some Y, tstX := some X', tstY := some Y' } ∧
      (e = .assertionError ∧ ¬ ShapesAgree X Y X' Y' ∨
        e = .valueError ∧ ShapesAgree X Y X' Y' ∧ d.splitTrain = true ∧
          ¬ Splittable X.rows.length d.trainRatio) := by
  obtain ⟨c1, c2⟩ := checkShapes_eq
    { d with trnX := some X, trnY := some Y, tstX := some X', tstY := some Y' } X Y X' Y' rfl rfl rfl rfl
  unfold DatasetObj.setData at h ⊢
  by_cases hs : ShapesAgree X Y X' Y'
  · rw [c1 hs] at h ⊢
    simp only [DatasetObj.splitTrainIfNeeded] at h ⊢
    by_cases hd : d.splitTrain = true
    · simp only [hd, if_true, attr] at h ⊢
      by_cases hr : Splittable X.rows.length d.trainRatio
      · obtain ⟨xt, xd, yt, yd, e', -⟩ := trainTestSplit_spec perm hperm X Y _ hs.1 hr
        rw [e'] at h; cases h
      · rw [trainTestSplit_error perm X Y _ hr] at h ⊢
        simp only at h ⊢
        cases h
        exact ⟨trivial, Or.inr ⟨rfl, hs, trivial, hr⟩⟩
    · simp [hd] at h
  · rw [c2 hs] at h ⊢
    simp only at h ⊢
    cases h
    exact ⟨trivial, Or.inl ⟨rfl, hs⟩⟩

/-- **C78 (splitting twice).** Calling `split_train_if_needed` again on an object that already holds a
split divides only the current training part: the rows of the previous development set are dropped. -/
theorem C78_resplit {ρ : Type} (perm : ℕ → List ℕ)
    (hperm : ∀ n, (perm n).Perm (List.range n)) (d : DatasetObj ρ) (X Y : RowMat ρ)
    (hd : d.splitTrain = true) (hX : d.trnX = some X) (hY : d.trnY = some Y)
    (h : X.rows.length = Y.rows.length) (hr : Splittable X.rows.length d.trainRatio) :
    ∃ xt yt xd yd : RowMat ρ,
      d.splitTrainIfNeeded perm = (.ok (),
        { d with trnX := some xt, trnY := some yt, devX := some xd, devY := some yd }) ∧
      SplitOf X Y xt yt xd yd d.trainRatio := by
  obtain ⟨xt, xd, yt, yd, e, sp⟩ := trainTestSplit_spec perm hperm X Y _ h hr
  refine ⟨xt, yt, xd, yd, ?_, sp⟩
  simp only [DatasetObj.splitTrainIfNeeded, hd, if_true, hX, hY, attr, e]

/-- **C78 (same rows every time).** Which rows go where depends only on the number of rows and the ratio:
two data sets with equally many rows are split at the same positions. -/
theorem C78_split_positions {ρ : Type} (perm : ℕ → List ℕ)
    (hperm : ∀ n, (perm n).Perm (List.range n)) (n : ℕ) (ratio : ℚ) (hr : Splittable n ratio) :
    ∃ I J : List (Fin n), (I ++ J).Perm (List.finRange n) ∧
      ∀ (X Y : RowMat ρ) (hX : X.rows.length = n) (hY : Y.rows.length = n),
        trainTestSplit perm X Y ratio = .ok
          (⟨I.map fun i => X.rows.get (i.cast hX.symm), X.ncols⟩,
           ⟨J.map fun i => X.rows.get (i.cast hX.symm), X.ncols⟩,
           ⟨I.map fun i => Y.rows.get (i.cast hY.symm), Y.ncols⟩,
           ⟨J.map fun i => Y.rows.get (i.cast hY.symm), Y.ncols⟩) := by
  obtain ⟨F, hF, hFp⟩ := perm_fin (hperm n)
  refine ⟨F.drop (n - ⌊ratio * n⌋₊), F.take (n - ⌊ratio * n⌋₊), ?_, fun X Y hX hY =>
    trainTestSplit_ok perm n F hF hFp X Y ratio hX hY hr⟩
  exact (List.perm_append_comm.trans (by rw [List.take_append_drop] : List.Perm _ F)).trans hFp

/-- **C78 (reported shape).** After a successful `set_data`, `shape` lists the numbers of training rows,
test rows, features and labels, and, when splitting, of development rows; training and development rows
add up to the rows given. -/
theorem C78_shape {ρ : Type} (perm : ℕ → List ℕ)
    (hperm : ∀ n, (perm n).Perm (List.range n)) (d : DatasetObj ρ) (X Y X' Y' : RowMat ρ)
    (h : (d.setData perm X Y X' Y').1 = .ok ()) :
    (d.splitTrain = false →
      (d.setData perm X Y X' Y').2.shape = .ok [("ntrn", X.rows.length), ("ntst", X'.rows.length),
        ("nfeat", X.ncols), ("ncls", Y.ncols)]) ∧
    (d.splitTrain = true →
      ∃ a b, a + b = X.rows.length ∧ a = ⌊d.trainRatio * X.rows.length⌋₊ ∧
        (d.setData perm X Y X' Y').2.shape = .ok [("ntrn", a), ("ntst", X'.rows.length),
          ("nfeat", X.ncols), ("ncls", Y.ncols), ("ndev", b)]) := by
  constructor
  · intro hd
    rw [(C78_no_split perm d X Y X' Y' hd h).1]
    simp [DatasetObj.shape, attr, hd, bind, Except.bind, pure, Except.pure]
  · intro hd
    obtain ⟨xt, yt, xd, yd, e, sp⟩ := C78_split_is_partition perm hperm d X Y X' Y' hd h
    obtain ⟨hs, hr⟩ := (C78_set_data_succeeds_iff perm hperm d X Y X' Y').mp h
    obtain ⟨-, -, k2⟩ := splitSizes_ok (hr hd)
    refine ⟨xt.rows.length, xd.rows.length, ?_, sp.trainRows, ?_⟩
    · rw [sp.trainRows, sp.devRows]; omega
    · rw [e]
      simp [DatasetObj.shape, DatasetObj.ndev, attr, hd, bind, Except.bind, pure, Except.pure,
        sp.columns.1, sp.columns.2.2.1]

/-- **C78 (before any data).** A new `Dataset` has no data: `shape`, `ndev`, the shape check and, when a
split is asked for, the split raise `AttributeError` and leave the object as it is; without a split
`split_train_if_needed` does nothing. -/
theorem C78_before_data {ρ : Type} (perm : ℕ → List ℕ) (split : Bool) (ratio : ℚ) :
    (DatasetObj.new split ratio : DatasetObj ρ).shape = .error .attributeError ∧
    (DatasetObj.new split ratio : DatasetObj ρ).ndev = .error .attributeError ∧
    (DatasetObj.new split ratio : DatasetObj ρ).checkShapes = .error .attributeError ∧
    (DatasetObj.new split ratio : DatasetObj ρ).splitTrainIfNeeded perm =
      (if split then .error .attributeError else .ok (), DatasetObj.new split ratio) := by
  refine ⟨rfl, ?_, rfl, ?_⟩ <;> cases split <;> rfl

/-- Non-vacuity: ten records, ratio 7/10, any permutation of the right kind. -/
example : ShapesAgree (ρ := ℕ) ⟨List.range 10, 3⟩ ⟨List.range 10, 2⟩ ⟨[5, 6], 3⟩ ⟨[7, 8], 2⟩ ∧
    Splittable 10 (7 / 10) ∧ ∀ n, (List.range n).Perm (List.range n) := by
  refine ⟨⟨by simp, by simp, rfl, rfl⟩, by unfold Splittable; norm_num, fun _ => List.Perm.refl _⟩

end Verif
