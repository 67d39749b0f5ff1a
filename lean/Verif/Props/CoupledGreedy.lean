/-
`CFTP_Greedy`: a pair of records drawn by coupling, then a greedy choice among the attributes that separate them.
-/
import Verif.Props.PruneGreedy
import Verif.Props.Cftp

namespace Verif

namespace GreedyHead

theorem attrs_eq {X : Cmp} (hX : X.Binary) (i : ℕ) : attrs X i = rowSet X i := by
  ext a
  simp only [attrs, Finset.mem_filter, Finset.mem_range, mem_rowSet]
  refine ⟨fun h => h.2, fun h => ⟨?_, h⟩⟩
  obtain ⟨k, -, -, hk⟩ := h
  exact hX.idx_lt a (List.mem_of_getElem? hk)

theorem rows_getD {X : Cmp} (hX : X.Binary) {i : ℕ} (h : i < X.nMajor) :
    (convertMatrixToSetsV2 X).getD i ∅ = attrs X i := by
  rw [rowsV2_getD X h, attrs_eq hX]

theorem frequency_eq {X : Cmp} (hX : X.Binary) (a : ℕ) :
    frequency (convertMatrixToSetsV2 X) a = (having X {a}).card := by
  unfold frequency
  rw [sets_v2, List.countP_map, List.countP_eq_length_filter]
  rw [← List.toFinset_card_of_nodup (List.nodup_range.filter _)]
  congr 1
  ext i
  simp only [List.mem_toFinset, List.mem_filter, List.mem_range, Function.comp, decide_eq_true_eq, mem_rowSet, having,
    Finset.mem_filter, Finset.mem_range, Finset.mem_singleton, forall_eq]

theorem coupled_fits {X : Cmp} (hX : X.Binary) {y : List ℤ} (hy : y.toFinset = {0, 1}) (gamma eps : ℚ)
    {U : Finset ℕ} (hU : ∀ a ∈ U, a < X.nMinor ∧ having X {a} ≠ ∅) :
    Fits (buildIndex X)
      (coupledNext (convertMatrixToSetsV2 X) (buildIndex X) (posIndices y).toFinset (negIndices y).toFinset gamma)
      (eps * (posIndices y).toFinset.card) (relative X y gamma) (Enough X y eps) U (fun l => having X l.toFinset) := by
  refine ⟨?_, ?_, ?_⟩
  · intro l a _ _ ha
    have h0 : ((having X {a}).card : ℚ) ≠ 0 := by
      rw [Nat.cast_ne_zero, Finset.card_ne_zero]
      exact Finset.nonempty_iff_ne_empty.2 (hU a ha).2
    simp only [coupledNext, index_get hX (hU a ha).1, bind, Except.bind, pos_eq hy, neg_eq y, frequency_eq hX, pyDiv,
      if_neg h0]
    rw [relative, disc, having_insert, sub_div]
    rfl
  · intro a ha
    refine ⟨having X {a}, index_get hX (hU a ha).1, rfl, fun l _ _ => ?_⟩
    rw [toFinset_snoc, having_insert]
  · intro l
    rw [pos_eq hy]; rfl

/-- The choice from the attributes that separate two records. -/
theorem coupled_choose {X : Cmp} (hX : X.Binary) {y : List ℤ} (hy : y.toFinset = {0, 1}) (s : Coupled)
    {order : ℕ → Finset ℕ → List ℕ} (ho : Traverses order) {p n : ℕ} (hp : p < X.nMajor) (hn : n < X.nMajor)
    (hne : attrs X p \ attrs X n ≠ ∅) :
    ∃ A, s.choose order (convertMatrixToSetsV2 X) (buildIndex X) ((posIndices y).toFinset, (negIndices y).toFinset)
        (p, n) = .ok A ∧
      GreedyBest (relative X y s.gamma) (Enough X y s.eps) (attrs X p \ attrs X n) A := by
  have hU : ∀ a ∈ attrs X p \ attrs X n, a < X.nMinor ∧ having X {a} ≠ ∅ := by
    intro a ha
    have ha := (Finset.mem_sdiff.1 ha).1
    simp only [attrs, Finset.mem_filter, Finset.mem_range] at ha
    refine ⟨ha.1, Finset.nonempty_iff_ne_empty.1 ⟨p, ?_⟩⟩
    simp only [having, Finset.mem_filter, Finset.mem_range, Finset.mem_singleton, forall_eq]
    exact ⟨hp, ha.2⟩
  unfold Coupled.choose
  rw [rows_getD hX hp, rows_getD hX hn]
  refine greedyChoice_spec (U₀ := attrs X p \ attrs X n) ho (coupled_fits hX hy s.gamma s.eps hU) ?_ hne
  intro a ha
  have h0 : ((having X {a}).card : ℚ) ≠ 0 := by
    rw [Nat.cast_ne_zero, Finset.card_ne_zero]
    exact Finset.nonempty_iff_ne_empty.2 (hU a ha).2
  simp only [coupledFirst, index_get hX (hU a ha).1, bind, Except.bind, pos_eq hy, neg_eq y, frequency_eq hX, pyDiv,
    if_neg h0]
  rw [relative, disc, having_insert, sub_div, List.toFinset_nil]
  have : having X ∅ = Finset.range X.nMajor := by ext; simp [having]
  rw [this, Finset.inter_eq_right.2 (having_sub X {a})]
  rfl

/-! ### Fitting -/

/-- The weight of a record. -/
noncomputable def coupledWeightOf (X : Cmp) (y : List ℤ) (i : ℕ) : ℝ :=
  if i ∈ posIndices y then ((attrs X i).card : ℝ) else 1

/-- The coupling that `fit` constructs. -/
noncomputable def coupling (X : Cmp) (y : List ℤ) : Cftp :=
  { posList := posIndices y, negList := negIndices y,
    wPos := fun i => ((List.range X.nMajor).map (coupledWeightOf X y)).getD i 0,
    wNeg := fun i => ((List.range X.nMajor).map (coupledWeightOf X y)).getD i 0,
    W := fun p n => (((convertMatrixToSetsV2 X).getD p ∅ \ (convertMatrixToSetsV2 X).getD n ∅).card : ℝ),
    maxIters := 1024 }

theorem coupledWeightOf_getD {X : Cmp} {y : List ℤ} {i : ℕ} (h : i < X.nMajor) :
    ((List.range X.nMajor).map (coupledWeightOf X y)).getD i 0 = coupledWeightOf X y i := by
  rw [getD_lt (by simpa using h)]
  simp

theorem coupledCftp_eq {X : Cmp} (hX : X.Binary) (y : List ℤ) :
    (y.length ≤ X.nMajor → coupledCftp (convertMatrixToSetsV2 X) X.nMajor y = .ok (coupling X y)) ∧
      (y.toFinset = {0, 1} → X.nMajor < y.length →
        coupledCftp (convertMatrixToSetsV2 X) X.nMajor y = .error .keyError) := by
  have hm : (List.range X.nMajor).mapM (coupledWeight (convertMatrixToSetsV2 X) (posIndices y)) =
      .ok ((List.range X.nMajor).map (coupledWeightOf X y)) := by
    refine mapM_ok_of fun i hi => ?_
    have hi := List.mem_range.1 hi
    unfold coupledWeight coupledWeightOf
    split
    · rw [pyGet_getD (by rw [rowsV2_length]; exact hi) ∅, rows_getD hX hi]
      rfl
    · rfl
  unfold coupledCftp checkKeys
  rw [hm]
  simp only [bind, Except.bind]
  constructor
  · intro hl
    rw [if_pos]
    · rfl
    · intro i hi
      rcases List.mem_append.1 hi with h | h
      · exact lt_of_lt_of_le (mem_posIndices.1 h).1 hl
      · exact lt_of_lt_of_le (mem_negIndices.1 h).1 hl
  · intro hy hl
    rw [if_neg]
    intro h
    have := labels_le_of_keys hy (fun i hi => h i (List.mem_append_left _ hi)) fun i hi => h i (List.mem_append_right _ hi)
    omega

/-- The objects reachable by fitting on the matrix `X`, with any labels. -/
inductive CoupledReach (gamma eps : ℚ) (X : Cmp) : Coupled → Prop
  | init : CoupledReach gamma eps X (Coupled.init gamma eps)
  | fit (s : Coupled) (y : List ℤ) : CoupledReach gamma eps X s → CoupledReach gamma eps X (s.fit X y).2

theorem CoupledReach.inv {gamma eps : ℚ} {X : Cmp} {s : Coupled} (h : CoupledReach gamma eps X s) :
    s.gamma = gamma ∧ s.eps = eps ∧ s.rows.getD (convertMatrixToSetsV2 X) = convertMatrixToSetsV2 X ∧
      s.inv.getD (buildIndex X) = buildIndex X := by
  induction h with
  | init => exact ⟨rfl, rfl, rfl, rfl⟩
  | fit s y _ ih =>
    unfold Coupled.fit
    cases checkLabels y with
    | error e => exact ⟨ih.1, ih.2.1, by simpa using ih.2.2.1, by simpa using ih.2.2.2⟩
    | ok u =>
      cases u
      simp only
      split <;> exact ⟨ih.1, ih.2.1, by simpa using ih.2.2.1, by simpa using ih.2.2.2⟩

/-- The object after a successful `fit`. -/
noncomputable def fittedCoupled (gamma eps : ℚ) (X : Cmp) (y : List ℤ) : Coupled :=
  { gamma := gamma, eps := eps, rows := some (convertMatrixToSetsV2 X), inv := some (buildIndex X),
    labels := some ((posIndices y).toFinset, (negIndices y).toFinset), cftp := some (coupling X y), lists := Cftp.reset }

/-- **C110.** `fit` on the same matrix succeeds exactly when the labels are 0 and 1, both occur and there are not more
of them than records; the object then is the same whatever it was fitted to before. -/
theorem C110_fit (gamma eps : ℚ) (X : Cmp) (hX : X.Binary) (s : Coupled) (hs : CoupledReach gamma eps X s)
    (y : List ℤ) :
    (y.toFinset = {0, 1} → y.length ≤ X.nMajor →
      s.fit X y = (.ok (), ((Coupled.init gamma eps).fit X y).2)) ∧
    (y.toFinset ≠ {0, 1} → (s.fit X y).1 = .error .assertionError) ∧
    (y.toFinset = {0, 1} → X.nMajor < y.length → (s.fit X y).1 = .error .keyError) := by
  obtain ⟨h1, h2, h3, h4⟩ := hs.inv
  have key : ∀ s : Coupled, s.rows.getD (convertMatrixToSetsV2 X) = convertMatrixToSetsV2 X → s.gamma = gamma →
      s.eps = eps → s.inv.getD (buildIndex X) = buildIndex X → y.toFinset = {0, 1} → y.length ≤ X.nMajor →
      s.fit X y = (.ok (), fittedCoupled gamma eps X y) := by
    intro s h3 h1 h2 h4 hy hl
    have hc : checkLabels y = .ok () := if_pos hy
    unfold Coupled.fit
    simp only [hc, h3, h4, (coupledCftp_eq hX y).1 hl, h1, h2]
    rfl
  refine ⟨fun hy hl => ?_, fun hy => ?_, fun hy hl => ?_⟩
  · rw [key s h3 h1 h2 h4 hy hl, key (Coupled.init gamma eps) rfl rfl rfl rfl hy hl]
  · have hc : checkLabels y = .error .assertionError := if_neg hy
    unfold Coupled.fit
    simp only [hc]
  · have hc : checkLabels y = .ok () := if_pos hy
    unfold Coupled.fit
    simp only [hc, h3, (coupledCftp_eq hX y).2 hy hl]

theorem fitted_of {gamma eps : ℚ} {X : Cmp} (hX : X.Binary) {s s' : Coupled} (hs : CoupledReach gamma eps X s)
    {y : List ℤ} (hf : s.fit X y = (.ok (), s')) :
    y.toFinset = {0, 1} ∧ y.length ≤ X.nMajor ∧ s' = fittedCoupled gamma eps X y := by
  obtain ⟨h1, h2, h3⟩ := C110_fit gamma eps X hX s hs y
  have hy : y.toFinset = {0, 1} := by
    by_contra h
    have := h2 h
    rw [hf] at this
    cases this
  have hl : y.length ≤ X.nMajor := by
    by_contra h
    have := h3 hy (not_le.1 h)
    rw [hf] at this
    cases this
  refine ⟨hy, hl, ?_⟩
  obtain ⟨g1, g2, g3, g4⟩ := hs.inv
  have hc : checkLabels y = .ok () := if_pos hy
  unfold Coupled.fit at hf
  simp only [hc, g3, g4, (coupledCftp_eq hX y).1 hl, g1, g2] at hf
  exact (Prod.ext_iff.1 hf).2.symm

theorem mem_labelled {y : List ℤ} {v : ℤ} {i : ℕ} : i ∈ labelled y v ↔ y[i]? = some v := by
  simp only [labelled, Finset.mem_filter, Finset.mem_range]
  exact ⟨fun h => h.2, fun h => ⟨(List.getElem?_eq_some_iff.1 h).1, h⟩⟩

theorem mem_pos_iff {y : List ℤ} (hy : y.toFinset = {0, 1}) {i : ℕ} : i ∈ posIndices y ↔ y[i]? = some 1 := by
  rw [← mem_labelled, ← pos_eq hy, List.mem_toFinset]

theorem mem_neg_iff {y : List ℤ} {i : ℕ} : i ∈ negIndices y ↔ y[i]? = some 0 := by
  rw [← mem_labelled, ← neg_eq y, List.mem_toFinset]

theorem coupling_W {X : Cmp} (hX : X.Binary) {y : List ℤ} {p n : ℕ} (hp : p < X.nMajor) (hn : n < X.nMajor) :
    (coupling X y).W p n = ((attrs X p \ attrs X n).card : ℝ) := by
  unfold coupling
  simp only
  rw [rows_getD hX hp, rows_getD hX hn]

theorem coupling_dominated {X : Cmp} (hX : X.Binary) {y : List ℤ} (hl : y.length ≤ X.nMajor) :
    (coupling X y).Dominated := by
  have hlp : ∀ p ∈ posIndices y, p < X.nMajor := fun p h => lt_of_lt_of_le (mem_posIndices.1 h).1 hl
  have hln : ∀ p ∈ negIndices y, p < X.nMajor := fun p h => lt_of_lt_of_le (mem_negIndices.1 h).1 hl
  have hwp : ∀ p ∈ posIndices y, (coupling X y).wPos p = ((attrs X p).card : ℝ) := by
    intro p hp
    unfold coupling
    simp only
    rw [coupledWeightOf_getD (hlp p hp), coupledWeightOf, if_pos hp]
  have hwn : ∀ n ∈ negIndices y, (coupling X y).wNeg n = 1 := by
    intro n hn
    unfold coupling
    simp only
    rw [coupledWeightOf_getD (hln n hn), coupledWeightOf, if_neg]
    intro hp
    have h1 := (mem_posIndices.1 hp).2
    have h2 := (mem_negIndices.1 hn).2
    omega
  refine ⟨posIndices_nodup y, negIndices_nodup y, ?_, ?_, ?_, ?_⟩
  · intro p hp; rw [hwp p hp]; exact Nat.cast_nonneg _
  · intro n hn; rw [hwn n hn]; exact zero_le_one
  · intro p hp n hn; rw [coupling_W hX (hlp p hp) (hln n hn)]; exact Nat.cast_nonneg _
  · intro p hp n hn
    rw [coupling_W hX (hlp p hp) (hln n hn), hwp p hp, hwn n hn, mul_one]
    exact Nat.cast_le.2 (Finset.card_le_card Finset.sdiff_subset)

theorem sampleOnce_fitted (gamma eps : ℚ) (X : Cmp) (y : List ℤ) (order : ℕ → Finset ℕ → List ℕ) :
    (fittedCoupled gamma eps X y).sampleOnce order =
      ((coupling X y).sample Cftp.reset).bind fun r =>
        match r.1 with
        | none => pure (none, { fittedCoupled gamma eps X y with lists := r.2 })
        | some pr => (RandR.lift ((fittedCoupled gamma eps X y).choose order (convertMatrixToSetsV2 X) (buildIndex X)
            ((posIndices y).toFinset, (negIndices y).toFinset) pr)).bind fun A =>
              pure (some A, { fittedCoupled gamma eps X y with lists := r.2 }) := rfl

/-- **C110.** Everything `sample_once` can do after a successful `fit`: return `None`, or, for some positive record `p`
and negative record `n`, the beginning of a greedy sequence of attributes that `p` has and `n` does not have. It never
raises and leaves the object as it is. -/
theorem C110_outcomes (gamma eps : ℚ) (X : Cmp) (hX : X.Binary) (s s' : Coupled) (hs : CoupledReach gamma eps X s)
    (y : List ℤ) (hf : s.fit X y = (.ok (), s')) (order : ℕ → Finset ℕ → List ℕ) (ho : Traverses order)
    (x : Py (Option (Finset ℕ) × Coupled)) (h : (s'.sampleOnce order).Outcome x) :
    x = .ok (none, s') ∨ ∃ p n A, y[p]? = some 1 ∧ y[n]? = some 0 ∧ x = .ok (some A, s') ∧
      GreedyBest (relative X y gamma) (Enough X y eps) (attrs X p \ attrs X n) A := by
  obtain ⟨hy, hl, rfl⟩ := fitted_of hX hs hf
  rw [sampleOnce_fitted, RandR.outcome_bind] at h
  have hdom := coupling_dominated hX hl
  rcases h with ⟨r, hr, h⟩ | ⟨e, hr, rfl⟩
  · rcases Cftp.C56_sample_outcomes _ hdom _ hr with e | ⟨p, n, e, hp, hn, hW⟩
    · cases e
      exact Or.inl h
    · cases e
      right
      have hp' : p < X.nMajor := lt_of_lt_of_le (mem_posIndices.1 hp).1 hl
      have hn' : n < X.nMajor := lt_of_lt_of_le (mem_negIndices.1 hn).1 hl
      rw [coupling_W hX hp' hn'] at hW
      have hne : attrs X p \ attrs X n ≠ ∅ := by
        rw [Nat.cast_pos, Finset.card_pos] at hW
        exact Finset.nonempty_iff_ne_empty.1 hW
      obtain ⟨A, hA, hbest⟩ := coupled_choose hX hy (fittedCoupled gamma eps X y) ho hp' hn' hne
      refine ⟨p, n, A, (mem_pos_iff hy).1 hp, mem_neg_iff.1 hn, ?_, hbest⟩
      simp only [hA] at h
      exact h
  · rcases Cftp.C56_sample_outcomes _ hdom _ hr with e' | ⟨p, n, e', -⟩ <;> cases e'

/-- **C110.** A head that is returned is not empty; the positive record has it and the negative record has none of its
attributes; and if it has more than one attribute, at least the fraction `eps` of the number of positive records has
them all. -/
theorem C110_separates (gamma eps : ℚ) (X : Cmp) (y : List ℤ) (p n : ℕ) (A : Finset ℕ)
    (h : GreedyBest (relative X y gamma) (Enough X y eps) (attrs X p \ attrs X n) A) :
    A ≠ ∅ ∧ (∀ a ∈ A, X.Stored p a ∧ ¬ X.Stored n a) ∧
      (1 < A.card → eps * (labelled y 1).card ≤ (having X A).card) := by
  obtain ⟨l, m, hm, hl, rfl, -, -⟩ := h
  have hins : insert l[m] (l.take m).toFinset = (l.take (m + 1)).toFinset := by
    rw [List.take_succ_eq_append_getElem hm, toFinset_snoc]
  refine ⟨?_, ?_, ?_⟩
  · intro h
    rw [← hins] at h
    simp at h
  · intro a ha
    have := hl.sub a (List.mem_of_mem_take (List.mem_toFinset.1 ha))
    simp only [attrs, Finset.mem_sdiff, Finset.mem_filter, Finset.mem_range, not_and] at this
    exact ⟨this.1.2, this.2 this.1.1⟩
  · intro hc
    rcases Nat.eq_zero_or_pos m with rfl | hpos
    · rw [← hins] at hc
      simp at hc
    · exact hl.big m hm hpos

/-- The number of attributes that separate the positive from the negative records, over all pairs. -/
noncomputable def separationTotal (X : Cmp) (y : List ℤ) : ℝ :=
  ∑ p ∈ labelled y 1, ∑ n ∈ labelled y 0, ((attrs X p \ attrs X n).card : ℝ)

/-- The probability that the coupling gives a pair. -/
noncomputable def coupledSuccess (X : Cmp) (y : List ℤ) : ℝ :=
  1 - (1 - separationTotal X y / ((∑ p ∈ labelled y 1, ((attrs X p).card : ℝ)) * (labelled y 0).card)) ^ 1024

theorem coupling_expect {X : Cmp} (hX : X.Binary) {y : List ℤ} (hy : y.toFinset = {0, 1}) (hl : y.length ≤ X.nMajor)
    (f : Py (Option (ℕ × ℕ) × CftpState) → ℝ) :
    ((coupling X y).sample Cftp.reset).expect f =
      coupledSuccess X y * ((∑ p ∈ labelled y 1, ∑ n ∈ labelled y 0, ((attrs X p \ attrs X n).card : ℝ) *
        f (.ok (some (p, n), Cftp.reset))) / separationTotal X y) +
      (1 - coupledSuccess X y) * f (.ok (none, Cftp.reset)) := by
  have hdom := coupling_dominated hX hl (y := y)
  have hlp : ∀ p ∈ labelled y 1, p < X.nMajor := fun p h =>
    lt_of_lt_of_le (List.getElem?_eq_some_iff.1 (mem_labelled.1 h)).1 hl
  have hln : ∀ p ∈ labelled y 0, p < X.nMajor := fun p h =>
    lt_of_lt_of_le (List.getElem?_eq_some_iff.1 (mem_labelled.1 h)).1 hl
  have hpl : (coupling X y).posList.toFinset = labelled y 1 := pos_eq hy
  have hnl : (coupling X y).negList.toFinset = labelled y 0 := neg_eq y
  have hWtot : (coupling X y).totalW = separationTotal X y := by
    unfold Cftp.totalW separationTotal
    rw [hpl, hnl]
    exact Finset.sum_congr rfl fun p hp => Finset.sum_congr rfl fun n hn => coupling_W hX (hlp p hp) (hln n hn)
  have hBar : (coupling X y).totalBar = (∑ p ∈ labelled y 1, ((attrs X p).card : ℝ)) * (labelled y 0).card := by
    unfold Cftp.totalBar Cftp.posWeights Cftp.negWeights
    rw [← List.sum_toFinset _ hdom.posNodup, ← List.sum_toFinset _ hdom.negNodup, hpl, hnl]
    congr 1
    · refine Finset.sum_congr rfl fun p hp => ?_
      unfold coupling
      simp only
      rw [coupledWeightOf_getD (hlp p hp), coupledWeightOf, if_pos ((mem_pos_iff hy).2 (mem_labelled.1 hp))]
    · rw [Finset.sum_congr rfl (g := fun _ => (1 : ℝ))]
      · simp
      · intro n hn
        unfold coupling
        simp only
        rw [coupledWeightOf_getD (hln n hn), coupledWeightOf, if_neg]
        intro hc
        have h1 := (mem_pos_iff hy).1 hc
        rw [mem_labelled.1 hn] at h1
        simp at h1
  have hH : (coupling X y).horizon = 1024 := by
    unfold Cftp.horizon coupling
    simp only
    rw [if_neg (by decide)]
    have : Nat.log 2 1024 = 10 := by
      rw [show (1024 : ℕ) = 2 ^ 10 from by norm_num]
      exact Nat.log_pow (by norm_num) _
    rw [this]
    norm_num
  rw [Cftp.expect_sample' hdom, hWtot, hBar, hH, hpl, hnl, coupledSuccess, sub_sub_cancel]
  congr 2
  congr 1
  refine Finset.sum_congr rfl fun p hp => Finset.sum_congr rfl fun n hn => ?_
  rw [coupling_W hX (hlp p hp) (hln n hn)]

/-- The law of `sample_once` as an expectation. -/
theorem coupled_expect {gamma eps : ℚ} {X : Cmp} (hX : X.Binary) {y : List ℤ} (hy : y.toFinset = {0, 1})
    (hl : y.length ≤ X.nMajor) {order : ℕ → Finset ℕ → List ℕ} (ho : Traverses order) :
    ∃ head : ℕ → ℕ → Finset ℕ,
      (∀ p n, y[p]? = some 1 → y[n]? = some 0 → attrs X p \ attrs X n ≠ ∅ →
        GreedyBest (relative X y gamma) (Enough X y eps) (attrs X p \ attrs X n) (head p n)) ∧
      ∀ f : Py (Option (Finset ℕ) × Coupled) → ℝ,
        ((fittedCoupled gamma eps X y).sampleOnce order).expect f =
          coupledSuccess X y * ((∑ p ∈ labelled y 1, ∑ n ∈ labelled y 0, ((attrs X p \ attrs X n).card : ℝ) *
            f (.ok (some (head p n), fittedCoupled gamma eps X y))) / separationTotal X y) +
          (1 - coupledSuccess X y) * f (.ok (none, fittedCoupled gamma eps X y)) := by
  classical
  have hlp : ∀ p ∈ labelled y 1, p < X.nMajor := fun p h =>
    lt_of_lt_of_le (List.getElem?_eq_some_iff.1 (mem_labelled.1 h)).1 hl
  have hln : ∀ p ∈ labelled y 0, p < X.nMajor := fun p h =>
    lt_of_lt_of_le (List.getElem?_eq_some_iff.1 (mem_labelled.1 h)).1 hl
  let choice := fun p n => (fittedCoupled gamma eps X y).choose order (convertMatrixToSetsV2 X) (buildIndex X)
    ((posIndices y).toFinset, (negIndices y).toFinset) (p, n)
  let head : ℕ → ℕ → Finset ℕ := fun p n => match choice p n with
    | .ok A => A
    | .error _ => ∅
  have hhead : ∀ p n, p < X.nMajor → n < X.nMajor → attrs X p \ attrs X n ≠ ∅ →
      choice p n = .ok (head p n) ∧
        GreedyBest (relative X y gamma) (Enough X y eps) (attrs X p \ attrs X n) (head p n) := by
    intro p n hp hn hne
    obtain ⟨A, hA, hbest⟩ := coupled_choose hX hy (fittedCoupled gamma eps X y) ho hp hn hne
    have : head p n = A := by simp only [head, choice, hA]
    rw [this]
    exact ⟨hA, hbest⟩
  refine ⟨head, fun p n hp hn hne => (hhead p n (hlp p (mem_labelled.2 hp)) (hln n (mem_labelled.2 hn)) hne).2,
    fun f => ?_⟩
  rw [sampleOnce_fitted, RandR.expect_bind, coupling_expect hX hy hl]
  congr 2
  congr 1
  refine Finset.sum_congr rfl fun p hp => Finset.sum_congr rfl fun n hn => ?_
  by_cases hne : attrs X p \ attrs X n = ∅
  · rw [hne]; simp
  · congr 1
    have hch := (hhead p n (hlp p hp) (hln n hn) hne).1
    simp only [choice] at hch
    simp only [RandR.after, hch]
    rfl

/-- **C110.** The law of `sample_once`: with probability `success` it returns the greedy head of a pair drawn
proportionally to the number of attributes that the positive record has and the negative record does not have;
otherwise `None`. -/
theorem C110_law (gamma eps : ℚ) (X : Cmp) (hX : X.Binary) (s s' : Coupled) (hs : CoupledReach gamma eps X s)
    (y : List ℤ) (hf : s.fit X y = (.ok (), s')) (order : ℕ → Finset ℕ → List ℕ) (ho : Traverses order) :
    ∃ (head : ℕ → ℕ → Finset ℕ) (success : ℝ),
      (∀ p n, y[p]? = some 1 → y[n]? = some 0 → attrs X p \ attrs X n ≠ ∅ →
        GreedyBest (relative X y gamma) (Enough X y eps) (attrs X p \ attrs X n) (head p n)) ∧
      success = 1 - (1 - separationTotal X y /
        ((∑ p ∈ labelled y 1, ((attrs X p).card : ℝ)) * (labelled y 0).card)) ^ 1024 ∧
      (s'.sampleOnce order).prob (.ok (none, s')) = 1 - success ∧
      ∀ A, (s'.sampleOnce order).prob (.ok (some A, s')) =
        success * ((∑ p ∈ labelled y 1, ∑ n ∈ labelled y 0,
          ((attrs X p \ attrs X n).card : ℝ) * if head p n = A then 1 else 0) / separationTotal X y) := by
  classical
  obtain ⟨hy, hl, rfl⟩ := fitted_of hX hs hf
  obtain ⟨head, hhead, hexp⟩ := coupled_expect (gamma := gamma) (eps := eps) hX hy hl ho
  refine ⟨head, coupledSuccess X y, hhead, rfl, ?_, ?_⟩
  · unfold RandR.prob
    rw [hexp]
    simp
  · intro A
    unfold RandR.prob
    rw [hexp]
    simp

/-- **C110.** Before `fit`, and if the only `fit` failed, `sample_once` raises `AttributeError`. -/
theorem C110_unfitted (gamma eps : ℚ) (order : ℕ → Finset ℕ → List ℕ) (x : Py (Option (Finset ℕ) × Coupled)) :
    (((Coupled.init gamma eps).sampleOnce order).Outcome x → x = .error .attributeError) ∧
      ∀ (X : Cmp) (y : List ℤ) (e : PyErr), ((Coupled.init gamma eps).fit X y).1 = .error e →
        ((((Coupled.init gamma eps).fit X y).2.sampleOnce order).Outcome x → x = .error .attributeError) := by
  have key : ∀ s : Coupled, s.cftp = none → (s.sampleOnce order).Outcome x → x = .error .attributeError := by
    intro s hs h
    unfold Coupled.sampleOnce at h
    rw [hs] at h
    exact h
  refine ⟨key _ rfl, fun X y e h => key _ ?_⟩
  unfold Coupled.fit at h ⊢
  cases hl : checkLabels y with
  | error e' => rfl
  | ok u =>
    cases u
    rw [hl] at h
    simp only at h ⊢
    cases hc : coupledCftp ((Coupled.init gamma eps).rows.getD (convertMatrixToSetsV2 X)) X.nMajor y with
    | error e' => rfl
    | ok c =>
      rw [hc] at h
      cases h

/-- **C110.** A second `fit` keeps the records of the first matrix. -/
theorem C110_refit (gamma eps : ℚ) (X X' : Cmp) (y y' : List ℤ) (h : X'.nMajor = X.nMajor) :
    ((Coupled.init gamma eps).fit X y).2.fit X' y' = ((Coupled.init gamma eps).fit X y).2.fit X y' := by
  have h1 : ((Coupled.init gamma eps).fit X y).2.rows = some (convertMatrixToSetsV2 X) ∧
      ((Coupled.init gamma eps).fit X y).2.inv = some (buildIndex X) := by
    unfold Coupled.fit
    cases checkLabels y with
    | error e => exact ⟨rfl, rfl⟩
    | ok u => cases u; simp only; split <;> exact ⟨rfl, rfl⟩
  generalize ((Coupled.init gamma eps).fit X y).2 = s at h1
  unfold Coupled.fit
  simp only [h1.1, h1.2, Option.getD_some, h]

/-! ### Non-triviality -/

example : ∃ s', (Coupled.init (1 / 2) (1 / 10)).fit headMatrix [1, 0, 0] = (.ok (), s') ∧
    CoupledReach (1 / 2) (1 / 10) headMatrix s' :=
  ⟨_, (C110_fit _ _ headMatrix headMatrix_binary _ .init [1, 0, 0]).1 (by decide) (by decide), .fit _ _ .init⟩

end GreedyHead

end Verif
