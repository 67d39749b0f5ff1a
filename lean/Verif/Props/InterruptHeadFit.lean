/-
C138: calls of `CFTPDiscriminativitySampler.fit` that raise or are interrupted.
-/
import Verif.Lemmas.InterruptHeadFit
import Verif.Spec.InterruptHead
import Verif.Props.Head

namespace Verif

/-- **C138.** The points are those of `fit`: a call that reaches its end leaves the sampler `fit` gives, and the
statement that raises is reached exactly when `fit` raises that exception. -/
theorem C138_points (env : HeadEnv) (X : Cmp) (y : List ℤ) (o : HeadObj) :
    (∀ s', headFit env o.core X y = .ok s' ↔ ∃ o', HeadFitPoint env X y o .returned o' ∧ o'.core = s') ∧
    ∀ e, headFit env o.core X y = .error e ↔
      ∃ pc o', HeadFitPoint env X y o pc o' ∧ HeadFitRaises env X y pc o' e := by
  refine ⟨fun s' => ⟨fun h => ?_, ?_⟩, fun e => ⟨fun h => ?_, ?_⟩⟩
  · obtain ⟨hy, sr, hsr, w, hw, hk, rfl⟩ := headFit_eq_ok.1 h
    have hk' : checkKeys w.length (posIndices y ++ negIndices y) = .ok () := by
      rw [mapM_range_length hw]
      exact hk
    exact ⟨_, HeadFitPoint.built (o1 := { o.withRows X.nMajor sr with
      pos := some (posIndices y), neg := some (negIndices y), weights := some w })
      (point_weights hy hsr le_rfl hw) rfl rfl hk', rfl⟩
  · rintro ⟨o', h, rfl⟩
    exact (headFitInv h).1
  · rcases headFit_eq_error.1 h with h | ⟨hy, h⟩
    · exact ⟨_, _, point_sized env X y o, .labels h⟩
    · rcases h with h | ⟨sr, hsr, h⟩
      · rcases hs : o.core.space with _ | sp
        · rcases (spaceAndRows_error_iff hs).1 h with h | ⟨g, hg, h | ⟨cliques, hc, h⟩⟩
          · exact ⟨_, _, point_sized env X y o, .graph hy hs h⟩
          · exact ⟨_, _, .graph (point_sized env X y o) hy hs hg, .space h⟩
          · exact ⟨_, _, .space (.graph (point_sized env X y o) hy hs hg) hc, .rows rfl h⟩
        · rcases hr : o.core.newRows with _ | rows
          · simp only [spaceAndRows, hs, hr] at h
            cases h
            exact ⟨_, _, point_sized env X y o, .missing hy (by simp [hs]) hr⟩
          · simp [spaceAndRows, hs, hr] at h
      · rcases h with h | ⟨w, hw, h⟩
        · obtain ⟨k, hk, ⟨ws, hws⟩, h⟩ := mapM_range_error.1 h
          exact ⟨_, _, point_weights hy hsr hk.le hws, .weight hk rfl rfl h⟩
        · refine ⟨_, _, point_weights hy hsr le_rfl hw, .keys (o := { o.withRows X.nMajor sr with
            pos := some (posIndices y), neg := some (negIndices y), weights := some w }) rfl ?_⟩
          rw [mapM_range_length hw]
          exact h
  · rintro ⟨pc, o', hp, hr⟩
    have hi := headFitInv hp
    rw [headFit_eq_error]
    cases hr with
    | labels hy => exact .inl hy
    | missing hy hs hr =>
      simp only [HeadFitInv] at hi
      subst hi
      refine .inr ⟨hy, .inl ?_⟩
      obtain ⟨sp, hsp⟩ := Option.ne_none_iff_exists'.1 hs
      simp only at hsp hr
      simp [spaceAndRows, hsp, hr]
    | graph hy hs hg =>
      simp only [HeadFitInv] at hi
      subst hi
      exact .inr ⟨hy, .inl ((spaceAndRows_error_iff hs).2 (.inl hg))⟩
    | space hc =>
      simp only [HeadFitInv] at hi
      obtain ⟨hy, hs, hg, rfl⟩ := hi
      exact .inr ⟨hy, .inl ((spaceAndRows_error_iff hs).2 (.inr ⟨_, hg, .inl hc⟩))⟩
    | rows hs hr =>
      simp only [HeadFitInv] at hi
      obtain ⟨hy, hs0, g, cliques, hg, hc, rfl⟩ := hi
      cases hs
      exact .inr ⟨hy, .inl ((spaceAndRows_error_iff hs0).2 (.inr ⟨_, hg, .inr ⟨_, hc, hr⟩⟩))⟩
    | weight hk hs hr hw =>
      simp only [HeadFitInv] at hi
      obtain ⟨hy, sr, hsr, hle, ws, hm, rfl⟩ := hi
      cases hs
      cases hr
      exact .inr ⟨hy, .inr ⟨sr, hsr, .inl (mapM_range_error.2 ⟨_, hk, ⟨_, hm⟩, hw⟩)⟩⟩
    | keys hws hk =>
      simp only [HeadFitInv] at hi
      obtain ⟨hy, sr, hsr, hle, ws, hm, ho⟩ := hi
      have hn : o'.n = X.nMajor := by rw [ho]; rfl
      rw [hn] at hm
      have : ws = _ := Option.some.inj ((congrArg HeadObj.weights ho).symm.trans hws)
      subst this
      rw [mapM_range_length hm] at hk
      exact .inr ⟨hy, .inr ⟨sr, hsr, .inr ⟨_, hm, hk⟩⟩⟩

/-- Before its end, a call of `fit` on a fitted object changes nothing that sampling uses. -/
theorem core_kept {env : HeadEnv} {X : Cmp} {y : List ℤ} {o : HeadObj} (hs : o.core.space ≠ none)
    {pc : HeadFitPc} {o' : HeadObj} (hp : HeadFitPoint env X y o pc o')
    (hpc : pc ≠ .returned) : o'.core = o.core := by
  have hi := headFitInv hp
  have key : ∀ sr, spaceAndRows env o.core X = .ok sr → (o.withRows X.nMajor sr).core = o.core := by
    intro sr h
    obtain ⟨sp, hsp⟩ := Option.ne_none_iff_exists'.1 hs
    rcases hr : o.core.newRows with _ | rows
    · simp [spaceAndRows, hsp, hr] at h
    · simp only [spaceAndRows, hsp, hr, Except.ok.injEq] at h
      subst h
      simp [HeadObj.withRows, ← hsp, ← hr]
  cases pc with
  | entry => exact congrArg HeadObj.core hi
  | sized => exact (congrArg HeadObj.core hi :)
  | graph g => exact absurd hi.2.1 hs
  | space => exact absurd hi.2.1 hs
  | assigned =>
    obtain ⟨-, sr, h, rfl⟩ := hi
    exact key sr h
  | positives =>
    obtain ⟨-, sr, h, rfl⟩ := hi
    exact key sr h
  | negatives =>
    obtain ⟨-, sr, h, rfl⟩ := hi
    exact key sr h
  | weights k =>
    obtain ⟨-, sr, h, -, ws, -, rfl⟩ := hi
    exact key sr h
  | returned => exact absurd rfl hpc

theorem mem_posIndices_of_labels {y : List ℤ} (hy : checkLabels y = .ok ()) (i : ℕ) :
    i ∈ posIndices y ↔ y[i]? = some 1 := by
  have hy : y.toFinset = {0, 1} := by
    by_contra hne
    simp [checkLabels, hne] at hy
  unfold posIndices
  rw [List.mem_filter, List.mem_range, decide_eq_true_eq]
  constructor
  · rintro ⟨hl, h⟩
    rw [getD_lt hl] at h
    have : y[i] ∈ y.toFinset := List.mem_toFinset.2 (List.getElem_mem hl)
    rw [hy, Finset.mem_insert, Finset.mem_singleton] at this
    rw [List.getElem?_eq_getElem hl]
    rcases this with e | e
    · omega
    · rw [e]
  · intro h
    obtain ⟨hl, h⟩ := List.getElem?_eq_some_iff.1 h
    refine ⟨hl, ?_⟩
    rw [getD_lt hl, h]
    norm_num

theorem mem_negIndices_iff {y : List ℤ} (i : ℕ) : i ∈ negIndices y ↔ y[i]? = some 0 := by
  unfold negIndices
  rw [List.mem_filter, List.mem_range, decide_eq_true_eq]
  constructor
  · rintro ⟨hl, h⟩
    rw [getD_lt hl] at h
    rw [List.getElem?_eq_getElem hl, h]
  · intro h
    obtain ⟨hl, h⟩ := List.getElem?_eq_some_iff.1 h
    refine ⟨hl, ?_⟩
    rw [getD_lt hl, h]

/-- **C138.** A sampler fitted with the labels `y0` whose next `fit`, with any data and any labels, raises or is
interrupted: sampling still follows `y0`, with exactly the probabilities it had. -/
theorem C138_samples_kept (env : HeadEnv) (he : env.Good) (X : Cmp) (hX : X.Binary) (hd : X.nMinor < env.depth)
    (s : HeadSampler) (hs : HeadReach env X s) (y0 : List ℤ) (o : HeadObj)
    (hf : headFit env s X y0 = .ok o.core) (X' : Cmp) (y : List ℤ) (pc : HeadFitPc) (o' : HeadObj)
    (hp : HeadFitPoint env X' y o pc o') (hpc : pc ≠ .returned) :
    headSampleOnce env o'.core = headSampleOnce env o.core ∧
    ∃ space c success, o'.core.space = some space ∧ o'.core.cftp = some c ∧
      success = 1 - (1 - (∑ U ∈ space.toFinset, (separations X y0 U : ℝ)) /
        ((c.posList.map c.wPos).sum * (c.negList.map c.wNeg).sum)) ^ 1024 ∧
      (∀ T ∈ space, (headSampleOnce env o'.core).prob (.ok (some T, o'.core)) =
        success * ((separations X y0 T : ℝ) / ∑ U ∈ space.toFinset, (separations X y0 U : ℝ))) ∧
      (headSampleOnce env o'.core).prob (.ok (none, o'.core)) = 1 - success := by
  have hsp : o.core.space ≠ none := by
    obtain ⟨-, sr, -, w, -, -, h⟩ := headFit_eq_ok.1 hf
    rw [h]
    simp
  rw [core_kept hsp hp hpc]
  exact ⟨rfl, C58_heads env he X hX hd s o.core hs y0 hf⟩

/-- **C138.** In the meantime the ground truth functions answer for the new labels: once the two lists are assigned
they hold the rows labelled 1 and 0 in `y`, while the sampler draws for the earlier labels. So it is, in particular,
after the `KeyError` for labels that are longer than the data. -/
theorem C138_ground_truth_moves (env : HeadEnv) (X : Cmp) (y : List ℤ) (o : HeadObj) (hs : o.core.space ≠ none)
    (pc : HeadFitPc) (o' : HeadObj) (hp : HeadFitPoint env X y o pc o')
    (hpc : pc = .negatives ∨ ∃ k, pc = .weights k) :
    o'.core = o.core ∧ ∃ pos neg rows, o'.pos = some pos ∧ o'.neg = some neg ∧ o.core.newRows = some rows ∧
      (∀ i, i ∈ pos ↔ y[i]? = some 1) ∧ (∀ i, i ∈ neg ↔ y[i]? = some 0) ∧
      o'.groundTruthPairs = groundTruthPairs rows pos neg := by
  have hne : pc ≠ .returned := by
    rcases hpc with rfl | ⟨k, rfl⟩ <;> simp
  have hc := core_kept hs hp hne
  refine ⟨hc, ?_⟩
  have hi := headFitInv hp
  have hfields : checkLabels y = .ok () ∧ o'.pos = some (posIndices y) ∧ o'.neg = some (negIndices y) ∧
      ∃ rows, o'.core.newRows = some rows := by
    rcases hpc with rfl | ⟨k, rfl⟩
    · obtain ⟨hy, sr, -, rfl⟩ := hi
      exact ⟨hy, rfl, rfl, _, rfl⟩
    · obtain ⟨hy, sr, -, -, ws, -, rfl⟩ := hi
      exact ⟨hy, rfl, rfl, _, rfl⟩
  obtain ⟨hy, h1, h2, rows, h3⟩ := hfields
  refine ⟨_, _, rows, h1, h2, by rw [← hc]; exact h3, mem_posIndices_of_labels hy, mem_negIndices_iff, ?_⟩
  simp only [HeadObj.groundTruthPairs, h1, h2, h3]

/-- **C138.** Labels longer than the data, on a fitted sampler: `fit` raises `KeyError`, the sampler keeps drawing for the earlier labels and the ground truth functions answer for the
new ones. -/
theorem C138_too_many_labels (env : HeadEnv) (he : env.Good) (X : Cmp) (hX : X.Binary) (hd : X.nMinor < env.depth)
    (s : HeadSampler) (hs : HeadReach env X s) (y0 : List ℤ) (o : HeadObj)
    (hf : headFit env s X y0 = .ok o.core) (y : List ℤ) (hy : y.toFinset = {0, 1}) (hl : X.nMajor < y.length) :
    headFit env o.core X y = .error .keyError ∧
    ∀ e pc o', HeadFitPoint env X y o pc o' → HeadFitRaises env X y pc o' e →
      e = .keyError ∧ o'.core = o.core ∧ ∃ pos neg, o'.pos = some pos ∧ o'.neg = some neg ∧
        (∀ i, i ∈ pos ↔ y[i]? = some 1) ∧ ∀ i, i ∈ neg ↔ y[i]? = some 0 := by
  obtain ⟨hy0, sr0, hsr0, w0, hw0, hk0, hcore⟩ := headFit_eq_ok.1 hf
  have hsp : o.core.space = some sr0.1 := by rw [hcore]
  have hrw : o.core.newRows = some sr0.2 := by rw [hcore]
  have hyl : checkLabels y = .ok () := by simp [checkLabels, hy]
  have hkeys : checkKeys X.nMajor (posIndices y ++ negIndices y) = .error .keyError := by
    unfold checkKeys
    rw [if_neg]
    intro hall
    have hlt : y.length - 1 < y.length := by omega
    have hmem : y[y.length - 1] ∈ y.toFinset := List.mem_toFinset.2 (List.getElem_mem hlt)
    rw [hy, Finset.mem_insert, Finset.mem_singleton] at hmem
    have : y.length - 1 < X.nMajor := by
      refine hall _ (List.mem_append.2 ?_)
      rcases hmem with h | h
      · right
        rw [mem_negIndices_iff, List.getElem?_eq_getElem hlt, h]
      · left
        rw [mem_posIndices_of_labels hyl, List.getElem?_eq_getElem hlt, h]
    omega
  have hsr : spaceAndRows env o.core X = .ok sr0 := by simp [spaceAndRows, hsp, hrw]
  obtain ⟨space, hb, -, -, hs'⟩ := inv_fit he hX hd (headInv_of_reach he hX hd hs) hf
  have hrows : sr0.2 = naiveNewRows X space := by
    have := hrw.symm.trans (congrArg HeadSampler.newRows hs')
    simpa using this
  have hlen : sr0.2.length = X.nMajor := by
    rw [hrows]
    exact naiveNewRows_length X space
  have hweights : ∃ w, (List.range X.nMajor).mapM (headWeight o.core.tight sr0.1.length sr0.2 (posIndices y))
      = .ok w := by
    have hone : ∀ k < X.nMajor, ∃ w, headWeight o.core.tight sr0.1.length sr0.2 (posIndices y) k = .ok w := by
      intro k hk
      have hg : pyGet sr0.2 k = .ok (sr0.2.getD k []) := pyGet_getD (by omega) []
      unfold headWeight
      split_ifs <;> first | exact ⟨_, rfl⟩ | (rw [hg]; exact ⟨_, rfl⟩)
    cases hm : (List.range X.nMajor).mapM (headWeight o.core.tight sr0.1.length sr0.2 (posIndices y)) with
    | ok w => exact ⟨w, rfl⟩
    | error e =>
      obtain ⟨k, hk, -, h⟩ := mapM_range_error.1 hm
      obtain ⟨w, hw⟩ := hone k hk
      rw [hw] at h
      cases h
  obtain ⟨w, hw⟩ := hweights
  have herr : headFit env o.core X y = .error .keyError :=
    headFit_eq_error.2 (.inr ⟨hyl, .inr ⟨sr0, hsr, .inr ⟨w, hw, hkeys⟩⟩⟩)
  refine ⟨herr, fun e pc o' hp hr => ?_⟩
  have he' : headFit env o.core X y = .error e := ((C138_points env X y o).2 e).2 ⟨pc, o', hp, hr⟩
  rw [herr] at he'
  cases he'
  refine ⟨rfl, ?_⟩
  have hi := headFitInv hp
  have hne : pc ≠ .returned := by
    rintro rfl
    cases hr
  have hc := core_kept (by simp [hsp]) hp hne
  refine ⟨hc, ?_⟩
  have hpc : ∃ k, pc = .weights k := by
    cases hr with
    | labels h => rw [hyl] at h; cases h
    | graph _ h => rw [hc, hsp] at h; cases h
    | space _ => exact absurd hi.2.1 (by simp [hsp])
    | rows _ _ => exact absurd hi.2.1 (by simp [hsp])
    | weight _ _ _ _ => exact ⟨_, rfl⟩
    | keys _ _ => exact ⟨_, rfl⟩
  obtain ⟨-, pos, neg, rows, h1, h2, -, h3, h4, -⟩ :=
    C138_ground_truth_moves env X y o (by simp [hsp]) pc o' hp (.inr hpc)
  exact ⟨pos, neg, h1, h2, h3, h4⟩

/-- **C138.** A first `fit` interrupted after the sample space was stored and before the rows were: whatever calls of
`fit` follow, with whatever data, they all raise `AttributeError`, or `AssertionError` for wrong labels, and so does
sampling. -/
theorem C138_dead (env : HeadEnv) (X : Cmp) (y : List ℤ) (doPrune : Bool) (minProba : ℚ) (tight : Bool)
    (o' : HeadObj) (hp : HeadFitPoint env X y (.init doPrune minProba tight) .space o') (o'' : HeadObj)
    (hc : HeadCalls env o' o'') (X' : Cmp) (y' : List ℤ) :
    headFit env o''.core X' y' = .error (if y'.toFinset = {0, 1} then .attributeError else .assertionError) ∧
    headSampleOnce env o''.core = .raise .attributeError := by
  have h0 : o'.core.space ≠ none ∧ o'.core.newRows = none ∧ o'.core.cftp = none := by
    obtain ⟨-, -, g, cliques, -, -, rfl⟩ := headFitInv hp
    exact ⟨by simp, rfl, rfl⟩
  have hfit : ∀ (s : HeadSampler), s.space ≠ none → s.newRows = none → ∀ X' y',
      headFit env s X' y' = .error (if y'.toFinset = {0, 1} then .attributeError else .assertionError) := by
    intro s h1 h2 X' y'
    obtain ⟨sp, hsp⟩ := Option.ne_none_iff_exists'.1 h1
    rw [headFit_eq_error]
    by_cases hy : y'.toFinset = {0, 1}
    · exact .inr ⟨by simp [checkLabels, hy], .inl (by simp [spaceAndRows, hsp, h2, hy])⟩
    · exact .inl (by simp [checkLabels, hy])
  have hcore : o''.core = o'.core := by
    induction hc with
    | none => rfl
    | call h hp' ih =>
      rename_i o1 o2 X1 y1 pc
      have hsp : o1.core.space ≠ none := by rw [ih]; exact h0.1
      by_cases hpc : pc = .returned
      · subst hpc
        have := (headFitInv hp').1
        rw [hfit o1.core hsp (by rw [ih]; exact h0.2.1)] at this
        cases this
      · rw [core_kept hsp hp' hpc, ih]
  rw [hcore]
  refine ⟨hfit _ h0.1 h0.2.1 X' y', ?_⟩
  simp only [headSampleOnce, h0.2.2]

/-- **C138.** At every other point the interruption does no harm: a later `fit` on the same data, with any labels,
gives exactly what it would have given without the interrupted call. -/
theorem C138_retry (env : HeadEnv) (X : Cmp) (y : List ℤ) (o : HeadObj) (pc : HeadFitPc) (o' : HeadObj)
    (hp : HeadFitPoint env X y o pc o') (hpc : pc ≠ .space) (y' : List ℤ) :
    headFit env o'.core X y' = headFit env o.core X y' := by
  have hi := headFitInv hp
  have key : ∀ (s : HeadSampler) (sr : List (Finset ℤ) × List (List ℕ)), spaceAndRows env o.core X = .ok sr →
      s.space = some sr.1 → s.newRows = some sr.2 → s.tight = o.core.tight → s.minProba = o.core.minProba →
      s.doPrune = o.core.doPrune → headFit env s X y' = headFit env o.core X y' := by
    intro s sr h h1 h2 h3 h4 h5
    have h' : spaceAndRows env s X = .ok sr := by simp [spaceAndRows, h1, h2]
    unfold headFit
    rw [h, h', h3, h4, h5]
  cases pc with
  | entry => rw [show o' = o from hi]
  | sized => rw [show o' = _ from hi]
  | graph g => rw [show o' = _ from hi.2.2.2]
  | space => exact absurd rfl hpc
  | assigned =>
    obtain ⟨-, sr, h, rfl⟩ := hi
    exact key _ sr h rfl rfl rfl rfl rfl
  | positives =>
    obtain ⟨-, sr, h, rfl⟩ := hi
    exact key _ sr h rfl rfl rfl rfl rfl
  | negatives =>
    obtain ⟨-, sr, h, rfl⟩ := hi
    exact key _ sr h rfl rfl rfl rfl rfl
  | weights k =>
    obtain ⟨-, sr, h, -, ws, -, rfl⟩ := hi
    exact key _ sr h rfl rfl rfl rfl rfl
  | returned =>
    obtain ⟨h, -⟩ := hi
    obtain ⟨-, sr, hsr, w, -, -, h⟩ := headFit_eq_ok.1 h
    rw [h]
    exact key _ sr hsr rfl rfl rfl rfl rfl

/-- **C138.** On a binary matrix with a column, only an interruption does that harm, no exception: the call that raises
has not stored a sample space without its rows. -/
theorem C138_exceptions_harmless (env : HeadEnv) (he : env.Good) (X : Cmp) (hX : X.Binary) (hc : 0 < X.nMinor)
    (hd : X.nMinor < env.depth) (y : List ℤ) (o : HeadObj) (pc : HeadFitPc) (o' : HeadObj) (e : PyErr)
    (hp : HeadFitPoint env X y o pc o') (hr : HeadFitRaises env X y pc o' e) (y' : List ℤ) :
    headFit env o'.core X y' = headFit env o.core X y' := by
  refine C138_retry env X y o pc o' hp ?_ y'
  rintro rfl
  obtain ⟨-, hs, g, cliques, hg, hcl, rfl⟩ := headFitInv hp
  cases hr with
  | rows h1 h2 =>
    cases h1
    obtain ⟨g', space, -, hb, -⟩ := buildSpaceAndRows_ok he o.core hX hc hd
    have : spaceAndRows env o.core X = .error e :=
      (spaceAndRows_error_iff hs).2 (.inr ⟨g, hg, .inr ⟨cliques, hcl, h2⟩⟩)
    simp only [spaceAndRows, hs] at this
    rw [hb] at this
    cases this

/-! ### Concrete cases -/

/-- The point between the two assignments is on the way of a first `fit` of a small matrix. -/
theorem head_space_point : ∃ o', HeadFitPoint (someEnv 10) headMatrix [1, 0, 0] (.init true (1 / 10) true) .space o' := by
  obtain ⟨g, space, -, hb, -⟩ := buildSpaceAndRows_ok (someEnv_good 10) (HeadSampler.init true (1 / 10) true)
    headMatrix_binary (by decide) (by decide)
  have hsr : spaceAndRows (someEnv 10) (HeadSampler.init true (1 / 10) true) headMatrix
      = .ok (space, naiveNewRows headMatrix space) := hb
  obtain ⟨g', cliques, h1, h2, -⟩ := (spaceAndRows_ok_iff rfl).1 hsr
  exact ⟨_, .space (.graph (point_sized _ _ _ _) (by simp [checkLabels, show ({1, 0} : Finset ℤ) = {0, 1} by decide]) rfl h1) h2⟩

/-- After that interruption the same call raises, and so does sampling. -/
example : ∃ o', HeadFitPoint (someEnv 10) headMatrix [1, 0, 0] (.init true (1 / 10) true) .space o' ∧
    headFit (someEnv 10) o'.core headMatrix [1, 0, 0] = .error .attributeError ∧
    headSampleOnce (someEnv 10) o'.core = .raise .attributeError := by
  obtain ⟨o', h⟩ := head_space_point
  obtain ⟨h1, h2⟩ := C138_dead _ _ _ _ _ _ _ h _ .none headMatrix [1, 0, 0]
  rw [if_pos (by decide)] at h1
  exact ⟨o', h, h1, h2⟩

/-- A fitted sampler and four labels for its three rows. -/
example : ∃ o : HeadObj, headFit (someEnv 10) (HeadSampler.init true (1 / 10) true) headMatrix [1, 0, 0] = .ok o.core ∧
    headFit (someEnv 10) o.core headMatrix [0, 1, 0, 1] = .error .keyError := by
  obtain ⟨s', h⟩ := (C58_fit (someEnv 10) (someEnv_good 10) headMatrix headMatrix_binary (by decide)
    _ (.init true (1 / 10) true) [1, 0, 0]).1.mpr ⟨by decide, by decide⟩
  refine ⟨{ core := s', n := 0, pos := none, neg := none, weights := none }, h, ?_⟩
  exact (C138_too_many_labels (someEnv 10) (someEnv_good 10) headMatrix headMatrix_binary (by decide) _
    (.init true (1 / 10) true) [1, 0, 0] { core := s', n := 0, pos := none, neg := none, weights := none } h
    [0, 1, 0, 1] (by decide) (by decide)).1

end Verif
