/-
What records without labels do.
-/
import Verif.Spec.Unlabelled
import Verif.Props.RaiseThreshold
import Verif.Lemmas.RowOrder
import Verif.Props.Filter

namespace Verif

open Cmp

variable {place : ℕ → ℕ} {X Y X' Y' : Cmp}

namespace AddsUnlabelled

theorem injOn (h : AddsUnlabelled place X Y X' Y') {A : Finset ℕ} (hA : ∀ i ∈ A, i < Y.nMajor) :
    Set.InjOn place A := fun a ha b hb e => h.distinct a (hA a ha) b (hA b hb) e

theorem rowContains (h : AddsUnlabelled place X Y X' Y') {k : ℕ} (hk : k < Y.nMajor) (T : Finset ℤ) :
    (RowContains Y' (place k) T ↔ RowContains Y k T) ∧ (RowContains X' (place k) T ↔ RowContains X k T) := by
  unfold RowContains
  simp only [h.labels k hk, h.features k hk, and_self]

theorem labelled (h : AddsUnlabelled place X Y X' Y') {i : ℕ} {T : Finset ℤ} (hT : T ≠ ∅) (hi : RowContains Y' i T) :
    ∃ k < Y.nMajor, place k = i := by
  obtain ⟨x, hx⟩ := Finset.nonempty_iff_ne_empty.mpr hT
  obtain ⟨j, -, hj⟩ := hi x hx
  exact h.others i j hj

theorem commonRows (h : AddsUnlabelled place X Y X' Y') (hY : Y.Binary) (hY' : Y'.Binary) (u v : ℕ) :
    Verif.commonRows Y'.flip u v = (Verif.commonRows Y.flip u v).image place := by
  ext i
  unfold Verif.commonRows
  simp only [Finset.mem_image, Finset.mem_filter, Finset.mem_range, flip_nMinor, stored_flip hY.toWF,
    stored_flip hY'.toWF]
  constructor
  · rintro ⟨-, h1, h2⟩
    obtain ⟨k, hk, rfl⟩ := h.others i u h1
    exact ⟨k, ⟨hk, (h.labels k hk u).mp h1, (h.labels k hk v).mp h2⟩, rfl⟩
  · rintro ⟨k, ⟨hk, h1, h2⟩, rfl⟩
    exact ⟨h.inside k hk, (h.labels k hk u).mpr h1, (h.labels k hk v).mpr h2⟩

theorem commonRows_card (h : AddsUnlabelled place X Y X' Y') (hY : Y.Binary) (hY' : Y'.Binary) (u v : ℕ) :
    (Verif.commonRows Y'.flip u v).card = (Verif.commonRows Y.flip u v).card := by
  rw [h.commonRows hY hY', Finset.card_image_of_injOn (h.injOn fun i hi => ?_)]
  unfold Verif.commonRows at hi
  simp only [Finset.mem_filter, Finset.mem_range, flip_nMinor] at hi
  exact hi.1

/-- The probable label sets are the same. -/
theorem samples (h : AddsUnlabelled place X Y X' Y') (hY : Y.Binary) (hY' : Y'.Binary) (alpha : ℚ) :
    samplesOf Y' alpha = samplesOf Y alpha := by
  have hb := Cmp.flip_binary hY
  have hb' := Cmp.flip_binary hY'
  obtain ⟨d, hd, -, -, hdw⟩ := C47_confidence_graph _ hb
  obtain ⟨d', hd', -, -, hdw'⟩ := C47_confidence_graph _ hb'
  obtain ⟨c, hc, -, hn, hcw⟩ := C48_connectivity_graph _ hb d hd
  obtain ⟨c', hc', -, hn', hcw'⟩ := C48_connectivity_graph _ hb' d' hd'
  have hg : buildGraph Y.flip = .ok c := by unfold buildGraph; rw [hd]; exact hc
  have hg' : buildGraph Y'.flip = .ok c' := by unfold buildGraph; rw [hd']; exact hc'
  have hdd : ∀ u v, d'.weight u v = d.weight u v := by
    intro u v
    apply Option.ext
    intro p
    rw [hdw, hdw']
    simp only [← Finset.card_pos, h.commonRows_card hY hY', flip_nMajor, h.columns]
  have hcc : ∀ u v, c'.weight u v = c.weight u v := by
    intro u v
    apply Option.ext
    intro p
    rw [hcw, hcw']
    simp only [hdd]
  have hp : ∀ U, c'.Probable alpha U ↔ c.Probable alpha U := by
    intro U
    unfold UGraph.Probable UGraph.IsClique UGraph.cliqueProb UGraph.Adj
    simp only [hcc, hn', hn, flip_nMajor, h.columns]
  ext T
  rw [mem_samplesOf hY hg, mem_samplesOf hY' hg']
  simp only [hp]

theorem nonempty_sample {M : Cmp} (hM : M.Binary) {alpha : ℚ} {T : Finset ℤ} (hT : T ∈ samplesOf M alpha) : T ≠ ∅ := by
  obtain ⟨g, hg, -⟩ := C48_build_graph M.flip (Cmp.flip_binary hM)
  obtain ⟨U, hU, rfl⟩ := (mem_samplesOf hM hg).mp hT
  intro e
  exact hU.1 (Finset.image_eq_empty.mp e)

/-- The uncovered areas are the same. -/
theorem area (h : AddsUnlabelled place X Y X' Y') {us us' : List (List ℕ × List ℤ)}
    (hu : CoveredAlike place Y.nMajor us us') {T : Finset ℤ} (hT : T ≠ ∅) : openArea Y' us' T = openArea Y us T := by
  classical
  unfold openArea
  have hin : (Finset.range Y.nMajor).image place ⊆ Finset.range Y'.nMajor := by
    intro i hi
    obtain ⟨k, hk, rfl⟩ := Finset.mem_image.mp hi
    exact Finset.mem_range.mpr (h.inside k (Finset.mem_range.mp hk))
  rw [← Finset.sum_subset hin, Finset.sum_image (h.injOn fun i hi => Finset.mem_range.mp hi)]
  · refine Finset.sum_congr rfl fun k hk => ?_
    have hk' := Finset.mem_range.mp hk
    simp only [(h.rowContains hk' T).1]
    unfold uncoveredPart
    simp only [hu k hk']
  · intro i _ hi
    rw [if_neg]
    intro hc
    obtain ⟨k, hk, rfl⟩ := h.labelled hT hc
    exact hi (Finset.mem_image_of_mem _ (Finset.mem_range.mpr hk))

end AddsUnlabelled

/-- With no area left the tail sampler raises `NoMoreSamples`. -/
theorem tail_dry {env : LearnEnv} (he : env.Good) (hD : LearnData env X Y) {pl : ℚ}
    {us : List (List ℕ × List ℤ)} {t : UState} (ht : TailAfter env.toHeadEnv pl true Y us t)
    (hz : ∑ T ∈ samplesOf Y pl, openArea Y us T = 0) {x : Py (Finset ℤ)} (hx : (sampleOnce t).Outcome x) :
    x = .error .noMoreSamples := by
  rcases tail_outcome he.heads hD.labels hD.depthY hD.pos ht hx with ⟨rfl, -⟩ | ⟨T, -, hT, -, -, i, hi, hTi, l, hl, hnc⟩
  · rfl
  · exfalso
    obtain ⟨h1, -, -⟩ := tail_area he hD ht
    have hT' : T ∈ samplesOf Y pl := by rw [← h1]; exact List.mem_toFinset.mpr hT
    have hz' := (Finset.sum_eq_zero_iff.mp hz) T hT'
    unfold openArea at hz'
    have hi' := (Finset.sum_eq_zero_iff.mp hz') i (Finset.mem_range.mpr hi)
    rw [if_pos hTi, Finset.card_eq_zero] at hi'
    have : l ∈ uncoveredPart us i T := Finset.mem_filter.mpr ⟨hl, hnc⟩
    rw [hi'] at this
    simp at this

/-- The probabilities of a tail draw. -/
theorem tail_probs {env : LearnEnv} (he : env.Good) (hD : LearnData env X Y) {pl : ℚ}
    {us : List (List ℕ × List ℤ)} {t : UState} (ht : TailAfter env.toHeadEnv pl true Y us t) (x : Py (Finset ℤ)) :
    ((sampleOnce t).prob x : ℝ) =
      if ∑ T ∈ samplesOf Y pl, openArea Y us T = 0 then (if x = .error .noMoreSamples then 1 else 0)
      else ∑ T ∈ samplesOf Y pl, tailChance Y pl us T * (if x = .ok T then 1 else 0) := by
  classical
  split_ifs with h0 hx
  · subst hx
    have : (sampleOnce t).prob (.error .noMoreSamples) = 1 := by
      unfold Rand.prob
      rw [Rand.expect_congr (g := fun _ => 1) (fun y hy => by rw [if_pos (tail_dry he hD ht h0 hy)])
        (sampleOnce_proper t), Rand.expect_const _ (sampleOnce_proper t)]
    rw [this]
    norm_num
  · have : (sampleOnce t).prob x = 0 := by
      unfold Rand.prob
      rw [Rand.expect_congr (g := fun _ => 0) (fun y hy => by
        rw [if_neg (by rw [tail_dry he hD ht h0 hy]; exact fun e => hx e.symm)])
        (sampleOnce_proper t), Rand.expect_const _ (sampleOnce_proper t)]
    rw [this]
    norm_num
  · have hpos := Nat.pos_of_ne_zero h0
    have := tail_expect he hD ht hpos fun y => if x = y then 1 else 0
    rw [← this, expect_toReal_sum (sampleOnce_proper t) _
      (insert x (insert (.error .noMoreSamples) ((samplesOf Y pl).image Except.ok)))]
    · simp
    · intro y hy
      rcases tail_outcome he.heads hD.labels hD.depthY hD.pos ht hy with ⟨rfl, -⟩ | ⟨T, rfl, hT, -⟩
      · simp
      · obtain ⟨h1, -, -⟩ := tail_area he hD ht
        have hT' : T ∈ samplesOf Y pl := by rw [← h1]; exact List.mem_toFinset.mpr hT
        simp [hT']

/-- **C161** Records without labels do not influence the tails: after fitting on data with such records added anywhere,
and after updates that cover the same cells, every outcome of a tail draw, each label set and `NoMoreSamples`, has the
same probability. -/
theorem C161_tails (env env' : LearnEnv) (he : env.Good) (he' : env'.Good) (X Y X' Y' : Cmp) (hD : LearnData env X Y)
    (hD' : LearnData env' X' Y') (place : ℕ → ℕ) (h : AddsUnlabelled place X Y X' Y') (pl : ℚ)
    (us us' : List (List ℕ × List ℤ)) (hu : CoveredAlike place Y.nMajor us us') (s s' : UState)
    (hs : TailAfter env.toHeadEnv pl true Y us s) (hs' : TailAfter env'.toHeadEnv pl true Y' us' s')
    (x : Py (Finset ℤ)) : (sampleOnce s').prob x = (sampleOnce s).prob x := by
  have hsp := h.samples hD.labels hD'.labels pl
  have harea : ∀ T ∈ samplesOf Y pl, openArea Y' us' T = openArea Y us T := fun T hT =>
    h.area hu (AddsUnlabelled.nonempty_sample hD.labels hT)
  have e : ((sampleOnce s').prob x : ℝ) = (sampleOnce s).prob x := by
    rw [tail_probs he hD hs, tail_probs he' hD' hs', hsp, Finset.sum_congr rfl harea]
    congr 1
    refine Finset.sum_congr rfl fun T hT => ?_
    unfold tailChance
    rw [harea T hT, hsp, Finset.sum_congr rfl fun U hU => by rw [harea U hU]]
  exact_mod_cast e

open Classical in
theorem rulePairs_mul (X Y : Cmp) (T H : Finset ℤ) : rulePairs X Y T H = bothCount X Y H T *
    ((Finset.range Y.nMajor).filter fun i => ¬ RowContains Y i T ∧ ¬ RowContains X i H).card := by
  unfold rulePairs bothCount
  rw [← Finset.card_product]
  congr 1
  ext ⟨a, b⟩
  simp only [Finset.mem_filter, Finset.mem_product, Finset.mem_range]
  tauto

/-- Every added record that lacks a feature of the head adds the support of the rule to its weight. -/
theorem AddsUnlabelled.pairs (h : AddsUnlabelled place X Y X' Y') (hn' : X'.nMajor = Y'.nMajor) {T : Finset ℤ}
    (hT : T ≠ ∅) (H : Finset ℤ) : rulePairs X' Y' T H =
      rulePairs X Y T H + bothCount X Y H T * addedLacking place Y.nMajor X' H := by
  classical
  have hboth : bothCount X' Y' H T = bothCount X Y H T := by
    unfold bothCount
    have : ((Finset.range Y'.nMajor).filter fun i => RowContains X' i H ∧ RowContains Y' i T) =
        ((Finset.range Y.nMajor).filter fun i => RowContains X i H ∧ RowContains Y i T).image place := by
      ext i
      simp only [Finset.mem_image, Finset.mem_filter, Finset.mem_range]
      constructor
      · rintro ⟨-, h1, h2⟩
        obtain ⟨k, hk, rfl⟩ := h.labelled hT h2
        exact ⟨k, ⟨hk, (h.rowContains hk H).2.mp h1, (h.rowContains hk T).1.mp h2⟩, rfl⟩
      · rintro ⟨k, ⟨hk, h1, h2⟩, rfl⟩
        exact ⟨h.inside k hk, (h.rowContains hk H).2.mpr h1, (h.rowContains hk T).1.mpr h2⟩
    rw [this, Finset.card_image_of_injOn (h.injOn fun i hi => Finset.mem_range.mp (Finset.mem_filter.mp hi).1)]
  have hnone : ((Finset.range Y'.nMajor).filter fun i => ¬ RowContains Y' i T ∧ ¬ RowContains X' i H) =
      ((Finset.range Y.nMajor).filter fun i => ¬ RowContains Y i T ∧ ¬ RowContains X i H).image place ∪
      (Finset.range X'.nMajor).filter fun i => (∀ k < Y.nMajor, place k ≠ i) ∧ ¬ RowContains X' i H := by
    ext i
    simp only [Finset.mem_union, Finset.mem_image, Finset.mem_filter, Finset.mem_range, hn']
    constructor
    · rintro ⟨hi, h1, h2⟩
      by_cases hk : ∃ k < Y.nMajor, place k = i
      · obtain ⟨k, hk, rfl⟩ := hk
        exact Or.inl ⟨k, ⟨hk, fun c => h1 ((h.rowContains hk T).1.mpr c), fun c => h2 ((h.rowContains hk H).2.mpr c)⟩, rfl⟩
      · exact Or.inr ⟨hi, fun k hk' e => hk ⟨k, hk', e⟩, h2⟩
    · rintro (⟨k, ⟨hk, h1, h2⟩, rfl⟩ | ⟨hi, h1, h2⟩)
      · exact ⟨h.inside k hk, fun c => h1 ((h.rowContains hk T).1.mp c), fun c => h2 ((h.rowContains hk H).2.mp c)⟩
      · refine ⟨hi, fun c => ?_, h2⟩
        obtain ⟨k, hk, e⟩ := h.labelled hT c
        exact h1 k hk e
  rw [rulePairs_mul, rulePairs_mul, hboth, hnone, Finset.card_union_of_disjoint, mul_add,
    Finset.card_image_of_injOn (h.injOn fun i hi => Finset.mem_range.mp (Finset.mem_filter.mp hi).1)]
  · rfl
  · rw [Finset.disjoint_left]
    intro i hi hi'
    obtain ⟨k, hk, rfl⟩ := Finset.mem_image.mp hi
    exact (Finset.mem_filter.mp hi').2.1 k (Finset.mem_range.mp (Finset.mem_filter.mp hk).1) rfl

/-- **C161** They do influence the heads. With one tail and one head per iteration, two rules with the same tail are drawn
in the proportion of their weights, and the weight of a rule is its weight on the labelled records plus its support times
the number of added records that lack some feature of its head. -/
theorem C161_heads (env : LearnEnv) (he : env.Good) (X Y X' Y' : Cmp) (hD' : LearnData env X' Y')
    (place : ℕ → ℕ) (h : AddsUnlabelled place X Y X' Y') (pf pl : ℚ)
    (us : List (List ℕ × List ℤ)) (s : UState) (hs : TailAfter env.toHeadEnv pl true Y' us s)
    (hpos : 0 < ∑ T ∈ samplesOf Y' pl, openArea Y' us T)
    (hd : HeadSampler) (hh : HeadReach env.toHeadEnv X' hd) (ht : hd.tight = true) (hm : hd.minProba = pf)
    (T : Finset ℤ) (hT : T ∈ samplesOf Y' pl) (H₁ H₂ : Finset ℤ) (h₁ : H₁ ∈ samplesOf X' pf) (h₂ : H₂ ∈ samplesOf X' pf) :
    (learnGen env X' X'.flip Y'.flip 1 s 1 hd []).probOf (Returned (HasRule H₁ T)) *
        (rulePairs X Y T H₂ + bothCount X Y H₂ T * addedLacking place Y.nMajor X' H₂) =
      (learnGen env X' X'.flip Y'.flip 1 s 1 hd []).probOf (Returned (HasRule H₂ T)) *
        (rulePairs X Y T H₁ + bothCount X Y H₁ T * addedLacking place Y.nMajor X' H₁) := by
  have hT0 := AddsUnlabelled.nonempty_sample hD'.labels hT
  have e : ∀ H, (rulePairs X Y T H + bothCount X Y H T * addedLacking place Y.nMajor X' H : ℝ) = rulePairs X' Y' T H := by
    intro H
    rw [h.pairs hD'.rows hT0 H]
    push_cast
    ring
  rw [e, e, C123_one_rule env he X' Y' hD' pf pl us s hs hpos hd hh ht hm H₁ h₁ T hT,
    C123_one_rule env he X' Y' hD' pf pl us s hs hpos hd hh ht hm H₂ h₂ T hT]
  unfold headChance
  ring

/-- **C161** `filter_rows_with_no_labels` removes such records, so it does not change the law of the tails. -/
theorem C161_filter (X' Y' X Y : Cmp) (hX' : X'.Binary) (hY' : Y'.Binary) (hn : X'.nMajor = Y'.nMajor)
    (hX : X.Binary) (hf : filterRowsWithNoLabels X' Y' = .ok (X, Y)) : ∃ place, AddsUnlabelled place X Y X' Y' := by
  classical
  obtain ⟨X2, Y2, rows, hf', hsort, hmem, -, hY2, hXr, hYr, hXc, hYc, hrow⟩ := C77_filter X' Y' hX'.toWF hY' hn
  rw [hf] at hf'
  cases hf'
  have hget : ∀ k (hk : k < rows.length), rows.getD k 0 = rows[k] := fun k hk => by simp [hk]
  have hlt : ∀ i ∈ rows, i < Y'.nMajor := fun i hi => by
    obtain ⟨j, hj⟩ := (hmem i).mp hi
    exact hj.major_lt hY'.toWF
  refine ⟨fun k => rows.getD k 0, ⟨fun k hk => ?_, fun k hk k' hk' e => ?_, fun k hk j => ?_, fun k hk j => ?_,
    fun i j hj => ?_, hYc.symm⟩⟩
  · rw [hYr] at hk
    simp only [hget k hk]
    exact hlt _ (List.getElem_mem hk)
  · rw [hYr] at hk hk'
    simp only [hget k hk, hget k' hk'] at e
    exact (List.Nodup.getElem_inj_iff (hsort.imp fun h => h.ne)).mp e
  · rw [hYr] at hk
    simp only [hget k hk]
    have hv := (hrow k hk).1 j
    rw [hX.val_eq k j (by omega), hX'.val_eq rows[k] j (by rw [hn]; exact hlt _ (List.getElem_mem hk))] at hv
    by_cases h1 : X.Stored k j <;> by_cases h2 : X'.Stored rows[k] j <;> simp [h1, h2] at hv ⊢
  · rw [hYr] at hk
    simp only [hget k hk]
    exact ((hrow k hk).2.1 j).symm
  · obtain ⟨k, hk, e⟩ := List.getElem_of_mem ((hmem i).mpr ⟨j, hj⟩)
    exact ⟨k, by rw [hYr]; exact hk, by rw [hget k hk]; exact e⟩

/-! ### A concrete case -/

/-- The third record of `threeX`, `threeY` has no label. -/
theorem three_adds : AddsUnlabelled id eyeData eyeData threeX threeY where
  inside k hk := lt_trans hk (by decide)
  distinct _ _ _ _ e := e
  features k hk j := by
    have hk' : k < 2 := hk
    rw [id, threeX_stored, eye_stored, Nat.min_eq_left (by omega)]
    exact ⟨fun h => ⟨hk', h.2⟩, fun h => ⟨by omega, h.2⟩⟩
  labels k _ j := by rw [id, threeY_stored, eye_stored]
  others i j h := ⟨i, (threeY_stored.mp h).1, rfl⟩
  columns := rfl

example (pl : ℚ) : ∃ s s', TailAfter (someLearnEnv 10).toHeadEnv pl true eyeData [] s ∧
    TailAfter (someLearnEnv 10).toHeadEnv pl true threeY [] s' ∧ ∀ x, (sampleOnce s').prob x = (sampleOnce s).prob x := by
  have he := someLearnEnv_good 10
  obtain ⟨_, _, -, hf, -⟩ := tailFit_ok he.heads pl true [] eye_data.labels eye_data.colsY eye_data.depthY
  obtain ⟨_, _, -, hf', -⟩ := tailFit_ok he.heads pl true [] three_data.labels three_data.colsY three_data.depthY
  refine ⟨_, _, ⟨_, hf, rfl⟩, ⟨_, hf', rfl⟩, ?_⟩
  exact C161_tails _ _ he he eyeData eyeData threeX threeY eye_data three_data id three_adds pl [] []
    (fun _ _ _ => by simp [CoveredBy]) _ _ ⟨_, hf, rfl⟩ ⟨_, hf', rfl⟩

/-- The added record lacks feature 0 and has feature 1. -/
example : addedLacking id 2 threeX {0} = 1 ∧ addedLacking id 2 threeX {1} = 0 := by
  classical
  have h2 : ∀ j : ℕ, RowContains threeX 2 {(j : ℤ)} ↔ j = 1 := by
    intro j
    constructor
    · intro h
      obtain ⟨k, e, hk⟩ := h j (by simp)
      have : j = k := by exact_mod_cast e
      rw [this, (threeX_stored.mp hk).2]
      rfl
    · rintro rfl x hx
      exact ⟨1, by simpa using hx, threeX_stored.mpr (by norm_num)⟩
  have only : ∀ H : Finset ℤ, addedLacking id 2 threeX H = (if RowContains threeX 2 H then ∅ else {2} : Finset ℕ).card := by
    intro H
    unfold addedLacking
    congr 1
    ext i
    simp only [Finset.mem_filter, Finset.mem_range, id]
    constructor
    · rintro ⟨h1, h3, h4⟩
      have hi : i = 2 := by
        have : i < 3 := h1
        have := h3 0 (by omega)
        have := h3 1 (by omega)
        omega
      subst hi
      rw [if_neg h4]
      simp
    · intro h
      split_ifs at h with h4
      · simp at h
      · rw [Finset.mem_singleton] at h
        subst h
        exact ⟨by decide, fun k hk => by omega, h4⟩
  constructor
  · rw [only, if_neg (by simpa using (h2 0).not.mpr (by norm_num))]
    rfl
  · rw [only, if_pos (by simpa using (h2 1).mpr rfl)]
    rfl

end Verif
