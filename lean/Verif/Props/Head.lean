/-
Properties C57, C58, C73 and C74: the head sampler.
-/
import Verif.Props.Cftp
import Mathlib.Data.List.Sort

namespace Verif
open Cftp

/-! ### A concrete matrix used in the examples -/

/-- Features {0, 1}, {0}, {1}. -/
def headMatrix : Cmp :=
  { nMajor := 3, nMinor := 2, indptr := [0, 2, 3, 4], indices := [0, 1, 0, 1], data := [1, 1, 1, 1] }

theorem headMatrix_binary : headMatrix.Binary :=
  { len_indptr := by decide, ptr_zero := by decide, ptr_mono := by decide, ptr_last := by decide,
    len_data := by decide, idx_lt := by decide, data_one := by decide, nodup := by decide }

/-- Every space has an ordering of its items by decreasing count. -/
theorem exists_ordering (space : List (Finset ℤ)) : ∃ o, IsOrdering space o := by
  classical
  let items : List ℤ := (space.foldr (· ∪ ·) ∅).toList
  let r : ℤ → ℤ → Prop := fun x y => itemCount space y ≤ itemCount space x
  haveI : Std.Total r := ⟨fun a b => le_total _ _⟩
  haveI : IsTrans ℤ r := ⟨fun a b c h1 h2 => le_trans h2 h1⟩
  refine ⟨items.insertionSort r, ?_, ?_, ?_⟩
  · exact (List.perm_insertionSort r items).nodup_iff.mpr (Finset.nodup_toList _)
  · intro x
    rw [(List.perm_insertionSort r items).mem_iff]
    have : ∀ l : List (Finset ℤ), x ∈ l.foldr (· ∪ ·) ∅ ↔ ∃ s ∈ l, x ∈ s := by
      intro l
      induction l with
      | nil => simp
      | cons a l ih => simp [ih]
    simpa [items] using this space
  · exact List.pairwise_insertionSort r items

open Classical in
/-- Some environment in which sets are traversed as the language promises. -/
noncomputable def someEnv (depth : ℕ) : HeadEnv :=
  { order := Finset.toList, ordering := fun space => (exists_ordering space).choose, depth := depth }

theorem someEnv_good (depth : ℕ) : (someEnv depth).Good :=
  ⟨traverses_toList, fun space => (exists_ordering space).choose_spec⟩

/-! ### C57 -/

/-- **C57** After any successful `fit` of a sampler in any reachable state, for the tight and for the
original proposal, the proposal weights and the true weights are not negative, and the true weight
`|D_p \ D_n|` of every pair is at most the product of the two proposal weights. -/
theorem C57_head_sampler_dominates (env : HeadEnv) (he : env.Good) (X : Cmp) (hX : X.Binary)
    (hd : X.nMinor < env.depth) (s s' : HeadSampler) (hs : HeadReach env X s) (y : List ℤ)
    (hf : headFit env s X y = .ok s') :
    ∃ c rows, s'.cftp = some c ∧ s'.newRows = some rows ∧ c.posList = posIndices y ∧
      c.negList = negIndices y ∧ c.maxIters = 1024 ∧
      (∀ p n, c.W p n = ((recordAt rows p \ recordAt rows n).card : ℝ)) ∧ c.Dominated := by
  obtain ⟨space, -, hy, hyl, rfl⟩ := inv_fit he hX hd (headInv_of_reach he hX hd hs) hf
  exact ⟨_, _, rfl, rfl, rfl, rfl, rfl, fun _ _ => rfl, headCftp_dominated (naiveNewRows_ok X space) hyl⟩

/-- **C57** The weights of the tight proposal: the number of samples in a positive row, 1 for a negative
one. -/
theorem C57_tight_weights (env : HeadEnv) (he : env.Good) (X : Cmp) (hX : X.Binary)
    (hd : X.nMinor < env.depth) (s s' : HeadSampler) (hs : HeadReach env X s) (y : List ℤ)
    (hf : headFit env s X y = .ok s') (ht : s.tight = true) :
    ∃ c rows, s'.cftp = some c ∧ s'.newRows = some rows ∧
      (∀ p ∈ c.posList, c.wPos p = ((recordAt rows p).card : ℝ)) ∧ ∀ n ∈ c.negList, c.wNeg n = 1 := by
  obtain ⟨space, -, hy, hyl, rfl⟩ := inv_fit he hX hd (headInv_of_reach he hX hd hs) hf
  refine ⟨_, _, rfl, rfl, ?_, ?_⟩
  · intro p hp
    simp only [headCftp] at hp ⊢
    rw [weight_getD (lt_of_lt_of_le (mem_posIndices.mp hp).1 hyl), weightOf, if_pos ht, if_pos hp,
      (recordAt_ok (naiveNewRows_ok X space) p).2]
  · intro n hn
    simp only [headCftp] at hn ⊢
    rw [weight_getD (lt_of_lt_of_le (mem_negIndices.mp hn).1 hyl), weightOf, if_pos ht, if_neg]
    intro h
    have a := (mem_negIndices.mp hn).2
    have b := (mem_posIndices.mp h).2
    omega

/-- **C57** The weights of the original proposal: the square root of the number of samples in a positive
row, and of the number of samples missing from a negative one. -/
theorem C57_original_weights (env : HeadEnv) (he : env.Good) (X : Cmp) (hX : X.Binary)
    (hd : X.nMinor < env.depth) (s s' : HeadSampler) (hs : HeadReach env X s) (y : List ℤ)
    (hf : headFit env s X y = .ok s') (ht : s.tight = false) :
    ∃ c rows space, s'.cftp = some c ∧ s'.newRows = some rows ∧ s'.space = some space ∧
      (∀ p ∈ c.posList, c.wPos p = Real.sqrt ((recordAt rows p).card : ℝ)) ∧
      ∀ n ∈ c.negList, c.wNeg n = Real.sqrt ((Finset.range space.length \ recordAt rows n).card : ℝ) := by
  obtain ⟨space, -, hy, hyl, rfl⟩ := inv_fit he hX hd (headInv_of_reach he hX hd hs) hf
  have hok := naiveNewRows_ok X space
  have htf : ¬ s.tight = true := by simp [ht]
  refine ⟨_, _, _, rfl, rfl, rfl, ?_, ?_⟩
  · intro p hp
    simp only [headCftp] at hp ⊢
    rw [weight_getD (lt_of_lt_of_le (mem_posIndices.mp hp).1 hyl), weightOf, if_neg htf, if_pos hp,
      (recordAt_ok hok p).2]
  · intro n hn
    simp only [headCftp] at hn ⊢
    rw [weight_getD (lt_of_lt_of_le (mem_negIndices.mp hn).1 hyl), weightOf, if_neg htf, if_neg]
    · obtain ⟨h1, h2⟩ := recordAt_ok hok n
      rw [Finset.card_sdiff_of_subset h1, Finset.card_range, Nat.cast_sub, h2]
      simpa using Finset.card_le_card h1
    · intro h
      have a := (mem_negIndices.mp hn).2
      have b := (mem_posIndices.mp h).2
      omega

/-! ### C58 -/

theorem expect_headSampleIdx' {c : Cftp} (hd : c.Dominated) {rows : List (List ℕ)}
    (hW : c.W = discrimWeight rows) {order : Finset ℕ → List ℕ} (ho : Traverses order)
    (f : Py (Option ℕ × CftpState) → ℝ) :
    (headSampleIdx order c rows reset).expect f =
      (1 - (1 - c.totalW / c.totalBar) ^ c.horizon) *
        ((∑ p ∈ c.posList.toFinset, ∑ n ∈ c.negList.toFinset,
          ∑ id ∈ recordAt rows p \ recordAt rows n, f (.ok (some id, reset))) / c.totalW) +
      (1 - c.totalW / c.totalBar) ^ c.horizon * f (.ok (none, reset)) := by
  unfold headSampleIdx
  rw [RandR.bind_eq, RandR.expect_bind, expect_sample' hd]
  congr 1
  congr 2
  apply Finset.sum_congr rfl
  intro p _
  apply Finset.sum_congr rfl
  intro n _
  rw [hW]
  exact after_head ho rows f (p, n) reset _ rfl

theorem sum_space {space : List (Finset ℤ)} (hnd : space.Nodup) (F : Finset ℤ → ℝ) :
    ∑ id ∈ Finset.range space.length, F (space.getD id ∅) = ∑ T ∈ space.toFinset, F T := by
  rw [List.sum_toFinset _ hnd]
  have : space.map F = (List.range space.length).map fun id => F (space.getD id ∅) := by
    apply List.ext_getElem
    · simp
    · intro i h1 h2
      have hi : i < space.length := by simpa using h1
      simp [List.getD, hi]
  rw [this, ← List.sum_toFinset _ List.nodup_range, List.toFinset_range]

/-- The expectation of any quantity of the result of `sample_once`, in terms of the data. -/
theorem expect_headSampleOnce {env : HeadEnv} (he : env.Good) {X : Cmp} {s : HeadSampler}
    {space : List (Finset ℤ)} (hnd : space.Nodup) {y : List ℤ} (hy : y.toFinset = {0, 1})
    (hyl : y.length ≤ X.nMajor) {tight : Bool} (hl : s.lists = reset) (h1 : s.space = some space)
    (h2 : s.newRows = some (naiveNewRows X space))
    (h3 : s.cftp = some (headCftp tight space.length (naiveNewRows X space) X.nMajor y))
    (f : Py (Option (Finset ℤ) × HeadSampler) → ℝ) :
    (headCftp tight space.length (naiveNewRows X space) X.nMajor y).totalW =
      ∑ T ∈ space.toFinset, (separations X y T : ℝ) ∧
    (headSampleOnce env s).expect f =
      (1 - (1 - (∑ T ∈ space.toFinset, (separations X y T : ℝ)) /
          (headCftp tight space.length (naiveNewRows X space) X.nMajor y).totalBar) ^ 1024) *
        ((∑ T ∈ space.toFinset, (separations X y T : ℝ) * f (.ok (some T, s))) /
          ∑ T ∈ space.toFinset, (separations X y T : ℝ)) +
      (1 - (∑ T ∈ space.toFinset, (separations X y T : ℝ)) /
          (headCftp tight space.length (naiveNewRows X space) X.nMajor y).totalBar) ^ 1024 *
        f (.ok (none, s)) := by
  set c := headCftp tight space.length (naiveNewRows X space) X.nMajor y with hc
  have hok := naiveNewRows_ok X space
  have hd : c.Dominated := headCftp_dominated hok hyl
  have hU : ∀ p ∈ c.posList, recordAt (naiveNewRows X space) p ⊆ Finset.range space.length :=
    fun p _ => (recordAt_ok hok p).1
  have hsum : ∀ G : Finset ℤ → ℝ,
      ∑ p ∈ c.posList.toFinset, ∑ n ∈ c.negList.toFinset,
        ∑ id ∈ recordAt (naiveNewRows X space) p \ recordAt (naiveNewRows X space) n, G (space.getD id ∅) =
      ∑ T ∈ space.toFinset, (separations X y T : ℝ) * G T := by
    intro G
    rw [sum_pairCount _ _ _ (fun id => G (space.getD id ∅)) _ hU, ← sum_space hnd]
    apply Finset.sum_congr rfl
    intro id hid
    rw [Finset.mem_range] at hid
    rw [← pairCount_eq hy hyl hid]
    rfl
  have hZ : c.totalW = ∑ T ∈ space.toFinset, (separations X y T : ℝ) := by
    have := hsum fun _ => 1
    simp only [mul_one] at this
    rw [← this]
    unfold totalW
    apply Finset.sum_congr rfl
    intro p _
    apply Finset.sum_congr rfl
    intro n _
    simp [hc, headCftp, discrimWeight]
  have hH : c.horizon = 1024 := by
    have : Nat.log 2 1024 = 10 := by norm_num [Nat.log_eq_iff]
    simp [horizon, hc, headCftp, this]
  have hrs : ({ s with lists := reset } : HeadSampler) = s := by rw [← hl]
  refine ⟨hZ, ?_⟩
  rw [headSampleOnce_fitted h3 h2 h1, RandR.expect_bind, hl, expect_headSampleIdx' hd rfl he.1, hZ, hH]
  congr 1
  · congr 2
    rw [← hsum fun T => f (.ok (some T, s))]
    apply Finset.sum_congr rfl
    intro p hp
    apply Finset.sum_congr rfl
    intro n _
    apply Finset.sum_congr rfl
    intro id hid
    have hlt : id < space.length := by
      have := (recordAt_ok hok p).1 (Finset.mem_sdiff.mp hid).1
      exact Finset.mem_range.mp this
    simp only [RandR.after, RandR.expect_bind, RandR.lift, RandR.expect]
    rw [pyGet_getD hlt ∅]
    simp only [RandR.pure_eq, RandR.expect]
    rw [hrs]
  · congr 1
    simp only [RandR.after, RandR.pure_eq, RandR.expect]
    rw [hrs]

/-- **C58** Fitting. In every reachable state `fit` succeeds exactly when the labels are 0 and 1, both
occur, there are not more labels than rows and there is a feature; a missing label value is an `AssertionError`. The sample
space consists, each once, of the probable cliques of the graph of the feature matrix. Data without
features cannot be fitted: networkx raises. -/
theorem C58_fit (env : HeadEnv) (he : env.Good) (X : Cmp) (hX : X.Binary) (hd : X.nMinor < env.depth)
    (s : HeadSampler) (hs : HeadReach env X s) (y : List ℤ) :
    ((∃ s', headFit env s X y = .ok s') ↔
      y.toFinset = {0, 1} ∧ y.length ≤ X.nMajor ∧ 0 < X.nMinor) ∧
    (y.toFinset ≠ {0, 1} → headFit env s X y = .error .assertionError) ∧
    (y.toFinset = {0, 1} → X.nMinor = 0 → headFit env s X y = .error .exception) ∧
    ∀ s', headFit env s X y = .ok s' → ∃ g space, buildGraph X.flip = .ok g ∧ s'.space = some space ∧
      space.Nodup ∧ ∀ T, T ∈ space ↔ ∃ U, g.Probable s.minProba U ∧ T = intSet U := by
  have hi := headInv_of_reach he hX hd hs
  refine ⟨⟨?_, ?_⟩, ?_, ?_, ?_⟩
  · rintro ⟨s', h⟩
    obtain ⟨_, hb, h1, h2, -⟩ := inv_fit he hX hd hi h
    exact ⟨h1, h2, columns_of_build hX hb⟩
  · rintro ⟨h1, h2, hc⟩
    obtain ⟨g, space, hg, hb, hnd, hmem⟩ := buildSpaceAndRows_ok he s hX hc hd
    exact ⟨_, headFit_of h1 (by rw [spaceAndRows_eq hi, hb]) (naiveNewRows_length X space) h2⟩
  · intro h
    unfold headFit checkLabels
    rw [if_neg h]
    rfl
  · intro h hc
    unfold headFit checkLabels
    rw [if_pos h, spaceAndRows_eq hi, buildSpaceAndRows_empty s hX hc]
    rfl
  · intro s' h
    obtain ⟨space', hb', -, -, rfl⟩ := inv_fit he hX hd hi h
    obtain ⟨g, space, hg, hb, hnd, hmem⟩ := buildSpaceAndRows_ok he s hX (columns_of_build hX hb') hd
    rw [hb] at hb'
    cases hb'
    exact ⟨g, _, hg, rfl, hnd, hmem⟩

/-- **C58** After any history of fits and samples on the matrix, once fitted with labels `y`,
`sample_once` returns the feature set `T` with probability proportional to its discriminativity, the
number of (positive, negative) row pairs that it separates. With probability `1 - success` it returns
`None`; the sampler is left in the same state. -/
theorem C58_heads (env : HeadEnv) (he : env.Good) (X : Cmp) (hX : X.Binary) (hd : X.nMinor < env.depth)
    (s s' : HeadSampler) (hs : HeadReach env X s) (y : List ℤ) (hf : headFit env s X y = .ok s') :
    ∃ space c success, s'.space = some space ∧ s'.cftp = some c ∧
      success = 1 - (1 - (∑ U ∈ space.toFinset, (separations X y U : ℝ)) /
        ((c.posList.map c.wPos).sum * (c.negList.map c.wNeg).sum)) ^ 1024 ∧
      (∀ T ∈ space, (headSampleOnce env s').prob (.ok (some T, s')) =
        success * ((separations X y T : ℝ) / ∑ U ∈ space.toFinset, (separations X y U : ℝ))) ∧
      (headSampleOnce env s').prob (.ok (none, s')) = 1 - success := by
  classical
  have hi := headInv_of_reach he hX hd hs
  obtain ⟨g, space, hg, hb, hnd, hmem⟩ := buildSpaceAndRows_ok he s hX (columns_of_fit he hX hd hs hf) hd
  obtain ⟨space', hb', hy, hyl, rfl⟩ := inv_fit he hX hd hi hf
  rw [hb] at hb'
  cases hb'
  refine ⟨space, _, _, rfl, rfl, rfl, ?_, ?_⟩
  · intro T hT
    unfold RandR.prob
    rw [(expect_headSampleOnce he hnd hy hyl rfl rfl rfl rfl _).2]
    rw [if_neg (by simp), mul_zero, add_zero]
    congr 2
    rw [Finset.sum_eq_single T]
    · rw [if_pos rfl, mul_one]
    · intro U _ hU
      rw [if_neg, mul_zero]
      intro e
      exact hU (by simpa using e)
    · intro h
      exact absurd (List.mem_toFinset.mpr hT) h
  · unfold RandR.prob
    rw [(expect_headSampleOnce he hnd hy hyl rfl rfl rfl rfl _).2]
    rw [if_pos rfl]
    have h0 : ∀ (F : Finset ℤ → ℝ), (∀ U ∈ space.toFinset, F U = 0) → ∑ U ∈ space.toFinset, F U = 0 :=
      fun F h => Finset.sum_eq_zero h
    rw [h0 (fun U => _ * _)]
    · rw [zero_div, mul_zero, zero_add, mul_one, sub_sub_cancel]
      rfl
    · intro U _
      rw [if_neg (by simp), mul_zero]

/-- **C58** Everything `sample_once` can do after a fit: return `None`, or a sample that some positive
row contains and some negative row does not. It never raises and leaves the sampler unchanged. -/
theorem C58_outcomes (env : HeadEnv) (he : env.Good) (X : Cmp) (hX : X.Binary) (hd : X.nMinor < env.depth)
    (s s' : HeadSampler) (hs : HeadReach env X s) (y : List ℤ) (hf : headFit env s X y = .ok s')
    (x : Py (Option (Finset ℤ) × HeadSampler)) (h : (headSampleOnce env s').Outcome x) :
    x = .ok (none, s') ∨ ∃ T space, s'.space = some space ∧ T ∈ space ∧ x = .ok (some T, s') ∧
      ∃ i j, y[i]? = some 1 ∧ y[j]? = some 0 ∧ RowContains X i T ∧ ¬ RowContains X j T := by
  have hi := headInv_of_reach he hX hd hs
  obtain ⟨space, hb, hy, hyl, rfl⟩ := inv_fit he hX hd hi hf
  rw [headSampleOnce_fitted rfl rfl rfl, RandR.outcome_bind] at h
  have hok := naiveNewRows_ok X space
  have hdom : (headCftp s.tight space.length (naiveNewRows X space) X.nMajor y).Dominated :=
    headCftp_dominated hok hyl
  rcases h with ⟨r, hr, h⟩ | ⟨e, hr, -⟩
  · rcases headSampleIdx_lists he.1 hdom rfl hr with e | ⟨id, p, n, e, hp, hn, h1, h2⟩
    · cases e
      exact Or.inl h
    · cases e
      right
      have hp' := mem_posIndices.mp hp
      have hn' := mem_negIndices.mp hn
      rw [recordAt_naive X space (by omega)] at h1 h2
      simp only [RandR.outcome_bind, RandR.lift, pyGet_getD h1.1 ∅] at h
      rcases h with ⟨T, hT, h⟩ | ⟨e, h, -⟩
      · cases hT
        refine ⟨_, space, rfl, ?_, h, p, n, ?_, ?_, h1.2, fun hc => h2 ⟨h1.1, hc⟩⟩
        · rw [getD_lt h1.1]; exact List.getElem_mem _
        · rcases label_values hy hp'.1 with h3 | h3
          · omega
          · rw [getD_lt hp'.1] at h3
            rw [List.getElem?_eq_getElem hp'.1, h3]
        · have h3 := hn'.2
          rw [getD_lt hn'.1] at h3
          rw [List.getElem?_eq_getElem hn'.1, h3]
      · cases h
  · rcases headSampleIdx_lists he.1 hdom rfl hr with e' | ⟨id, p, n, e', -⟩ <;> cases e'

/-- On the example with labels 1, 0, 0: {0, 1} separates both pairs, {0} and {1} one pair each. -/
example : ∃ s', headFit (someEnv 10) (HeadSampler.init true (1 / 10) true) headMatrix [1, 0, 0] = .ok s' ∧
    HeadReach (someEnv 10) headMatrix s' := by
  have h := (C58_fit (someEnv 10) (someEnv_good 10) headMatrix headMatrix_binary (by decide)
    _ (.init true (1 / 10) true) [1, 0, 0]).1.mpr ⟨by decide, by decide⟩
  obtain ⟨s', h⟩ := h
  exact ⟨s', h, .fit _ _ _ (.init true (1 / 10) true) h⟩

/-! ### C73: the sample space is built once -/

/-- **C73** After a successful `fit`, a later `fit` uses the feature matrix it is given only for its
number of rows: it reuses the samples of the first matrix, so that fitting with another matrix of the
same size gives the very same sampler as fitting with the first one. -/
theorem C73_refit_ignores_features (env : HeadEnv) (s : HeadSampler) (hsp : s.space ≠ none)
    (X X' : Cmp) (hn : X.nMajor = X'.nMajor) (y : List ℤ) :
    headFit env s X y = headFit env s X' y := by
  unfold headFit
  have : spaceAndRows env s X = spaceAndRows env s X' := by
    unfold spaceAndRows
    cases h : s.space with
    | none => exact absurd h hsp
    | some sp => cases s.newRows <;> rfl
  rw [this, hn]

/-- **C73** In particular the refitted sampler keeps the samples and the sample ids of the rows. -/
theorem C73_refit_keeps_space (env : HeadEnv) (s s' : HeadSampler) (space : List (Finset ℤ))
    (rows : List (List ℕ)) (hsp : s.space = some space) (hr : s.newRows = some rows) (X' : Cmp)
    (y : List ℤ) (h : headFit env s X' y = .ok s') : s'.space = some space ∧ s'.newRows = some rows := by
  unfold headFit at h
  have hsr : spaceAndRows env s X' = .ok (space, rows) := by
    unfold spaceAndRows
    rw [hsp, hr]
  rw [hsr] at h
  cases hc : checkLabels y with
  | error e => rw [hc] at h; cases h
  | ok u =>
    rw [hc] at h
    simp only [bind, Except.bind] at h
    split at h
    · cases h
    · split at h
      · cases h
      · cases h
        exact ⟨rfl, rfl⟩

/-- A sampler fitted once meets the hypothesis. -/
example : ∃ s', headFit (someEnv 10) (HeadSampler.init true (1 / 10) true) headMatrix [1, 0, 0] = .ok s' ∧
    s'.space ≠ none := by
  obtain ⟨s', h⟩ := (C58_fit (someEnv 10) (someEnv_good 10) headMatrix headMatrix_binary (by decide)
    _ (.init true (1 / 10) true) [1, 0, 0]).1.mpr ⟨by decide, by decide⟩
  obtain ⟨space, -, -, -, rfl⟩ := inv_fit (someEnv_good 10) headMatrix_binary (by decide)
    (headInv_of_reach (someEnv_good 10) headMatrix_binary (by decide) (.init true (1 / 10) true)) h
  exact ⟨_, h, by simp⟩

/-- **C58.** Sampling before the first `fit` raises `AttributeError`, for any number of samples but none. -/
theorem C58_unfitted (env : HeadEnv) (doPrune : Bool) (minProba : ℚ) (tight : Bool) (k : ℕ) :
    headSampleOnce env (HeadSampler.init doPrune minProba tight) = .raise .attributeError ∧
    headSample env (k + 1) (HeadSampler.init doPrune minProba tight) = .raise .attributeError :=
  ⟨rfl, rfl⟩

end Verif
