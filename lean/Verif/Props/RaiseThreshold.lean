/-
What raising a probability threshold does to the candidates.
-/
import Verif.Props.ManyHeads

namespace Verif

/-- A higher threshold leaves fewer samples. -/
theorem samplesOf_anti (M : Cmp) {alpha beta : ℚ} (h : alpha ≤ beta) : samplesOf M beta ⊆ samplesOf M alpha := by
  classical
  unfold samplesOf
  refine Finset.image_subset_image fun U hU => ?_
  rw [Finset.mem_filter] at hU ⊢
  obtain ⟨h1, g, hg, h2, h3, h4⟩ := hU
  exact ⟨h1, g, hg, h2, h3, h4.imp_right h.trans⟩

/-- **C160** Raising the threshold for labels from `pl` to `pl'` is conditioning. For every set of rules: the probability
that a batch is returned whose rules all belong to the set, times the probability that all tails drawn with the low
threshold meet the high one, is the probability, with the low threshold, that a batch is returned whose rules all belong
to the set and whose tails all meet the high threshold. -/
theorem C160_label_threshold (env : LearnEnv) (he : env.Good) (X Y : Cmp) (hD : LearnData env X Y) (pf pl pl' : ℚ)
    (hle : pl ≤ pl') (us : List (List ℕ × List ℤ)) (s s' : UState) (hs : TailAfter env.toHeadEnv pl true Y us s)
    (hs' : TailAfter env.toHeadEnv pl' true Y us s') (hpos : 0 < ∑ T ∈ samplesOf Y pl', openArea Y us T)
    (h : HeadSampler) (hh : HeadReach env.toHeadEnv X h) (ht : h.tight = true) (hm : h.minProba = pf)
    (nTails nHeads : ℕ) (hn : 0 < nHeads) (A : Finset ℤ → Finset ℤ → Prop) :
    (learnGen env X X.flip Y.flip nHeads s' nTails h []).probOf
        (Returned fun batch => ∀ b ∈ batch, A b.head.toFinset b.tail.toFinset) *
      (∑ T ∈ samplesOf Y pl', tailChance Y pl us T) ^ nTails =
    (learnGen env X X.flip Y.flip nHeads s nTails h []).probOf
        (Returned fun batch => ∀ b ∈ batch, A b.head.toFinset b.tail.toFinset ∧ b.tail.toFinset ∈ samplesOf Y pl') := by
  classical
  have hsub := samplesOf_anti Y hle
  have hpos0 : 0 < ∑ T ∈ samplesOf Y pl, openArea Y us T :=
    hpos.trans_le (Finset.sum_le_sum_of_subset hsub)
  have hZ' : (0 : ℝ) < ∑ T ∈ samplesOf Y pl', (openArea Y us T : ℝ) := by exact_mod_cast hpos
  have hZ : (0 : ℝ) < ∑ T ∈ samplesOf Y pl, (openArea Y us T : ℝ) := by exact_mod_cast hpos0
  rw [C123_within env he X Y hD pf pl' us s' hs' hpos h hh ht hm nTails nHeads hn A,
    C123_within env he X Y hD pf pl us s hs hpos0 h hh ht hm nTails nHeads hn
      (fun H T => A H T ∧ T ∈ samplesOf Y pl'), ← mul_pow]
  congr 1
  rw [Finset.sum_mul, ← Finset.sum_subset hsub fun T _ hT => by simp [hT, zero_pow hn.ne']]
  refine Finset.sum_congr rfl fun T hT => ?_
  simp only [hT, and_true]
  unfold tailChance
  rw [← Finset.sum_div]
  field_simp

/-- **C160** Hence, given that a batch is returned, the law with the high threshold is the law with the low threshold
given that all tails meet the high one. -/
theorem C160_conditional (env : LearnEnv) (he : env.Good) (X Y : Cmp) (hD : LearnData env X Y) (pf pl pl' : ℚ)
    (hle : pl ≤ pl') (us : List (List ℕ × List ℤ)) (s s' : UState) (hs : TailAfter env.toHeadEnv pl true Y us s)
    (hs' : TailAfter env.toHeadEnv pl' true Y us s') (hpos : 0 < ∑ T ∈ samplesOf Y pl', openArea Y us T)
    (h : HeadSampler) (hh : HeadReach env.toHeadEnv X h) (ht : h.tight = true) (hm : h.minProba = pf)
    (nTails nHeads : ℕ) (hn : 0 < nHeads) (A : Finset ℤ → Finset ℤ → Prop) :
    (learnGen env X X.flip Y.flip nHeads s' nTails h []).probOf
        (Returned fun batch => ∀ b ∈ batch, A b.head.toFinset b.tail.toFinset) /
      (learnGen env X X.flip Y.flip nHeads s' nTails h []).probOf (Returned fun _ => True) =
    (learnGen env X X.flip Y.flip nHeads s nTails h []).probOf
        (Returned fun batch => ∀ b ∈ batch, A b.head.toFinset b.tail.toFinset ∧ b.tail.toFinset ∈ samplesOf Y pl') /
      (learnGen env X X.flip Y.flip nHeads s nTails h []).probOf
        (Returned fun batch => ∀ b ∈ batch, b.tail.toFinset ∈ samplesOf Y pl') := by
  have hall := C160_label_threshold env he X Y hD pf pl pl' hle us s s' hs hs' hpos h hh ht hm nTails nHeads hn
    fun _ _ => True
  simp only [true_and, implies_true] at hall
  have hshare : (∑ T ∈ samplesOf Y pl', tailChance Y pl us T) ^ nTails ≠ 0 := by
    refine (pow_pos ?_ _).ne'
    obtain ⟨T, hT, hTp⟩ := Finset.exists_ne_zero_of_sum_ne_zero hpos.ne'
    refine Finset.sum_pos' (fun T _ => tailChance_nonneg Y pl us T) ⟨T, hT, ?_⟩
    have hpos0 : 0 < ∑ T ∈ samplesOf Y pl, openArea Y us T :=
      hpos.trans_le (Finset.sum_le_sum_of_subset (samplesOf_anti Y hle))
    unfold tailChance
    exact div_pos (by exact_mod_cast Nat.pos_of_ne_zero hTp) (by exact_mod_cast hpos0)
  rw [← C160_label_threshold env he X Y hD pf pl pl' hle us s s' hs hs' hpos h hh ht hm nTails nHeads hn A, ← hall,
    mul_div_mul_right _ _ hshare]

/-- **C160** Raising the threshold for features from `pf` to `pf'` keeps the ratio of the probabilities of any two rules
with the same tail whose heads meet the high threshold. -/
theorem C160_feature_threshold (env : LearnEnv) (he : env.Good) (X Y : Cmp) (hD : LearnData env X Y) (pf pf' pl : ℚ)
    (hle : pf ≤ pf') (us : List (List ℕ × List ℤ)) (s : UState) (hs : TailAfter env.toHeadEnv pl true Y us s)
    (hpos : 0 < ∑ T ∈ samplesOf Y pl, openArea Y us T)
    (h : HeadSampler) (hh : HeadReach env.toHeadEnv X h) (ht : h.tight = true) (hm : h.minProba = pf)
    (h' : HeadSampler) (hh' : HeadReach env.toHeadEnv X h') (ht' : h'.tight = true) (hm' : h'.minProba = pf')
    (T : Finset ℤ) (hT : T ∈ samplesOf Y pl) (H₁ H₂ : Finset ℤ) (h₁ : H₁ ∈ samplesOf X pf') (h₂ : H₂ ∈ samplesOf X pf') :
    (learnGen env X X.flip Y.flip 1 s 1 h' []).probOf (Returned (HasRule H₁ T)) *
      (learnGen env X X.flip Y.flip 1 s 1 h []).probOf (Returned (HasRule H₂ T)) =
    (learnGen env X X.flip Y.flip 1 s 1 h' []).probOf (Returned (HasRule H₂ T)) *
      (learnGen env X X.flip Y.flip 1 s 1 h []).probOf (Returned (HasRule H₁ T)) := by
  have hsub := samplesOf_anti X hle
  rw [C123_one_rule env he X Y hD pf' pl us s hs hpos h' hh' ht' hm' H₁ h₁ T hT,
    C123_one_rule env he X Y hD pf' pl us s hs hpos h' hh' ht' hm' H₂ h₂ T hT,
    C123_one_rule env he X Y hD pf pl us s hs hpos h hh ht hm H₁ (hsub h₁) T hT,
    C123_one_rule env he X Y hD pf pl us s hs hpos h hh ht hm H₂ (hsub h₂) T hT]
  unfold headChance
  ring

theorem cliqueProb_range {g : UGraph ℚ} (hg : g.AllWeights fun w => 0 < w ∧ w ≤ 1) (U : Finset ℕ) :
    0 < g.cliqueProb U ∧ g.cliqueProb U ≤ 1 := by
  have hw : ∀ u v, 0 < (g.weight u v).getD 1 ∧ (g.weight u v).getD 1 ≤ 1 := by
    intro u v
    cases h : g.weight u v with
    | none => simp
    | some w => exact UGraph.weight_valid hg h
  unfold UGraph.cliqueProb
  exact ⟨Finset.prod_pos fun u _ => Finset.prod_pos fun v _ => (hw u v).1,
    Finset.prod_le_one (fun u _ => Finset.prod_nonneg fun v _ => (hw u v).1.le) fun u _ =>
      Finset.prod_le_one (fun v _ => (hw u v).1.le) fun v _ => (hw u v).2⟩

/-- **C160** The extremes. With a threshold above 1 the samples are the single columns. With a threshold of at most 0 they
are the non-empty sets of columns any two of which occur together in some row. -/
theorem C160_extremes (M : Cmp) (hM : M.Binary) (alpha : ℚ) (T : Finset ℤ) :
    (1 < alpha → (T ∈ samplesOf M alpha ↔ ∃ j < M.nMinor, T = {(j : ℤ)})) ∧
    (alpha ≤ 0 → (T ∈ samplesOf M alpha ↔ ∃ U : Finset ℕ, T = intSet U ∧ U ≠ ∅ ∧ (∀ j ∈ U, j < M.nMinor) ∧
      ∀ j ∈ U, ∀ k ∈ U, j ≠ k → ∃ i < M.nMajor, M.Stored i j ∧ M.Stored i k)) := by
  classical
  obtain ⟨g, hg, -, hw, hn, hadj⟩ := C48_build_graph M.flip (Cmp.flip_binary hM)
  rw [mem_samplesOf hM hg]
  constructor
  · intro ha
    constructor
    · rintro ⟨U, ⟨-, ⟨h2, -⟩, h3⟩, rfl⟩
      have hc : U.card = 1 := h3.resolve_right fun h => absurd (h.trans (cliqueProb_range hw U).2) (not_le.mpr ha)
      obtain ⟨j, rfl⟩ := Finset.card_eq_one.mp hc
      have := h2 j (by simp)
      rw [hn, List.mem_range, Cmp.flip_nMajor] at this
      exact ⟨j, this, by simp [intSet]⟩
    · rintro ⟨j, hj, rfl⟩
      exact (mem_samplesOf hM hg).mp (single_mem_samplesOf hM alpha hj)
  · intro ha
    have hcom : ∀ j k, (commonRows M.flip j k).Nonempty ↔ ∃ i < M.nMajor, M.Stored i j ∧ M.Stored i k := by
      intro j k
      unfold commonRows Finset.Nonempty
      simp only [Finset.mem_filter, Finset.mem_range, Cmp.flip_nMinor, Cmp.stored_flip hM.toWF]
    constructor
    · rintro ⟨U, ⟨h1, ⟨h2, h3⟩, -⟩, rfl⟩
      refine ⟨U, rfl, h1, fun j hj => ?_, fun j hj k hk hjk => ?_⟩
      · have := h2 j hj
        rwa [hn, List.mem_range, Cmp.flip_nMajor] at this
      · exact (hcom j k).mp ((hadj j k).mp (h3 j hj k hk hjk)).2.2.2
    · rintro ⟨U, rfl, h1, h2, h3⟩
      refine ⟨U, ⟨h1, ⟨fun j hj => ?_, fun j hj k hk hjk => ?_⟩, Or.inr (ha.trans (cliqueProb_range hw U).1.le)⟩, rfl⟩
      · rw [hn, List.mem_range, Cmp.flip_nMajor]
        exact h2 j hj
      · exact (hadj j k).mpr ⟨by simpa using h2 j hj, by simpa using h2 k hk, hjk, (hcom j k).mpr (h3 j hj k hk hjk)⟩

/-! ### A concrete case -/

/-- The labels {0, 1}, {0}, {1} for the rows of `threeX`. -/
def pairY : Cmp := { nMajor := 3, nMinor := 2, indptr := [0, 2, 3, 4], indices := [0, 1, 0, 1], data := [1, 1, 1, 1] }

theorem pairY_binary : pairY.Binary :=
  { len_indptr := by decide, ptr_zero := by decide, ptr_mono := by decide, ptr_last := by decide,
    len_data := by decide, idx_lt := by decide, data_one := by decide, nodup := by decide }

theorem pair_data : LearnData (someLearnEnv 10) threeX pairY :=
  ⟨threeX_binary, pairY_binary, rfl, by decide, by decide, by decide, by decide, by decide⟩

/-- A threshold of 2 instead of 0 removes the tail {0, 1} and leaves uncovered area. -/
example : ∃ s s', TailAfter (someLearnEnv 10).toHeadEnv 0 true pairY [] s ∧
    TailAfter (someLearnEnv 10).toHeadEnv 2 true pairY [] s' ∧ 0 < ∑ T ∈ samplesOf pairY 2, openArea pairY [] T ∧
    {0, 1} ∈ samplesOf pairY 0 ∧ {0, 1} ∉ samplesOf pairY 2 := by
  classical
  have he := someLearnEnv_good 10
  obtain ⟨_, _, -, hf, -⟩ := tailFit_ok he.heads 0 true [] pair_data.labels pair_data.colsY pair_data.depthY
  obtain ⟨_, _, -, hf', -⟩ := tailFit_ok he.heads 2 true [] pair_data.labels pair_data.colsY pair_data.depthY
  have h00 : pairY.Stored 0 0 := by rw [← Cmp.mem_segIdx]; decide
  have h01 : pairY.Stored 0 1 := by rw [← Cmp.mem_segIdx]; decide
  refine ⟨_, _, ⟨_, hf, rfl⟩, ⟨_, hf', rfl⟩, ?_, ?_, ?_⟩
  · refine Finset.sum_pos' (fun _ _ => Nat.zero_le _)
      ⟨{0}, single_mem_samplesOf (j := 0) pairY_binary 2 (by decide), ?_⟩
    unfold openArea
    refine Finset.sum_pos' (fun _ _ => by positivity) ⟨0, by decide, ?_⟩
    have l0 : RowContains pairY 0 {0} := fun x hx => ⟨0, by simpa using hx, h00⟩
    rw [if_pos l0]
    simp [uncoveredPart, CoveredBy]
  · rw [(C160_extremes pairY pairY_binary 0 _).2 le_rfl]
    refine ⟨{0, 1}, by decide, by decide, by decide, fun j hj k hk _ => ⟨0, by decide, ?_⟩⟩
    have all : ∀ j ∈ ({0, 1} : Finset ℕ), pairY.Stored 0 j := by
      intro j hj
      rw [Finset.mem_insert, Finset.mem_singleton] at hj
      rcases hj with rfl | rfl
      · exact h00
      · exact h01
    exact ⟨all j hj, all k hk⟩
  · rw [(C160_extremes pairY pairY_binary 2 _).1 (by norm_num)]
    rintro ⟨j, -, e⟩
    have := congrArg Finset.card e
    rw [Finset.card_singleton] at this
    revert this
    decide

end Verif
