/-
What many heads per tail do to a batch.
-/
import Verif.Props.BestOf

namespace Verif

/-- **C159** The law of the tails of a complete batch. For every set of tails: given that candidate generation returns, all
rules of the batch have their tails in the set with probability `(G / S) ^ tails`, where `S` is the sum over all tails of
`P(T) (1 - noHead T) ^ heads` and `G` the part of that sum that belongs to the set. -/
theorem C159_tail_law (env : LearnEnv) (he : env.Good) (X Y : Cmp) (hD : LearnData env X Y) (pf pl : ℚ)
    (us : List (List ℕ × List ℤ)) (s : UState) (hs : TailAfter env.toHeadEnv pl true Y us s)
    (hpos : 0 < ∑ T ∈ samplesOf Y pl, openArea Y us T) (h : HeadSampler) (hh : HeadReach env.toHeadEnv X h)
    (ht : h.tight = true) (hm : h.minProba = pf) (nTails nHeads : ℕ) (hn : 0 < nHeads)
    (A : Finset ℤ → Prop) [DecidablePred A] :
    (learnGen env X X.flip Y.flip nHeads s nTails h []).probOf (Returned fun batch => ∀ b ∈ batch, A b.tail.toFinset) /
      (learnGen env X X.flip Y.flip nHeads s nTails h []).probOf (Returned fun _ => True) =
    ((∑ T ∈ (samplesOf Y pl).filter A, tailChance Y pl us T * (1 - noHead X Y pf T) ^ nHeads) /
      ∑ T ∈ samplesOf Y pl, tailChance Y pl us T * (1 - noHead X Y pf T) ^ nHeads) ^ nTails := by
  classical
  rw [C123_within env he X Y hD pf pl us s hs hpos h hh ht hm nTails nHeads hn (fun _ T => A T),
    (C123_returns env he X Y hD pf pl us s hs hpos h hh ht hm nTails nHeads hn).1, div_pow]
  congr 2
  rw [Finset.sum_filter]
  refine Finset.sum_congr rfl fun T _ => ?_
  by_cases hA : A T
  · simp only [hA, Finset.filter_true, if_true, head_complement]
  · simp [hA, zero_pow hn.ne']

/-- **C159** With ever more heads per tail, a batch that is returned has only tails for which the head sampler is least
likely to give up: the conditional probability tends to 1. -/
theorem C159_many_heads (env : LearnEnv) (he : env.Good) (X Y : Cmp) (hD : LearnData env X Y) (pf pl : ℚ)
    (us : List (List ℕ × List ℤ)) (s : UState) (hs : TailAfter env.toHeadEnv pl true Y us s)
    (h : HeadSampler) (hh : HeadReach env.toHeadEnv X h) (ht : h.tight = true) (hm : h.minProba = pf) (nTails : ℕ)
    (q : ℝ) (hq : q < 1) (hmin : ∀ T ∈ samplesOf Y pl, 0 < openArea Y us T → q ≤ noHead X Y pf T)
    (hatt : ∃ T ∈ samplesOf Y pl, 0 < openArea Y us T ∧ noHead X Y pf T = q) :
    Filter.Tendsto (fun nHeads =>
        (learnGen env X X.flip Y.flip nHeads s nTails h []).probOf
          (Returned fun batch => ∀ b ∈ batch, noHead X Y pf b.tail.toFinset = q) /
        (learnGen env X X.flip Y.flip nHeads s nTails h []).probOf (Returned fun _ => True))
      Filter.atTop (nhds 1) := by
  classical
  obtain ⟨T0, hT0, ha0, hq0⟩ := hatt
  have hpos : 0 < ∑ T ∈ samplesOf Y pl, openArea Y us T :=
    Finset.sum_pos' (fun _ _ => Nat.zero_le _) ⟨T0, hT0, ha0⟩
  have hw : ∀ T, 0 ≤ tailChance Y pl us T := fun T => tailChance_nonneg Y pl us T
  have hw0 : 0 < tailChance Y pl us T0 := by
    unfold tailChance
    exact div_pos (by exact_mod_cast ha0) (by exact_mod_cast hpos)
  set W : ℝ := ∑ T ∈ (samplesOf Y pl).filter (fun T => noHead X Y pf T = q), tailChance Y pl us T with hW
  have hWpos : 0 < W := Finset.sum_pos' (fun T _ => hw T) ⟨T0, Finset.mem_filter.mpr ⟨hT0, hq0⟩, hw0⟩
  have ha : 0 < 1 - q := by linarith
  have hterm : ∀ T ∈ samplesOf Y pl, Filter.Tendsto
      (fun m : ℕ => tailChance Y pl us T * ((1 - noHead X Y pf T) / (1 - q)) ^ m) Filter.atTop
      (nhds (if noHead X Y pf T = q then tailChance Y pl us T else 0)) := by
    intro T hT
    split_ifs with hTq
    · rw [hTq, div_self ha.ne']
      simp
    · rcases Nat.eq_zero_or_pos (openArea Y us T) with h0 | h0
      · have : tailChance Y pl us T = 0 := by simp [tailChance, h0]
        simp [this]
      · have hlt : q < noHead X Y pf T := lt_of_le_of_ne (hmin T hT h0) (Ne.symm hTq)
        have h1 := (noHead_range X Y pf T).2.1
        have := (tendsto_pow_atTop_nhds_zero_of_lt_one (div_nonneg (by linarith) ha.le)
          ((div_lt_one ha).mpr (by linarith : 1 - noHead X Y pf T < 1 - q))).const_mul (tailChance Y pl us T)
        rwa [mul_zero] at this
  have hS := tendsto_finsetSum (samplesOf Y pl) hterm
  rw [← Finset.sum_filter, ← hW] at hS
  have hlim := ((tendsto_const_nhds (x := W)).div hS hWpos.ne').pow nTails
  rw [div_self hWpos.ne', one_pow] at hlim
  refine hlim.congr' ?_
  filter_upwards [Filter.eventually_gt_atTop 0] with m hm0
  rw [C159_tail_law env he X Y hD pf pl us s hs hpos h hh ht hm nTails m hm0 (fun T => noHead X Y pf T = q)]
  congr 1
  have e1 : ∑ T ∈ (samplesOf Y pl).filter (fun T => noHead X Y pf T = q),
      tailChance Y pl us T * (1 - noHead X Y pf T) ^ m = W * (1 - q) ^ m := by
    rw [hW, Finset.sum_mul]
    exact Finset.sum_congr rfl fun T hT => by rw [(Finset.mem_filter.mp hT).2]
  have e2 : ∑ T ∈ samplesOf Y pl, tailChance Y pl us T * (1 - noHead X Y pf T) ^ m =
      (∑ T ∈ samplesOf Y pl, tailChance Y pl us T * ((1 - noHead X Y pf T) / (1 - q)) ^ m) * (1 - q) ^ m := by
    rw [Finset.sum_mul]
    refine Finset.sum_congr rfl fun T _ => ?_
    rw [div_pow, mul_assoc, div_mul_cancel₀ _ (pow_pos ha m).ne']
  rw [e1, e2, mul_div_mul_right _ _ (pow_pos ha m).ne']
  rfl

/-- **C159** So a rule whose tail is harder to find a head for than some other tail with uncovered area drops out: given
that the batch is returned, the probability that it contains the rule tends to 0. -/
theorem C159_rule_lost (env : LearnEnv) (he : env.Good) (X Y : Cmp) (hD : LearnData env X Y) (pf pl : ℚ)
    (us : List (List ℕ × List ℤ)) (s : UState) (hs : TailAfter env.toHeadEnv pl true Y us s)
    (h : HeadSampler) (hh : HeadReach env.toHeadEnv X h) (ht : h.tight = true) (hm : h.minProba = pf) (nTails : ℕ)
    (T' : Finset ℤ) (hT' : T' ∈ samplesOf Y pl) (ha' : 0 < openArea Y us T') (H T : Finset ℤ)
    (hlt : noHead X Y pf T' < noHead X Y pf T) :
    Filter.Tendsto (fun nHeads =>
        (learnGen env X X.flip Y.flip nHeads s nTails h []).probOf (Returned (HasRule H T)) /
        (learnGen env X X.flip Y.flip nHeads s nTails h []).probOf (Returned fun _ => True))
      Filter.atTop (nhds 0) := by
  classical
  have hpos : 0 < ∑ T ∈ samplesOf Y pl, openArea Y us T :=
    Finset.sum_pos' (fun _ _ => Nat.zero_le _) ⟨T', hT', ha'⟩
  -- a tail that is easiest
  obtain ⟨T1, hT1, hle⟩ := Finset.exists_min_image ((samplesOf Y pl).filter fun T => 0 < openArea Y us T)
    (fun T => noHead X Y pf T) ⟨T', Finset.mem_filter.mpr ⟨hT', ha'⟩⟩
  rw [Finset.mem_filter] at hT1
  have h1' := hle T' (Finset.mem_filter.mpr ⟨hT', ha'⟩)
  have hq1 : noHead X Y pf T1 < 1 := lt_of_le_of_lt h1' (lt_of_lt_of_le hlt (noHead_range X Y pf T).2.1)
  have hlim := C159_many_heads env he X Y hD pf pl us s hs h hh ht hm nTails (noHead X Y pf T1) hq1
    (fun U hU hUa => hle U (Finset.mem_filter.mpr ⟨hU, hUa⟩)) ⟨T1, hT1.1, hT1.2, rfl⟩
  have hlim' := hlim.const_sub 1
  rw [sub_self] at hlim'
  refine squeeze_zero (fun m => ?_) (fun m => ?_) hlim'
  · have hdis := (learnGen_discrete he hD hs m nTails h [] hh ht hm).1
    exact div_nonneg (hdis.probOf_nonneg _) (hdis.probOf_nonneg _)
  · have hdis := (learnGen_discrete he hD hs m nTails h [] hh ht hm).1
    have hR := hdis.probOf_nonneg (Returned fun _ => True)
    have hor : (learnGen env X X.flip Y.flip m s nTails h []).probOf (Returned (HasRule H T)) +
        (learnGen env X X.flip Y.flip m s nTails h []).probOf
          (Returned fun batch => ∀ b ∈ batch, noHead X Y pf b.tail.toFinset = noHead X Y pf T1) ≤
        (learnGen env X X.flip Y.flip m s nTails h []).probOf (Returned fun _ => True) := by
      unfold RandR.probOf
      rw [← hdis.expect_add]
      refine hdis.mono fun x _ => ?_
      by_cases hA : Returned (HasRule H T) x
      · obtain ⟨batch, h', rfl, b, hb, e1, e2⟩ := hA
        rw [if_pos ⟨batch, h', rfl, b, hb, e1, e2⟩, if_neg ?_, if_pos ⟨batch, h', rfl, trivial⟩, add_zero]
        rintro ⟨_, _, e, hall⟩
        cases e
        have := hall b hb
        rw [e2] at this
        linarith
      · rw [if_neg hA, zero_add]
        split_ifs with h1 h2 h2
        · exact le_rfl
        · obtain ⟨batch, h', e, -⟩ := h1
          exact absurd ⟨batch, h', e, trivial⟩ h2
        · exact zero_le_one
        · exact le_rfl
    rcases hR.eq_or_lt with h0 | h0
    · rw [← h0]
      simp
    · rw [le_sub_iff_add_le, ← add_div, div_le_one h0]
      exact hor

/-! ### A concrete case -/

/-- Three rows with features {0}, {1}, {1}. -/
def threeX : Cmp := { nMajor := 3, nMinor := 2, indptr := [0, 1, 2, 3], indices := [0, 1, 1], data := [1, 1, 1] }

/-- Their labels: {0}, {1}, none. -/
def threeY : Cmp := { nMajor := 3, nMinor := 2, indptr := [0, 1, 2, 2], indices := [0, 1], data := [1, 1] }

theorem threeX_binary : threeX.Binary :=
  { len_indptr := by decide, ptr_zero := by decide, ptr_mono := by decide, ptr_last := by decide,
    len_data := by decide, idx_lt := by decide, data_one := by decide, nodup := by decide }

theorem threeY_binary : threeY.Binary :=
  { len_indptr := by decide, ptr_zero := by decide, ptr_mono := by decide, ptr_last := by decide,
    len_data := by decide, idx_lt := by decide, data_one := by decide, nodup := by decide }

theorem three_data : LearnData (someLearnEnv 10) threeX threeY :=
  ⟨threeX_binary, threeY_binary, rfl, by decide, by decide, by decide, by decide, by decide⟩

theorem threeX_stored {i j : ℕ} : threeX.Stored i j ↔ i < 3 ∧ j = min i 1 := by
  constructor
  · intro h
    have hi : i < 3 := h.major_lt threeX_binary.toWF
    rw [← Cmp.mem_segIdx] at h
    have h0 : threeX.segIdx 0 = [0] := by decide
    have h1 : threeX.segIdx 1 = [1] := by decide
    have h2 : threeX.segIdx 2 = [1] := by decide
    refine ⟨hi, ?_⟩
    interval_cases i
    · rw [h0] at h; simpa using h
    · rw [h1] at h; simpa using h
    · rw [h2] at h; simpa using h
  · rintro ⟨hi, rfl⟩
    rw [← Cmp.mem_segIdx]
    interval_cases i <;> decide

theorem threeY_stored {i j : ℕ} : threeY.Stored i j ↔ i < 2 ∧ j = i := by
  constructor
  · intro h
    have hi : i < 3 := h.major_lt threeY_binary.toWF
    rw [← Cmp.mem_segIdx] at h
    have h0 : threeY.segIdx 0 = [0] := by decide
    have h1 : threeY.segIdx 1 = [1] := by decide
    have h2 : threeY.segIdx 2 = [] := by decide
    interval_cases i
    · rw [h0] at h; simpa using h
    · rw [h1] at h; simpa using h
    · rw [h2] at h; simp at h
  · rintro ⟨hi, rfl⟩
    rw [← Cmp.mem_segIdx]
    interval_cases j <;> decide

/-- For the label 0 every proposed pair is accepted. -/
theorem three_clean (pf : ℚ) : noHead threeX threeY pf {0} = 0 := by
  classical
  obtain ⟨g, hg, -⟩ := C48_build_graph threeX.flip (Cmp.flip_binary threeX_binary)
  have r0 : RowContains threeX 0 {0} := fun x hx => ⟨0, by simpa using hx, threeX_stored.mpr (by norm_num)⟩
  have l0 : RowContains threeY 0 {0} := fun x hx => ⟨0, by simpa using hx, threeY_stored.mpr (by norm_num)⟩
  have r1 : ¬ RowContains threeX 1 {0} := by
    intro h
    obtain ⟨j, e, hj⟩ := h 0 (by simp)
    have h2 := (threeX_stored.mp hj).2
    have h3 : j = 0 := by exact_mod_cast e.symm
    rw [h3] at h2
    simp at h2
  have l1 : ¬ RowContains threeY 1 {0} := by
    intro h
    obtain ⟨j, e, hj⟩ := h 0 (by simp)
    have h2 := (threeY_stored.mp hj).2
    have h3 : j = 0 := by exact_mod_cast e.symm
    omega
  have heq : (proposedPairs threeX threeY pf {0} : ℝ) =
      ∑ H ∈ samplesOf threeX pf, (rulePairs threeX threeY {0} H : ℝ) := by
    unfold proposedPairs
    push_cast
    refine Finset.sum_congr rfl fun H hH => ?_
    unfold rulePairs
    congr 2
    refine Finset.filter_congr fun ⟨a, b⟩ hab => ?_
    refine ⟨fun ⟨h1, h3⟩ => ⟨h1, h3, fun h4 => h3 ?_⟩, fun ⟨h1, h3, _⟩ => ⟨h1, h3⟩⟩
    obtain ⟨V, hV, rfl⟩ := (mem_samplesOf threeX_binary hg).mp hH
    obtain ⟨x, hx⟩ := Finset.nonempty_iff_ne_empty.mpr hV.1
    have hx' : (x : ℤ) ∈ intSet V := Finset.mem_image_of_mem _ hx
    obtain ⟨j, e, hj⟩ := h1.1 0 (by simp)
    have h5 := (threeY_stored.mp hj).2
    have h6 : j = 0 := by exact_mod_cast e.symm
    obtain ⟨j1, e1, hj1⟩ := h1.2 x hx'
    obtain ⟨j2, e2, hj2⟩ := h4 x hx'
    have h7 := (threeX_stored.mp hj1).2
    have h8 := (threeX_stored.mp hj2).2
    have h9 : j1 = j2 := by exact_mod_cast e1.symm.trans e2
    have hb : b = 0 := by
      rcases Nat.eq_zero_or_pos b with hb | hb
      · exact hb
      · rw [Nat.min_eq_right hb] at h8
        simp only at h5 h7
        have : a = 0 := by omega
        rw [this] at h7
        simp at h7
        omega
    rw [hb]
    exact l0
  have hp : (0 : ℝ) < ∑ H ∈ samplesOf threeX pf, (rulePairs threeX threeY {0} H : ℝ) := by
    refine Finset.sum_pos' (fun _ _ => by positivity)
      ⟨{0}, single_mem_samplesOf (j := 0) threeX_binary pf (by decide), ?_⟩
    have : 0 < rulePairs threeX threeY {0} {0} := by
      unfold rulePairs
      rw [Finset.card_pos]
      exact ⟨(0, 1), Finset.mem_filter.mpr ⟨by decide, ⟨l0, r0⟩, l1, r1⟩⟩
    exact_mod_cast this
  unfold noHead
  rw [heq, div_self hp.ne']
  norm_num

/-- Some tail that occurs drops out of the batches as the number of heads per tail grows. -/
example (pf pl : ℚ) : ∃ s, TailAfter (someLearnEnv 10).toHeadEnv pl true threeY [] s ∧
    ∃ T ∈ samplesOf threeY pl, 0 < openArea threeY [] T ∧ ∀ H nTails, Filter.Tendsto (fun nHeads =>
        (learnGen (someLearnEnv 10) threeX threeX.flip threeY.flip nHeads s nTails (HeadSampler.init true pf true)
          []).probOf (Returned (HasRule H T)) /
        (learnGen (someLearnEnv 10) threeX threeX.flip threeY.flip nHeads s nTails (HeadSampler.init true pf true)
          []).probOf (Returned fun _ => True)) Filter.atTop (nhds 0) := by
  have he := someLearnEnv_good 10
  obtain ⟨g, space, hg, hf, hnd, hmem⟩ := tailFit_ok he.heads pl true [] three_data.labels three_data.colsY
    three_data.depthY
  have hs : TailAfter (someLearnEnv 10).toHeadEnv pl true threeY [] _ := ⟨_, hf, rfl⟩
  have ha : 0 < openArea threeY [] {0} := by
    classical
    unfold openArea
    refine Finset.sum_pos' (fun _ _ => by positivity) ⟨0, by decide, ?_⟩
    have l0 : RowContains threeY 0 {0} := fun x hx => ⟨0, by simpa using hx, threeY_stored.mpr (by norm_num)⟩
    rw [if_pos l0]
    simp [uncoveredPart, CoveredBy]
  obtain ⟨T, hT, hTa, hTn⟩ := some_noHead (pf := pf) (pl := pl) three_data ⟨0, 0, threeY_stored.mpr (by norm_num)⟩
    (Or.inl ⟨1, 2, 1, 1, threeX_stored.mpr (by norm_num), threeX_stored.mpr (by norm_num),
      threeY_stored.mpr (by norm_num), by rw [threeY_stored]; norm_num⟩)
  refine ⟨_, hs, T, hT, hTa, fun H nTails => ?_⟩
  exact C159_rule_lost _ he threeX threeY three_data pf pl [] _ hs _ (.init true pf true) rfl rfl nTails {0}
    (single_mem_samplesOf (j := 0) threeY_binary pl (by decide)) ha H T (by rw [three_clean]; exact hTn)

end Verif
