/-
Lemmas on the law of the candidate rules.
-/
import Verif.Spec.Candidate
import Verif.Props.Learner
import Verif.Props.GroundTruth
import Verif.Props.Batch
import Verif.Lemmas.GiveUp
import Verif.Lemmas.Live

namespace Verif

theorem expect_attempt {α : Type} (m : RandR α) (f : Py (Py α) → ℝ) :
    m.attempt.expect f = m.expect fun r => f (.ok r) := by
  induction m with
  | done r => rfl
  | choice p k ih => simp only [RandR.attempt, RandR.expect, ih]
  | unif k ih => simp only [RandR.attempt, RandR.expect, ih]

/-- The expectation of a finite program as a sum over a set that contains its results. -/
theorem expect_toReal_sum {α : Type} [DecidableEq α] {m : Rand α} (hm : m.Proper) (f : Py α → ℝ)
    (S : Finset (Py α)) (hS : ∀ x, m.Outcome x → x ∈ S) :
    m.toReal.expect f = ∑ x ∈ S, (m.prob x : ℝ) * f x := by
  induction m with
  | done r =>
    rw [Finset.sum_eq_single r]
    · simp [Rand.toReal, RandR.expect, Rand.prob, Rand.expect]
    · intro b _ hb
      simp [Rand.prob, Rand.expect, hb.symm]
    · intro h
      exact absurd (hS r rfl) h
  | choice p k ih =>
    have e : ∀ x, ((Rand.choice p k).prob x : ℝ) = ∑ i : Fin p.length, (p[i] : ℝ) * ((k i).prob x : ℝ) := by
      intro x
      unfold Rand.prob
      simp only [Rand.expect]
      push_cast
      rfl
    simp only [Rand.toReal, RandR.expect, e, Finset.sum_mul]
    rw [Finset.sum_comm]
    refine Fintype.sum_equiv (finCongr (by simp)) _ _ fun i => ?_
    have hi : (i : ℕ) < p.length := by simpa using i.2
    simp only [finCongr_apply, Fin.getElem_fin, Fin.val_cast, List.getElem_map]
    rcases (hm.1 p[(i : ℕ)] (List.getElem_mem _)).eq_or_lt with h0 | h0
    · rw [← h0]; simp
    · rw [ih i (hm.2.2 i) fun x hx => hS x ⟨i, hi, h0, hx⟩, Finset.mul_sum]
      exact Finset.sum_congr rfl fun _ _ => by ring

theorem mem_samplesOf {M : Cmp} (hM : M.Binary) {alpha : ℚ} {g : UGraph ℚ} (hg : buildGraph M.flip = .ok g)
    {T : Finset ℤ} : T ∈ samplesOf M alpha ↔ ∃ U, g.Probable alpha U ∧ T = intSet U := by
  classical
  obtain ⟨g', hg', -, -, hn, -⟩ := C48_build_graph M.flip (Cmp.flip_binary hM)
  rw [hg] at hg'
  cases hg'
  unfold samplesOf
  simp only [Finset.mem_image, Finset.mem_filter, Finset.mem_powerset]
  constructor
  · rintro ⟨U, ⟨-, g', hg', hU⟩, rfl⟩
    rw [hg] at hg'
    cases hg'
    exact ⟨U, hU, rfl⟩
  · rintro ⟨U, hU, rfl⟩
    refine ⟨U, ⟨?_, g, hg, hU⟩, rfl⟩
    intro j hj
    have := hU.2.1.1 j hj
    rw [hn, Cmp.flip_nMajor, List.mem_range] at this
    exact Finset.mem_range.mpr this

/-! ### Tails -/

theorem tail_area {env : LearnEnv} (he : env.Good) {X Y : Cmp} (hD : LearnData env X Y) {pl : ℚ}
    {us : List (List ℕ × List ℤ)} {s : UState} (hs : TailAfter env.toHeadEnv pl true Y us s) :
    s.space.toFinset = samplesOf Y pl ∧
    (∀ T ∈ s.space, sampleArea s.space s.newRows us T = openArea Y us T) ∧
    totalArea s.space s.newRows us = ∑ T ∈ samplesOf Y pl, openArea Y us T := by
  classical
  obtain ⟨g, hg, -, hrows, hnd, hmem⟩ := tailAfter_space he.heads hD.labels hD.depthY hs
  have hsp : s.space.toFinset = samplesOf Y pl := by
    ext T
    rw [List.mem_toFinset, hmem, mem_samplesOf hD.labels hg]
  have hlen : s.newRows.length = Y.nMajor := by rw [hrows, naiveNewRows_length]
  have hrow : ∀ i < Y.nMajor, s.newRows.getD i [] =
      (List.range s.space.length).filter fun id => decide (RowContains Y i (s.space.getD id ∅)) := by
    intro i hi
    rw [hrows, List.getD_eq_getElem?_getD, (C40_naive_exact Y s.space).2 i hi]; rfl
  have harea : ∀ T ∈ s.space, sampleArea s.space s.newRows us T = openArea Y us T := by
    intro T hT
    obtain ⟨j, hj, rfl⟩ := List.getElem_of_mem hT
    unfold sampleArea openArea
    rw [hlen]
    refine Finset.sum_congr rfl fun i hi => ?_
    rw [hrow i (Finset.mem_range.mp hi), List.filter_filter]
    have : ∀ id ∈ List.range s.space.length,
        (decide (s.space.getD id ∅ = s.space[j]) && decide (RowContains Y i (s.space.getD id ∅))) =
          (decide (id = j) && decide (RowContains Y i s.space[j])) := by
      intro id hid
      rw [List.mem_range] at hid
      rw [getD_lt hid]
      by_cases e : id = j
      · subst e; simp
      · have : s.space[id] ≠ s.space[j] := fun h => e ((List.Nodup.getElem_inj_iff hnd).mp h)
        simp [e, this]
    rw [List.filter_congr this]
    by_cases hc : RowContains Y i s.space[j]
    · rw [if_pos hc]
      have h1 : ((List.range s.space.length).filter fun id => decide (id = j) && decide (RowContains Y i s.space[j]))
          = [j] := by
        simp only [hc, decide_true, Bool.and_true]
        have := List.filter_eq (l := List.range s.space.length) j
        rw [List.count_eq_one_of_mem List.nodup_range (List.mem_range.mpr hj)] at this
        simpa using this
      rw [h1]; simp
    · simp [hc]
  refine ⟨hsp, harea, ?_⟩
  rw [← hsp]
  rw [Finset.sum_congr rfl fun T hT => (harea T (List.mem_toFinset.mp hT)).symm]
  unfold totalArea sampleArea rowArea
  rw [Finset.sum_comm]
  refine Finset.sum_congr rfl fun i hi => ?_
  rw [Finset.mem_range, hlen] at hi
  rw [hrow i hi]
  set l := (List.range s.space.length).filter fun id => decide (RowContains Y i (s.space.getD id ∅)) with hl
  have hlt : ∀ id ∈ l, id < s.space.length := by
    intro id hid
    rw [hl, List.mem_filter, List.mem_range] at hid
    exact hid.1
  clear_value l
  clear hl
  induction l with
  | nil => simp
  | cons a l ih =>
    have ha : s.space.getD a ∅ ∈ s.space.toFinset := by
      rw [getD_lt (hlt a (by simp))]; simp
    rw [List.map_cons, List.sum_cons, ih fun id hid => hlt id (by simp [hid])]
    have e1 : ∀ T ∈ s.space.toFinset.erase (s.space.getD a ∅),
        ((a :: l).filter fun id => decide (s.space.getD id ∅ = T)).length * (uncoveredPart us i T).card =
          (l.filter fun id => decide (s.space.getD id ∅ = T)).length * (uncoveredPart us i T).card := by
      intro T hT
      rw [List.filter_cons, if_neg (by simpa using (Finset.ne_of_mem_erase hT).symm)]
    rw [← Finset.add_sum_erase _ _ ha, ← Finset.add_sum_erase _ _ ha, Finset.sum_congr rfl e1,
      List.filter_cons, if_pos (by simp), List.length_cons]
    ring

/-- What a tail draw contributes to an expectation. -/
theorem tail_expect {env : LearnEnv} (he : env.Good) {X Y : Cmp} (hD : LearnData env X Y) {pl : ℚ}
    {us : List (List ℕ × List ℤ)} {s : UState} (hs : TailAfter env.toHeadEnv pl true Y us s)
    (hpos : 0 < ∑ T ∈ samplesOf Y pl, openArea Y us T) (f : Py (Finset ℤ) → ℝ) :
    (sampleOnce s).toReal.expect f = ∑ T ∈ samplesOf Y pl, tailChance Y pl us T * f (.ok T) := by
  classical
  obtain ⟨h1, h2, h3⟩ := tail_area he hD hs
  rw [← h3] at hpos
  rw [expect_toReal_sum (sampleOnce_proper s) f ((samplesOf Y pl).image Except.ok), Finset.sum_image
    (fun a _ b _ h => Except.ok.inj h)]
  · refine Finset.sum_congr rfl fun T hT => ?_
    congr 1
    rw [← h1, List.mem_toFinset] at hT
    obtain ⟨s0, h0, hu⟩ := hs
    obtain ⟨g, space, hg, hf, hnd, hmem⟩ := tailFit_ok he.heads pl true [] hD.labels hD.colsY hD.depthY
    rw [h0] at hf
    cases hf
    have hh := C36_proportional_to_uncovered_area space (naiveNewRows Y space) us s hu
    obtain ⟨-, e⟩ := fresh_applyUpdates_inv hu
    have e1 : s.space = space := by rw [e]; rfl
    have e2 : s.newRows = naiveNewRows Y space := by rw [e]; rfl
    rw [e1, e2] at h2 h3 hpos
    rw [e1] at hT
    rw [hh hpos T, h2 T hT, h3, tailChance]
    push_cast
    rfl
  · intro x hx
    rcases tail_outcome he.heads hD.labels hD.depthY hD.pos hs hx with ⟨-, h0⟩ | ⟨T, rfl, hT, -⟩
    · omega
    · exact Finset.mem_image_of_mem _ (by rw [← h1]; exact List.mem_toFinset.mpr hT)

/-! ### Heads -/

theorem separations_tail {X Y : Cmp} (T H : Finset ℤ) :
    separations X (tailColumn Y T) H = rulePairs X Y T H := by
  classical
  unfold separations rulePairs
  rw [tailColumn_length]
  congr 1
  ext ⟨i, j⟩
  simp only [Finset.mem_filter, Finset.mem_product, Finset.mem_range, (tailColumn_get Y T _).1,
    (tailColumn_get Y T _).2]
  tauto

theorem tailColumn_pos (Y : Cmp) (T : Finset ℤ) (i : ℕ) :
    (i ∈ posIndices (tailColumn Y T) ↔ i < Y.nMajor ∧ RowContains Y i T) ∧
    (i ∈ negIndices (tailColumn Y T) ↔ i < Y.nMajor ∧ ¬ RowContains Y i T) := by
  classical
  rw [mem_posIndices, mem_negIndices, tailColumn_length]
  by_cases hi : i < Y.nMajor
  · have hd : (tailColumn Y T).getD i 0 = if RowContains Y i T then 1 else 0 := by
      rw [List.getD_eq_getElem?_getD]
      by_cases hc : RowContains Y i T
      · rw [if_pos hc, (tailColumn_get Y T i).1.mpr ⟨hi, hc⟩]; rfl
      · rw [if_neg hc, (tailColumn_get Y T i).2.mpr ⟨hi, hc⟩]; rfl
    rw [hd]
    by_cases hc : RowContains Y i T <;> simp [hi, hc]
  · simp [hi]

theorem totalBar_tail {X Y : Cmp} (hn : X.nMajor = Y.nMajor) {pf : ℚ} {space : List (Finset ℤ)}
    (hnd : space.Nodup) (hsp : space.toFinset = samplesOf X pf) (T : Finset ℤ) :
    (headCftp true space.length (naiveNewRows X space) X.nMajor (tailColumn Y T)).totalBar =
      proposedPairs X Y pf T := by
  classical
  have hok := naiveNewRows_ok X space
  have h1 : ∀ p ∈ posIndices (tailColumn Y T),
      (headCftp true space.length (naiveNewRows X space) X.nMajor (tailColumn Y T)).wPos p =
        (((samplesOf X pf).filter fun H => RowContains X p H).card : ℝ) := by
    intro p hp
    have hp' := ((tailColumn_pos Y T p).1.mp hp).1
    simp only [headCftp]
    rw [weight_getD (by omega), weightOf, if_pos rfl, if_pos hp, ← (recordAt_ok hok p).2]
    congr 1
    rw [← hsp]
    refine Finset.card_bij (fun id _ => space.getD id ∅) ?_ ?_ ?_
    · intro id hid
      rw [recordAt_naive X space (by omega)] at hid
      rw [Finset.mem_filter, List.mem_toFinset]
      exact ⟨by rw [getD_lt hid.1]; exact List.getElem_mem _, hid.2⟩
    · intro a ha b hb e
      rw [recordAt_naive X space (by omega)] at ha hb
      rw [getD_lt ha.1, getD_lt hb.1] at e
      exact (List.Nodup.getElem_inj_iff hnd).mp e
    · intro H hH
      rw [Finset.mem_filter, List.mem_toFinset] at hH
      obtain ⟨id, hid, rfl⟩ := List.getElem_of_mem hH.1
      exact ⟨id, (recordAt_naive X space (by omega)).mpr ⟨hid, by rw [getD_lt hid]; exact hH.2⟩, getD_lt hid _⟩
  have h2 : ∀ n ∈ negIndices (tailColumn Y T),
      (headCftp true space.length (naiveNewRows X space) X.nMajor (tailColumn Y T)).wNeg n = 1 := by
    intro n hn'
    have hn'' := (tailColumn_pos Y T n).2.mp hn'
    simp only [headCftp]
    rw [weight_getD (by omega), weightOf, if_pos rfl, if_neg]
    intro h
    exact hn''.2 ((tailColumn_pos Y T n).1.mp h).2
  have e1 : (posIndices (tailColumn Y T)).toFinset = (Finset.range Y.nMajor).filter fun i => RowContains Y i T := by
    ext i; simp [(tailColumn_pos Y T i).1]
  have e2 : (negIndices (tailColumn Y T)).toFinset =
      (Finset.range Y.nMajor).filter fun i => ¬ RowContains Y i T := by
    ext i; simp [(tailColumn_pos Y T i).2]
  unfold Cftp.totalBar Cftp.posWeights Cftp.negWeights
  change ((posIndices (tailColumn Y T)).map _).sum * ((negIndices (tailColumn Y T)).map _).sum = _
  rw [List.map_congr_left h1, List.map_congr_left h2,
    ← List.sum_toFinset _ (posIndices_nodup _), ← List.sum_toFinset _ (negIndices_nodup _), e1, e2]
  unfold proposedPairs
  have e3 : ∀ H, ((Finset.range Y.nMajor ×ˢ Finset.range Y.nMajor).filter fun ij =>
      (RowContains Y ij.1 T ∧ RowContains X ij.1 H) ∧ ¬ RowContains Y ij.2 T).card =
      ((Finset.range Y.nMajor).filter fun i => RowContains Y i T ∧ RowContains X i H).card *
        ((Finset.range Y.nMajor).filter fun j => ¬ RowContains Y j T).card := by
    intro H
    rw [← Finset.card_product, ← Finset.filter_product]
  simp only [e3]
  rw [← Finset.sum_mul]
  push_cast
  congr 1
  · simp only [Finset.card_filter, ← Finset.filter_filter]
    push_cast
    rw [Finset.sum_comm]
  · simp

theorem headChance_total (X Y : Cmp) (pf : ℚ) (T : Finset ℤ) :
    ∑ H ∈ samplesOf X pf, headChance X Y pf T H + noHead X Y pf T = 1 := by
  unfold headChance
  rw [← Finset.mul_sum, ← Finset.sum_div]
  by_cases h0 : ∑ U ∈ samplesOf X pf, (rulePairs X Y T U : ℝ) = 0
  · unfold noHead
    rw [h0]; simp
  · rw [div_self h0]; ring

/-- What a batch of head draws contributes to the expectation of a combination of products over the
batch. -/
theorem head_expect {env : LearnEnv} (he : env.Good) {X Y : Cmp} (hD : LearnData env X Y) {pf : ℚ}
    {h h1 : HeadSampler} (hh : HeadReach env.toHeadEnv X h) (ht : h.tight = true) (hm : h.minProba = pf)
    {T : Finset ℤ} (hf : headFit env.toHeadEnv h X (tailColumn Y T) = .ok h1) {κ : Type} (K : Finset κ)
    (φ : κ → Option (Finset ℤ) → ℝ) (m : ℕ) (d : ℝ) (c : κ → ℝ)
    (F : Py (List (Option (Finset ℤ)) × HeadSampler) → ℝ)
    (hF : ∀ ls, ls.length = m → F (.ok (ls, h1)) = d + ∑ k ∈ K, c k * (ls.map (φ k)).prod) :
    (headSample env.toHeadEnv m h1).expect F =
      d + ∑ k ∈ K, c k * (∑ H ∈ samplesOf X pf, headChance X Y pf T H * φ k (some H) +
        noHead X Y pf T * φ k none) ^ m := by
  classical
  have hX := hD.features
  obtain ⟨g, space, hg, hb, hnd, hmem⟩ := buildSpaceAndRows_ok he.heads h hX hD.colsX hD.depthX
  obtain ⟨space', hb', hy, hyl, hs'⟩ := inv_fit he.heads hX hD.depthX (headInv_of_reach he.heads hX hD.depthX hh) hf
  rw [hb] at hb'
  cases hb'
  have hsp : space.toFinset = samplesOf X pf := by
    ext S
    rw [List.mem_toFinset, hmem, mem_samplesOf hX hg, hm]
  have hone : ∀ G : Py (Option (Finset ℤ) × HeadSampler) → ℝ, (headSampleOnce env.toHeadEnv h1).expect G =
      ∑ H ∈ samplesOf X pf, headChance X Y pf T H * G (.ok (some H, h1)) + noHead X Y pf T * G (.ok (none, h1)) := by
    intro G
    rw [(expect_headSampleOnce (s := h1) (tight := true) he.heads hnd hy hyl (by rw [hs']) (by rw [hs'])
      (by rw [hs']) (by rw [hs', ht]) G).2, totalBar_tail hD.rows hnd hsp, hsp]
    simp only [separations_tail]
    unfold headChance noHead
    congr 1
    rw [Finset.sum_div _ (fun x => (rulePairs X Y T x : ℝ) * G (.ok (some x, h1))), Finset.mul_sum]
    exact Finset.sum_congr rfl fun H _ => by rw [mul_assoc, div_mul_eq_mul_div]
  induction m generalizing c F with
  | zero =>
    rw [headSample, RandR.pure_eq, RandR.expect, hF [] rfl]
    simp
  | succ m ih =>
    set E : κ → ℝ := fun k => ∑ H ∈ samplesOf X pf, headChance X Y pf T H * φ k (some H) +
      noHead X Y pf T * φ k none with hE
    have key : ∀ o, RandR.after F (fun r => do
        let rest ← headSample env.toHeadEnv m r.2
        return (r.1 :: rest.1, rest.2)) (.ok (o, h1)) = d + ∑ k ∈ K, (c k * φ k o) * E k ^ m := by
      intro o
      simp only [RandR.after]
      rw [RandR.bind_eq, RandR.expect_bind]
      apply ih (fun k => c k * φ k o)
      intro ls hl
      simp only [RandR.after, RandR.pure_eq, RandR.expect]
      rw [hF _ (by simp [hl])]
      simp [mul_assoc]
    rw [headSample, RandR.bind_eq, RandR.expect_bind, hone, key]
    simp only [key, mul_add, Finset.sum_add_distrib]
    rw [← Finset.sum_mul]
    have e1 : ∑ H ∈ samplesOf X pf, headChance X Y pf T H * ∑ k ∈ K, c k * φ k (some H) * E k ^ m =
        ∑ k ∈ K, c k * E k ^ m * ∑ H ∈ samplesOf X pf, headChance X Y pf T H * φ k (some H) := by
      simp only [Finset.mul_sum]
      rw [Finset.sum_comm]
      exact Finset.sum_congr rfl fun k _ => Finset.sum_congr rfl fun H _ => by ring
    have e2 : noHead X Y pf T * ∑ k ∈ K, c k * φ k none * E k ^ m =
        ∑ k ∈ K, c k * E k ^ m * (noHead X Y pf T * φ k none) := by
      rw [Finset.mul_sum]
      exact Finset.sum_congr rfl fun k _ => by ring
    have e3 : ∑ k ∈ K, c k * E k ^ (m + 1) = ∑ k ∈ K, c k * E k ^ m *
        (∑ H ∈ samplesOf X pf, headChance X Y pf T H * φ k (some H)) +
        ∑ k ∈ K, c k * E k ^ m * (noHead X Y pf T * φ k none) := by
      rw [← Finset.sum_add_distrib]
      exact Finset.sum_congr rfl fun k _ => by rw [pow_succ, ← mul_add]; simp only [hE]; ring
    rw [e1, e2, e3]
    linear_combination d * headChance_total X Y pf T

/-! ### Candidate generation -/

theorem toFinset_new_head (H T : List ℤ) : (Rule.new H T).head.toFinset = H.toFinset := by
  ext z; simp [Rule.mem_new_head]

theorem toFinset_new_tail (H T : List ℤ) : (Rule.new H T).tail.toFinset = T.toFinset := by
  ext z; simp [Rule.mem_new_tail]

theorem toFinset_orderZ {env : LearnEnv} (he : env.Good) (T : Finset ℤ) : (env.orderZ T).toFinset = T := by
  ext z; rw [List.mem_toFinset, (he.ints T).2]

theorem headChance_universal {X Y : Cmp} {pf : ℚ} {T : Finset ℤ} (h : ∀ i < Y.nMajor, RowContains Y i T)
    (H : Finset ℤ) : headChance X Y pf T H = 0 := by
  classical
  have : rulePairs X Y T H = 0 := by
    unfold rulePairs
    rw [Finset.card_eq_zero, Finset.filter_eq_empty_iff]
    rintro ⟨i, j⟩ hij ⟨-, h2, -⟩
    exact h2 (h j (Finset.mem_range.mp (Finset.mem_product.mp hij).2))
  unfold headChance
  rw [this]
  simp

theorem tailChance_total {Y : Cmp} {pl : ℚ} {us : List (List ℕ × List ℤ)}
    (hpos : 0 < ∑ T ∈ samplesOf Y pl, openArea Y us T) : ∑ T ∈ samplesOf Y pl, tailChance Y pl us T = 1 := by
  unfold tailChance
  rw [← Finset.sum_div, div_self]
  exact_mod_cast hpos.ne'

open Classical in
/-- The containment law, from an arbitrary point of the loop, for combinations of events. -/
theorem learnGen_expect {env : LearnEnv} (he : env.Good) {X Y : Cmp} (hD : LearnData env X Y) {pf pl : ℚ}
    {us : List (List ℕ × List ℤ)} {s : UState} (hs : TailAfter env.toHeadEnv pl true Y us s)
    (hpos : 0 < ∑ T ∈ samplesOf Y pl, openArea Y us T) {m : ℕ} (hm0 : 0 < m) {κ : Type} (K : Finset κ)
    (A : κ → Finset ℤ → Finset ℤ → Prop) (d : ℝ) (a : κ → ℝ) :
    ∀ (n : ℕ) (h : HeadSampler) (rules : List BRule), HeadReach env.toHeadEnv X h → h.tight = true →
      h.minProba = pf →
      (learnGen env X X.flip Y.flip m s n h rules).expect
          (fun x => d + ∑ k ∈ K, a k *
            if Returned (fun batch => ∀ b ∈ batch, A k b.head.toFinset b.tail.toFinset) x then 1 else 0) =
        d + ∑ k ∈ K, a k * ((if ∀ b ∈ rules, A k b.head.toFinset b.tail.toFinset then 1 else 0) *
          roundChance X Y pf pl us m (A k) ^ n)
  | 0, h, rules, hh, ht, hm => by
    rw [learnGen, RandR.pure_eq, RandR.expect]
    congr 1
    refine Finset.sum_congr rfl fun k _ => ?_
    rw [pow_zero, mul_one]
    congr 1
    refine if_congr ?_ rfl rfl
    constructor
    · rintro ⟨b, h', e, hb⟩
      cases e
      exact hb
    · exact fun hb => ⟨_, _, rfl, hb⟩
  | n + 1, h, rules, hh, ht, hm => by
    have hX := hD.features
    have hY := hD.labels
    set c : κ → ℝ := fun k => roundChance X Y pf pl us m (A k) with hc
    set P : κ → List BRule → Prop := fun k batch => ∀ b ∈ batch, A k b.head.toFinset b.tail.toFinset with hP
    set f : Py (Py (List BRule) × HeadSampler) → ℝ := fun x => d + ∑ k ∈ K, a k *
      if Returned (P k) x then 1 else 0 with hfdef
    obtain ⟨h1, h2, h3⟩ := tail_area he hD hs
    rw [learnGen, RandR.bind_eq, RandR.expect_bind, expect_attempt, tail_expect he hD hs hpos]
    set r : κ → Finset ℤ → ℝ := fun k T => (∑ H ∈ (samplesOf X pf).filter fun H => A k H T,
      headChance X Y pf T H) ^ m with hr
    have hrhs : d + ∑ k ∈ K, a k * ((if P k rules then 1 else 0) * c k ^ (n + 1)) =
        ∑ T ∈ samplesOf Y pl, tailChance Y pl us T *
          (d + ∑ k ∈ K, (a k * ((if P k rules then 1 else 0) * c k ^ n)) * r k T) := by
      simp only [mul_add, Finset.sum_add_distrib]
      rw [← Finset.sum_mul, tailChance_total hpos, one_mul]
      congr 1
      simp only [Finset.mul_sum]
      rw [Finset.sum_comm]
      refine Finset.sum_congr rfl fun k _ => ?_
      rw [pow_succ]
      conv_lhs => rw [show c k ^ n * c k = c k ^ n * ∑ T ∈ samplesOf Y pl, tailChance Y pl us T * r k T from rfl]
      simp only [Finset.mul_sum]
      exact Finset.sum_congr rfl fun T _ => by ring
    change _ = d + ∑ k ∈ K, a k * ((if P k rules then 1 else 0) * c k ^ (n + 1))
    rw [hrhs]
    refine Finset.sum_congr rfl fun T hT => ?_
    by_cases h0 : openArea Y us T = 0
    · simp [tailChance, h0]
    congr 1
    -- the tail is not empty and names labels
    have hTne : T.Nonempty := by
      by_contra hcon
      rw [Finset.not_nonempty_iff_eq_empty] at hcon
      apply h0
      unfold openArea
      refine Finset.sum_eq_zero fun i _ => ?_
      simp [hcon, uncoveredPart]
    obtain ⟨g, hg, -, -, -, hmem⟩ := tailAfter_space he.heads hY hD.depthY hs
    have hTr : ∀ l ∈ T, 0 ≤ l ∧ l < Y.nMinor := by
      unfold samplesOf at hT
      obtain ⟨U, hU, rfl⟩ := Finset.mem_image.mp hT
      have hU' := Finset.mem_powerset.mp (Finset.mem_filter.mp hU).1
      intro l hl
      simp only [intSet, Finset.mem_image] at hl
      obtain ⟨j, hj, rfl⟩ := hl
      exact ⟨by positivity, by exact_mod_cast Finset.mem_range.mp (hU' hj)⟩
    obtain ⟨y, hy, hyT⟩ := collapse_tail he hY hTne hTr
    simp only [RandR.after]
    change (orRaise (conjunctiveCollapseV2 Y.flip (env.orderZ T)) h _).expect _ = _
    rw [hy]
    change (orRaise (headFit env.toHeadEnv h X (labels01 y)) h _).expect _ = _
    rw [hyT]
    obtain ⟨c1, c2, -⟩ := C58_fit env.toHeadEnv he.heads X hX hD.depthX h hh (tailColumn Y T)
    have herr : ∀ e h', f (.ok (.error e, h')) = d := by
      intro e h'
      simp only [hfdef]
      rw [Finset.sum_eq_zero, add_zero]
      intro k _
      rw [if_neg, mul_zero]
      rintro ⟨_, _, e', -⟩
      cases e'
    by_cases hboth : (tailColumn Y T).toFinset = {0, 1}
    swap
    · rw [c2 hboth]
      change f (.ok (.error .assertionError, h)) = _
      rw [herr]
      have huniv : ∀ i < Y.nMajor, RowContains Y i T := by
        by_contra hcon
        push Not at hcon
        apply hboth
        rw [tailColumn_both]
        refine ⟨?_, hcon⟩
        by_contra hcon'
        push Not at hcon'
        apply h0
        unfold openArea
        refine Finset.sum_eq_zero fun i hi => ?_
        rw [if_neg (hcon' i (Finset.mem_range.mp hi))]
      rw [Finset.sum_eq_zero, add_zero]
      intro k _
      simp only [hr]
      rw [Finset.sum_eq_zero fun H _ => headChance_universal huniv H, zero_pow hm0.ne', mul_zero]
    · obtain ⟨h1', hf⟩ := c1.mpr ⟨hboth, by rw [tailColumn_length, hD.rows], hD.colsX⟩
      rw [hf]
      have hr1 : HeadReach env.toHeadEnv X h1' := .fit _ _ _ hh hf
      have ht1 : h1'.tight = true := by rw [headFit_tight he.heads hX hD.depthX hh hf, ht]
      have hm1 : h1'.minProba = pf := by
        obtain ⟨-, -, -, -, rfl⟩ := inv_fit he.heads hX hD.depthX (headInv_of_reach he.heads hX hD.depthX hh) hf
        exact hm
      set φ : κ → Option (Finset ℤ) → ℝ := fun k o => match o with
        | none => 0
        | some H => if A k H T then 1 else 0 with hφ
      change RandR.expect _ ((headSample env.toHeadEnv m h1').attempt.bind _) = _
      rw [RandR.expect_bind, expect_attempt]
      have hcongr := RandR.expect_congr (headSample_proper env.toHeadEnv m h1')
        (f := fun r => RandR.after f
          (fun hs => orRaise hs h1' fun r =>
            orRaise (addHeads X.flip Y.flip (env.orderZ T) (r.1.map (Option.map env.orderZ)) rules) r.2
              fun rules' => learnGen env X X.flip Y.flip m s n r.2 rules') (.ok r))
        (g := fun r => match r with
          | .ok r => d + ∑ k ∈ K, (a k * ((if P k rules then 1 else 0) * c k ^ n)) * (r.1.map (φ k)).prod
          | .error _ => 0) ?_
      · rw [hcongr, head_expect he hD hh ht hm hf K φ m d
          (fun k => a k * ((if P k rules then 1 else 0) * c k ^ n)) _ (fun ls _ => rfl)]
        congr 1
        refine Finset.sum_congr rfl fun k _ => ?_
        simp only [hφ, hr, mul_zero, add_zero, mul_ite, mul_one]
        rw [Finset.sum_filter]
      · intro x hx
        obtain ⟨ls, rfl, -, hall⟩ := headSample_outcome he.heads hX hD.depthX hh hf m x hx
        simp only [RandR.after]
        change (orRaise (addHeads X.flip Y.flip (env.orderZ T) (ls.map (Option.map env.orderZ)) rules) h1'
          _).expect _ = _
        have hbind : ∀ o ∈ ls.map (Option.map env.orderZ), o = none ∨ ∃ hd, o = some hd ∧
            ∃ b, bindDataset (Rule.new hd (env.orderZ T)) X.flip Y.flip = .ok b := by
          intro o ho
          obtain ⟨o', ho', rfl⟩ := List.mem_map.mp ho
          rcases hall o' ho' with rfl | ⟨H, rfl, k, j, hk, -, hHk, hHj⟩
          · exact Or.inl rfl
          · right
            obtain ⟨b, hb, -⟩ := bind_supported hX hY hD.rows he.ints hTne hTr
              ((tailColumn_get Y T k).1.mp hk).2 hHk hHj
            exact ⟨_, rfl, b, hb⟩
        rcases addHeads_cases _ rules hbind with ⟨out, hout⟩ | ⟨hnone, hx'⟩
        · rw [hout]
          change RandR.expect _ (learnGen env X X.flip Y.flip m s n h1' out) = _
          rw [learnGen_expect he hD hs hpos hm0 K A d a n h1' out hr1 ht1 hm1]
          congr 1
          refine Finset.sum_congr rfl fun k _ => ?_
          obtain ⟨-, -, a3, a4, a5⟩ := addHeads_ok hout
          have hsome : ∀ o ∈ ls, ∃ H, o = some H ∧ ∃ b ∈ out, b.head.toFinset = H ∧ b.tail.toFinset = T := by
            intro o ho
            obtain ⟨hd, e, b, hb, hbr⟩ := a5 (o.map env.orderZ) (List.mem_map_of_mem ho)
            cases o with
            | none => cases e
            | some H =>
              cases e
              refine ⟨H, rfl, b, hb, ?_, ?_⟩
              · rw [show b.head = _ from congrArg Rule.head hbr, toFinset_new_head, toFinset_orderZ he]
              · rw [show b.tail = _ from congrArg Rule.tail hbr, toFinset_new_tail, toFinset_orderZ he]
          have hout' : P k out ↔ P k rules ∧ ∀ H, some H ∈ ls → A k H T := by
            constructor
            · intro hp
              refine ⟨fun b hb => hp b (a3 b hb), fun H hH => ?_⟩
              obtain ⟨H', e, b, hb, e1, e2⟩ := hsome _ hH
              cases e
              rw [← e1, ← e2]
              exact hp b hb
            · rintro ⟨hp, hA⟩ b hb
              rcases a4 b hb with hb | ⟨hd, hmem', hbd⟩
              · exact hp b hb
              obtain ⟨o, ho, e⟩ := List.mem_map.mp hmem'
              cases o with
              | none => cases e
              | some H =>
                cases e
                have hbr := bindDataset_toRule hbd
                rw [show b.head = _ from congrArg Rule.head hbr, toFinset_new_head, toFinset_orderZ he,
                  show b.tail = _ from congrArg Rule.tail hbr, toFinset_new_tail, toFinset_orderZ he]
                exact hA H ho
          have hprod : (ls.map (φ k)).prod = if ∀ H, some H ∈ ls → A k H T then 1 else 0 := by
            split
            · rename_i hA
              apply List.prod_eq_one
              intro x hx
              obtain ⟨o, ho, rfl⟩ := List.mem_map.mp hx
              obtain ⟨H, rfl, -⟩ := hsome o ho
              simp only [hφ]
              rw [if_pos (hA H ho)]
            · rename_i hA
              push Not at hA
              obtain ⟨H, hH, hn⟩ := hA
              apply List.prod_eq_zero
              rw [List.mem_map]
              exact ⟨_, hH, by simp only [hφ]; rw [if_neg hn]⟩
          rw [hprod]
          change a k * ((if P k out then (1 : ℝ) else 0) * c k ^ n) = _
          by_cases p1 : P k rules <;> by_cases p2 : ∀ H, some H ∈ ls → A k H T
          · rw [if_pos (hout'.mpr ⟨p1, p2⟩), if_pos p1, if_pos p2]; ring
          · rw [if_neg (fun h => p2 (hout'.mp h).2), if_neg p2]; ring
          · rw [if_neg (fun h => p1 (hout'.mp h).1), if_neg p1]; ring
          · rw [if_neg (fun h => p1 (hout'.mp h).1), if_neg p1]; ring
        · rw [hx']
          change f (.ok (.error .typeError, h1')) = _
          rw [herr]
          have : none ∈ ls := by
            obtain ⟨o, ho, e⟩ := List.mem_map.mp hnone
            cases o with
            | none => exact ho
            | some H => cases e
          symm
          rw [Finset.sum_eq_zero, add_zero]
          intro k _
          rw [List.prod_eq_zero, mul_zero]
          rw [List.mem_map]
          exact ⟨none, this, rfl⟩

end Verif
