/-
Random programs whose law is a finite probability distribution: closed under sequencing, and the learners are
such programs. For them, probabilities of events add up and are monotone.
-/
import Verif.Spec.Discrete
import Verif.Props.Candidate

namespace Verif

namespace RandR

variable {α β : Type}

theorem expect_zero (m : RandR α) : m.expect (fun _ => 0) = 0 := by
  induction m with
  | done r => rfl
  | choice p k ih => simp [RandR.expect, ih]
  | unif k ih => simp [RandR.expect, ih]

/-- Zero weights can be left out, and what is left are results. -/
theorem discrete_of_nonneg {m : RandR α} (hm : m.Proper) (L : List (ℝ × Py α)) (h0 : ∀ q ∈ L, 0 ≤ q.1)
    (h1 : (L.map Prod.fst).sum = 1) (hF : ∀ F : Py α → ℝ, m.expect F = (L.map fun q => q.1 * F q.2).sum) :
    m.Discrete := by
  classical
  have hsum : ∀ (G : ℝ × Py α → ℝ) (L : List (ℝ × Py α)), (∀ q ∈ L, 0 ≤ q.1) →
      ((L.filter fun q => decide (0 < q.1)).map fun q => q.1 * G q).sum = (L.map fun q => q.1 * G q).sum := by
    intro G L hL
    induction L with
    | nil => rfl
    | cons q L ih =>
      have ih := ih fun r hr => hL r (List.mem_cons_of_mem _ hr)
      by_cases hq : 0 < q.1
      · rw [List.filter_cons_of_pos (by simpa using hq), List.map_cons, List.sum_cons, ih, List.map_cons,
          List.sum_cons]
      · rw [List.filter_cons_of_neg (by simpa using hq), ih, List.map_cons, List.sum_cons,
          le_antisymm (not_lt.mp hq) (hL q List.mem_cons_self), zero_mul, zero_add]
  refine ⟨L.filter fun q => decide (0 < q.1), ?_, ?_, ?_⟩
  · intro q hq
    obtain ⟨hqL, hpos⟩ := List.mem_filter.mp hq
    have hpos : 0 < q.1 := by simpa using hpos
    refine ⟨hpos, ?_⟩
    by_contra hno
    have e : m.expect (fun x => if x = q.2 then (1 : ℝ) else 0) = 0 := by
      rw [RandR.expect_congr hm (g := fun _ => 0) fun x hx => if_neg (by rintro rfl; exact hno hx), expect_zero]
    rw [hF] at e
    have hle : ∀ (L : List (ℝ × Py α)), (∀ q ∈ L, 0 ≤ q.1) → q ∈ L →
        q.1 ≤ (L.map fun r => r.1 * (if r.2 = q.2 then (1 : ℝ) else 0)).sum := by
      intro L hL hmem
      have hnn : ∀ z ∈ L.map (fun r => r.1 * (if r.2 = q.2 then (1 : ℝ) else 0)), 0 ≤ z := by
        intro z hz
        obtain ⟨r, hr, rfl⟩ := List.mem_map.mp hz
        exact mul_nonneg (hL r hr) (by split_ifs <;> norm_num)
      have := List.single_le_sum hnn _ (List.mem_map.mpr ⟨q, hmem, rfl⟩)
      simpa using this
    have := hle L h0 hqL
    linarith
  · have := hsum (fun _ => 1) L h0
    simpa [h1] using this
  · intro F
    rw [hF, hsum (fun q => F q.2) L h0]

theorem Discrete.proper_done (r : Py α) : (RandR.done r).Discrete :=
  ⟨[(1, r)], by simp [RandR.Outcome], by simp, by simp [RandR.expect]⟩

/-- Sequencing. -/
theorem Discrete.bind {m : RandR α} {k : α → RandR β} (hm : m.Discrete)
    (hk : ∀ a, m.Outcome (.ok a) → (k a).Discrete) : (m.bind k).Discrete := by
  classical
  obtain ⟨L, h1, h2, h3⟩ := hm
  -- the distribution of the continuation of each result
  have hex : ∀ q : ℝ × Py α, ∃ M : List (ℝ × Py β), q ∈ L →
      (∀ r ∈ M, 0 < r.1 ∧ (m.bind k).Outcome r.2) ∧ (M.map Prod.fst).sum = 1 ∧
      ∀ F, RandR.after F k q.2 = (M.map fun r => r.1 * F r.2).sum := by
    rintro ⟨w, x⟩
    by_cases hq : (w, x) ∈ L
    swap
    · exact ⟨[], fun h => absurd h hq⟩
    have ho := (h1 _ hq).2
    cases x with
    | ok a =>
      obtain ⟨M, g1, g2, g3⟩ := hk a ho
      refine ⟨M, fun _ => ⟨fun r hr => ⟨(g1 r hr).1, ?_⟩, g2, fun F => g3 F⟩⟩
      rw [RandR.outcome_bind]
      exact Or.inl ⟨a, ho, (g1 r hr).2⟩
    | error e =>
      refine ⟨[(1, .error e)], fun _ => ⟨?_, by simp, fun F => by simp [RandR.after]⟩⟩
      intro r hr
      rw [List.mem_singleton] at hr
      subst hr
      refine ⟨one_pos, ?_⟩
      rw [RandR.outcome_bind]
      exact Or.inr ⟨e, ho, rfl⟩
  choose M hM using hex
  refine ⟨L.flatMap fun q => (M q).map fun r => (q.1 * r.1, r.2), ?_, ?_, ?_⟩
  · intro r hr
    obtain ⟨q, hq, hr⟩ := List.mem_flatMap.mp hr
    obtain ⟨r', hr', rfl⟩ := List.mem_map.mp hr
    obtain ⟨g1, -, -⟩ := hM q hq
    exact ⟨mul_pos (h1 q hq).1 (g1 r' hr').1, (g1 r' hr').2⟩
  · rw [← h2]
    clear h1 h2 h3
    induction L with
    | nil => rfl
    | cons q L ih =>
      rw [List.flatMap_cons, List.map_append, List.sum_append, ih fun q hq => hM q (List.mem_cons_of_mem _ hq),
        List.map_cons, List.sum_cons]
      congr 1
      obtain ⟨-, g2, -⟩ := hM q List.mem_cons_self
      rw [List.map_map]
      have : (Prod.fst ∘ fun r : ℝ × Py β => (q.1 * r.1, r.2)) = fun r => q.1 * r.1 := rfl
      rw [this, List.sum_map_mul_left, g2, mul_one]
  · intro F
    rw [RandR.expect_bind, h3]
    clear h1 h2 h3
    induction L with
    | nil => rfl
    | cons q L ih =>
      rw [List.flatMap_cons, List.map_append, List.sum_append, ← ih fun q hq => hM q (List.mem_cons_of_mem _ hq),
        List.map_cons, List.sum_cons]
      congr 1
      obtain ⟨-, -, g3⟩ := hM q List.mem_cons_self
      rw [g3, List.map_map, ← List.sum_map_mul_left]
      congr 1
      refine List.map_congr_left fun r _ => ?_
      simp [mul_assoc]

theorem Discrete.attempt {m : RandR α} (hm : m.Discrete) : m.attempt.Discrete := by
  obtain ⟨L, h1, h2, h3⟩ := hm
  refine ⟨L.map fun q => (q.1, .ok q.2), ?_, ?_, ?_⟩
  · intro q hq
    obtain ⟨r, hr, rfl⟩ := List.mem_map.mp hq
    exact ⟨(h1 r hr).1, (outcome_attempt _ _).mpr ⟨_, (h1 r hr).2, rfl⟩⟩
  · simpa [List.map_map, Function.comp_def] using h2
  · intro F
    rw [expect_attempt, h3, List.map_map]
    rfl

theorem list_range_sum (n : ℕ) (f : ℕ → ℝ) : ((List.range n).map f).sum = ∑ i : Fin n, f i := by
  rw [← Finset.sum_range f]
  change _ = (Multiset.map f (Multiset.range n)).sum
  rw [Multiset.range, Multiset.map_coe, Multiset.sum_coe]

theorem Discrete.choice {p : List ℝ} {k : ℕ → RandR α} (hp : (RandR.choice p k).Proper)
    (hk : ∀ i, (k i).Discrete) : (RandR.choice p k).Discrete := by
  choose M hM using hk
  have hflat : ∀ (w G : ℕ → ℝ) (H : ℝ × Py α → ℝ), (∀ i, ((M i).map fun r => r.1 * H r).sum = G i) →
      ∀ I : List ℕ, ((I.flatMap fun i => (M i).map fun r => (w i * r.1, r.2)).map fun q =>
        q.1 * H (1, q.2)).sum = (I.map fun i => w i * ((M i).map fun r => r.1 * H (1, r.2)).sum).sum := by
    intro w G H _ I
    induction I with
    | nil => rfl
    | cons i I ihI =>
      rw [List.flatMap_cons, List.map_append, List.sum_append, ihI, List.map_cons, List.sum_cons, List.map_map]
      congr 1
      rw [← List.sum_map_mul_left]
      congr 1
      exact List.map_congr_left fun r _ => by simp [mul_assoc]
  have hlen : ∀ i : Fin p.length, p.getD i 0 = p[i] := fun i => by
    rw [List.getD_eq_getElem _ _ i.2]; rfl
  have hmean : ∀ F : Py α → ℝ, (RandR.choice p k).expect F =
      (((List.range p.length).flatMap fun i => (M i).map fun r => (p.getD i 0 * r.1, r.2)).map fun q =>
        q.1 * F q.2).sum := by
    intro F
    rw [hflat (fun i => p.getD i 0) _ (fun q => F q.2) (fun i => rfl), list_range_sum]
    simp only [RandR.expect]
    refine Finset.sum_congr rfl fun i _ => ?_
    rw [hlen, (hM i).2.2 F]
  refine discrete_of_nonneg hp _ ?_ ?_ hmean
  · intro q hq
    obtain ⟨i, hi, hq⟩ := List.mem_flatMap.mp hq
    obtain ⟨r, hr, rfl⟩ := List.mem_map.mp hq
    refine mul_nonneg ?_ ((hM i).1 r hr).1.le
    rw [List.getD_eq_getElem _ _ (List.mem_range.mp hi)]
    exact hp.1 _ (List.getElem_mem _)
  · have h := hflat (fun i => p.getD i 0) _ (fun _ => 1) (fun i => rfl) (List.range p.length)
    simp only [mul_one] at h
    rw [show (Prod.fst : ℝ × Py α → ℝ) = fun q => q.1 from rfl, h, list_range_sum, ← hp.2.1]
    have e : ∀ i : Fin p.length, p.getD i 0 * ((M i).map fun r => r.1).sum = p[i] := fun i => by
      rw [hlen, show ((M i).map fun r => r.1).sum = 1 from (hM i).2.1, mul_one]
    rw [Finset.sum_congr rfl fun i _ => e i]
    exact Fin.sum_univ_getElem p

theorem Discrete.toReal {m : Rand α} (hm : m.Proper) : m.toReal.Discrete := by
  induction m with
  | done r => exact Discrete.proper_done r
  | choice p k ih => exact Discrete.choice (toReal_proper hm) fun i => ih i (hm.2.2 i)

theorem Discrete.lift (r : Py α) : (RandR.lift r).Discrete := Discrete.proper_done r

end RandR

open RandR

/-- The law of one head draw after fitting, for every quantity of its result. -/
theorem headOnce_expect {env : LearnEnv} (he : env.Good) {X Y : Cmp} (hD : LearnData env X Y) {pf : ℚ}
    {h h1 : HeadSampler} (hh : HeadReach env.toHeadEnv X h) (ht : h.tight = true) (hm : h.minProba = pf)
    {T : Finset ℤ} (hf : headFit env.toHeadEnv h X (tailColumn Y T) = .ok h1)
    (G : Py (Option (Finset ℤ) × HeadSampler) → ℝ) :
    (headSampleOnce env.toHeadEnv h1).expect G =
      ∑ H ∈ samplesOf X pf, headChance X Y pf T H * G (.ok (some H, h1)) + noHead X Y pf T * G (.ok (none, h1)) := by
  classical
  have hX := hD.features
  obtain ⟨g, space, hg, hb, hnd, hmem⟩ := buildSpaceAndRows_ok he.heads h hX hD.colsX hD.depthX
  obtain ⟨space', hb', hy, hyl, hs'⟩ := inv_fit he.heads hX hD.depthX (headInv_of_reach he.heads hX hD.depthX hh) hf
  rw [hb] at hb'
  cases hb'
  have hsp : space.toFinset = samplesOf X pf := by
    ext S
    rw [List.mem_toFinset, hmem, mem_samplesOf hX hg, hm]
  rw [(expect_headSampleOnce (s := h1) (tight := true) he.heads hnd hy hyl (by rw [hs']) (by rw [hs'])
    (by rw [hs']) (by rw [hs', ht]) G).2, totalBar_tail hD.rows hnd hsp, hsp]
  simp only [separations_tail]
  unfold headChance noHead
  congr 1
  rw [Finset.sum_div _ (fun x => (rulePairs X Y T x : ℝ) * G (.ok (some x, h1))), Finset.mul_sum]
  exact Finset.sum_congr rfl fun H _ => by rw [mul_assoc, div_mul_eq_mul_div]

theorem headOnce_discrete {env : LearnEnv} (he : env.Good) {X Y : Cmp} (hD : LearnData env X Y) {pf : ℚ}
    {h h1 : HeadSampler} (hh : HeadReach env.toHeadEnv X h) (ht : h.tight = true) (hm : h.minProba = pf)
    {T : Finset ℤ} (hf : headFit env.toHeadEnv h X (tailColumn Y T) = .ok h1) :
    (headSampleOnce env.toHeadEnv h1).Discrete ∧
      ∀ x, (headSampleOnce env.toHeadEnv h1).Outcome x → ∃ o, x = .ok (o, h1) := by
  classical
  have hlist : ∀ (f : Finset ℤ → ℝ), ((samplesOf X pf).toList.map f).sum = ∑ H ∈ samplesOf X pf, f H := fun f =>
    Finset.sum_map_toList _ _
  constructor
  · refine discrete_of_nonneg (headSampleOnce_proper _ _)
      ((noHead X Y pf T, .ok (none, h1)) :: (samplesOf X pf).toList.map fun H =>
        (headChance X Y pf T H, .ok (some H, h1))) ?_ ?_ ?_
    · intro q hq
      rcases List.mem_cons.mp hq with rfl | hq
      · exact (noHead_range X Y pf T).1
      · obtain ⟨H, -, rfl⟩ := List.mem_map.mp hq
        exact headChance_nonneg X Y pf T H
    · rw [List.map_cons, List.sum_cons, List.map_map]
      change noHead X Y pf T + ((samplesOf X pf).toList.map fun H => headChance X Y pf T H).sum = 1
      rw [hlist, add_comm]
      exact headChance_total X Y pf T
    · intro G
      rw [headOnce_expect he hD hh ht hm hf, List.map_cons, List.sum_cons, List.map_map, add_comm]
      congr 1
      exact (hlist _).symm
  · intro x hx
    rcases C58_outcomes env.toHeadEnv he.heads X hD.features hD.depthX h h1 hh _ hf x hx with rfl | ⟨T', space, -, -, rfl, -⟩
    · exact ⟨_, rfl⟩
    · exact ⟨_, rfl⟩

theorem headSample_discrete {env : LearnEnv} (he : env.Good) {X Y : Cmp} (hD : LearnData env X Y) {pf : ℚ}
    {h h1 : HeadSampler} (hh : HeadReach env.toHeadEnv X h) (ht : h.tight = true) (hm : h.minProba = pf)
    {T : Finset ℤ} (hf : headFit env.toHeadEnv h X (tailColumn Y T) = .ok h1) :
    ∀ n, (headSample env.toHeadEnv n h1).Discrete
  | 0 => Discrete.proper_done _
  | n + 1 => by
    obtain ⟨d1, d2⟩ := headOnce_discrete he hD hh ht hm hf
    rw [headSample]
    refine Discrete.bind d1 fun r hr => ?_
    obtain ⟨o, e⟩ := d2 _ hr
    cases e
    exact Discrete.bind (headSample_discrete he hD hh ht hm hf n) fun r _ => Discrete.proper_done _

theorem orRaise_discrete {α β : Type} {r : Py α} {h : HeadSampler} {k : α → RandR (Py β × HeadSampler)}
    (hk : ∀ a, r = .ok a → (k a).Discrete) : (orRaise r h k).Discrete := by
  cases r with
  | ok a => exact hk a rfl
  | error e => exact Discrete.proper_done _

theorem learnGen_discrete {env : LearnEnv} (he : env.Good) {X Y : Cmp} (hD : LearnData env X Y) {pf pl : ℚ}
    {us : List (List ℕ × List ℤ)} {s : UState} (hs : TailAfter env.toHeadEnv pl true Y us s) (nHeads : ℕ) :
    ∀ (todo : ℕ) (h : HeadSampler) (rules : List BRule), HeadReach env.toHeadEnv X h → h.tight = true →
      h.minProba = pf → (learnGen env X X.flip Y.flip nHeads s todo h rules).Discrete ∧
      ∀ g h', (learnGen env X X.flip Y.flip nHeads s todo h rules).Outcome (.ok (g, h')) →
        h'.tight = true ∧ h'.minProba = pf
  | 0, h, rules, hh, ht, hm => by
    refine ⟨Discrete.proper_done _, fun g h' hx => ?_⟩
    rw [learnGen] at hx
    cases hx
    exact ⟨ht, hm⟩
  | todo + 1, h, rules, hh, ht, hm => by
    have hX := hD.features
    have hY := hD.labels
    have step : ∀ t, (sampleOnce s).toReal.attempt.Outcome (.ok t) → ∀ T, t = .ok T → ∀ y,
        conjunctiveCollapseV2 Y.flip (env.orderZ T) = .ok y → ∀ h1,
        headFit env.toHeadEnv h X (labels01 y) = .ok h1 →
        headFit env.toHeadEnv h X (tailColumn Y T) = .ok h1 ∧ h1.tight = true ∧ h1.minProba = pf := by
      rintro t ho T rfl y hy h1 hf
      rw [outcome_attempt] at ho
      obtain ⟨r, ho, e⟩ := ho
      cases e
      rw [outcome_toReal] at ho
      rcases tail_outcome he.heads hY hD.depthY hD.pos hs ho with ⟨e, -⟩ | ⟨T', e, -, hTne, hTr, -⟩
      · cases e
      cases e
      obtain ⟨y0, hy0, hyT⟩ := collapse_tail he hY hTne hTr
      rw [hy0] at hy
      cases hy
      rw [hyT] at hf
      obtain ⟨_, -, -, -, e⟩ := inv_fit he.heads hX hD.depthX (headInv_of_reach he.heads hX hD.depthX hh) hf
      exact ⟨hf, by rw [e]; exact ht, by rw [e]; exact hm⟩
    constructor
    · rw [learnGen]
      refine Discrete.bind (Discrete.attempt (Discrete.toReal (sampleOnce_proper s))) fun t ho => ?_
      refine orRaise_discrete fun T hT => orRaise_discrete fun y hy => orRaise_discrete fun h1 hf => ?_
      obtain ⟨hf', ht1, hm1⟩ := step t ho T hT y hy h1 hf
      refine Discrete.bind (Discrete.attempt (headSample_discrete he hD hh ht hm hf' nHeads)) fun r hr => ?_
      refine orRaise_discrete fun q hq => orRaise_discrete fun rules' _ => ?_
      rw [outcome_attempt] at hr
      obtain ⟨r', hr, e⟩ := hr
      cases e
      obtain ⟨hs', rfl, -⟩ := headSample_outcome he.heads hX hD.depthX hh hf' nHeads _ hr
      cases hq
      exact (learnGen_discrete he hD hs nHeads todo h1 rules' (.fit _ _ _ hh hf') ht1 hm1).1
    · intro g h' hx
      rw [learnGen, RandR.bind_eq, RandR.outcome_bind] at hx
      rcases hx with ⟨t, ho, hx⟩ | ⟨e, -, hx⟩
      swap
      · cases hx
      rw [outcome_orRaise] at hx
      rcases hx with ⟨T, hT, hx⟩ | ⟨e, -, hx⟩
      swap
      · cases hx; exact ⟨ht, hm⟩
      rw [outcome_orRaise] at hx
      rcases hx with ⟨y, hy, hx⟩ | ⟨e, -, hx⟩
      swap
      · cases hx; exact ⟨ht, hm⟩
      rw [outcome_orRaise] at hx
      rcases hx with ⟨h1, hf, hx⟩ | ⟨e, -, hx⟩
      swap
      · cases hx; exact ⟨ht, hm⟩
      obtain ⟨hf', ht1, hm1⟩ := step t ho T hT y hy h1 hf
      rw [RandR.bind_eq, RandR.outcome_bind] at hx
      rcases hx with ⟨q, hq, hx⟩ | ⟨e, -, hx⟩
      swap
      · cases hx
      rw [outcome_attempt] at hq
      obtain ⟨r, hq, e⟩ := hq
      cases e
      obtain ⟨hs', rfl, -⟩ := headSample_outcome he.heads hX hD.depthX hh hf' nHeads _ hq
      rw [outcome_orRaise] at hx
      rcases hx with ⟨a, ha, hx⟩ | ⟨e, e', -⟩
      swap
      · cases e'
      cases ha
      rw [outcome_orRaise] at hx
      rcases hx with ⟨out1, -, hx⟩ | ⟨e, -, hx⟩
      swap
      · cases hx; exact ⟨ht1, hm1⟩
      exact (learnGen_discrete he hD hs nHeads todo h1 out1 (.fit _ _ _ hh hf') ht1 hm1).2 _ _ hx

/-- What holds of the learner's state in the loop of a new object, with the head sampler's settings. -/
structure LoopInv (env : LearnEnv) (pf pl : ℚ) (X Y : Cmp) (st : LearnState) : Prop where
  inv : LearnInv env pl X Y [] st
  tight : st.sampler.2.tight = true
  threshold : st.sampler.2.minProba = pf

theorem LoopInv.tails {env : LearnEnv} {pf pl : ℚ} {X Y : Cmp} {st : LearnState} (h : LoopInv env pf pl X Y st) :
    TailAfter env.toHeadEnv pl true Y (st.selected.map (updateOf env)) st.sampler.1 := by
  obtain ⟨new, e, ht⟩ := h.inv.tails
  rw [List.nil_append] at e
  rw [e]
  exact ht

theorem LoopInv.next {env : LearnEnv} (he : env.Good) {X Y : Cmp} (hD : LearnData env X Y) {pf pl : ℚ}
    {p : Params} {lr : Learner} (hlr : LearnerTotal X Y lr) {st st' : LearnState} (hst : LoopInv env pf pl X Y st)
    (hx : (learnIter env p lr X X.flip Y.flip st).Outcome (.ok (.next st'))) : LoopInv env pf pl X Y st' := by
  have hi : LearnInv env pl X Y [] st' := by
    rcases learnIter_outcome he hD hlr hst.inv hx with ⟨_, e, -⟩ | ⟨_, _, e, hi, -⟩ | e | ⟨e, -⟩ | ⟨e, -⟩ <;> cases e
    exact hi
  obtain ⟨h', cands, best, hg, -, -, -, -, e⟩ := learnIter_next hx
  obtain ⟨t1, t2⟩ := (learnGen_discrete he hD hst.tails p.nHeads p.nTails _ [] hst.inv.heads hst.tight
    hst.threshold).2 _ _ hg
  exact ⟨hi, by rw [e]; exact t1, by rw [e]; exact t2⟩

theorem learnIter_discrete {env : LearnEnv} (he : env.Good) {X Y : Cmp} (hD : LearnData env X Y) {pf pl : ℚ}
    {p : Params} {lr : Learner} {st : LearnState} (hst : LoopInv env pf pl X Y st) :
    (learnIter env p lr X X.flip Y.flip st).Discrete := by
  unfold learnIter
  refine Discrete.bind (learnGen_discrete he hD hst.tails p.nHeads p.nTails _ [] hst.inv.heads hst.tight
    hst.threshold).1 fun g _ => ?_
  obtain ⟨g, h'⟩ := g
  cases g with
  | ok cands => exact Discrete.lift _
  | error e => cases e <;> exact Discrete.proper_done _

theorem learnLoop_discrete {env : LearnEnv} (he : env.Good) {X Y : Cmp} (hD : LearnData env X Y) {pf pl : ℚ}
    {p : Params} {lr : Learner} (hlr : LearnerTotal X Y lr) :
    ∀ (fuel : ℕ) (st : LearnState), LoopInv env pf pl X Y st →
      (learnLoop env p lr X X.flip Y.flip fuel st).Discrete
  | 0, _, _ => Discrete.proper_done _
  | fuel + 1, st, hst => by
    rw [learnLoop]
    refine Discrete.bind (learnIter_discrete he hD hst) fun r hr => ?_
    cases r with
    | done st' => exact Discrete.proper_done _
    | next st' => exact learnLoop_discrete he hD hlr fuel st' (hst.next he hD hlr hr)

/-- The state with which the loop of a new object begins. -/
theorem start_inv {env : LearnEnv} (he : env.Good) {X Y : Cmp} (hD : LearnData env X Y) (pf pl : ℚ) :
    ∃ s, tailFit env.toHeadEnv pl true [] Y = .ok s ∧
      LoopInv env pf pl X Y { sampler := (s, (LearnObj.new pf pl).heads), selected := [], pool := [] } := by
  obtain ⟨-, space, -, hs, -⟩ := tailFit_ok he.heads pl true [] hD.labels hD.colsY hD.depthY
  exact ⟨_, hs, ⟨⟨[], rfl, ⟨_, hs, rfl⟩⟩, .init _ _ _, by simp, by simp⟩, rfl, rfl⟩

theorem learnRun_discrete {env : LearnEnv} (he : env.Good) {X Y : Cmp} (hD : LearnData env X Y) (pf pl : ℚ)
    {p : Params} {lr : Learner} (hlr : LearnerTotal X Y lr) (fuel : ℕ) :
    (learnRun env p lr (LearnObj.new pf pl) X Y fuel).Discrete := by
  obtain ⟨s, hs, hi⟩ := start_inv he hD pf pl
  rw [learnRun_new hs]
  exact learnLoop_discrete he hD hlr fuel _ hi

theorem learnFitV2_discrete {env : LearnEnv} (he : env.Good) {X Y : Cmp} (hD : LearnData env X Y) (pf pl : ℚ)
    {p : Params} {lr : Learner} (hlr : LearnerTotal X Y lr) (quality : List BRule → BRule → Py ℝ) (fuel : ℕ) :
    (learnFitV2 env p lr quality (LearnObj.new pf pl) X Y fuel).Discrete := by
  unfold learnFitV2
  refine Discrete.bind (learnRun_discrete he hD pf pl hlr fuel) fun r _ => ?_
  cases r with
  | none => exact Discrete.proper_done _
  | some st => exact Discrete.bind (Discrete.lift _) fun _ _ => Discrete.proper_done _

theorem learnFitDivMax_discrete {env : LearnEnv} (he : env.Good) {X Y : Cmp} (hD : LearnData env X Y) (pf pl : ℚ)
    {p : Params} (hlr : LearnerTotal X Y (learnerDivMax p Y)) (fuel : ℕ) :
    (learnFitDivMax env p (LearnObj.new pf pl) X Y fuel).Discrete := by
  unfold learnFitDivMax
  refine Discrete.bind (learnRun_discrete he hD pf pl hlr fuel) fun r _ => ?_
  cases r with
  | none => exact Discrete.proper_done _
  | some st => exact Discrete.bind (Discrete.lift _) fun _ _ => Discrete.proper_done _

end Verif
