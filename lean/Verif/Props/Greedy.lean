/-
Properties C20-C31: candidate generation, greedy selection and the fitting loops.
-/
import Verif.Lemmas.Approx
import Verif.Props.Coverage

namespace Verif
open Cmp

/-! ### A concrete run used to show that hypotheses are met -/

/-- Samplers that propose the tail {0}, then {1}, then give up; the head is always {0}. -/
def demoSamplers : Samplers ℕ Unit where
  tailFit _ := .ok 0
  tailSample s _ := if s < 2 then .ok [(s : ℤ)] else .error .noMoreSamples
  tailUpdate s _ _ := .ok (s + 1)
  headSample _ _ _ n := .ok (List.replicate n (some [0]))
  setOrder := List.reverse
  setOrder_perm := List.reverse_perm

theorem demo_tails : TailsAreLabelSets demoSamplers := by
  intro s w tail h
  simp only [demoSamplers] at h
  split at h
  · simp only [Except.ok.injEq] at h
    subst h
    simp
  · simp at h

/-- One tail and one head per iteration, budget 5. -/
noncomputable def demoParams : Params :=
  { lambd := 1, nTails := 1, nHeads := 1, nMaxRules := some 5, tolerance := 0 }

/-- The rule `0 -> s` on the training data. -/
def demoRule (s : ℕ) : BRule := boundRule (Rule.new [0] [(s : ℤ)]) trainX.flip trainY.flip

theorem demoRule_bound {s : ℕ} (h : s < 2) : BoundTo trainX trainY (demoRule s) := by
  apply boundTo_mk (by decide) (by decide) (by simp) (by simp) (by decide) ?_ ⟨0, by decide⟩
  intro x hx
  simp only [List.mem_singleton] at hx
  subst hx
  exact ⟨by omega, by simp [trainY]; omega⟩

theorem demoRule_area {s : ℕ} (h : s < 2) : (area (demoRule s)).Nonempty := by
  have hsp := (demoRule_bound h).spec trainX_binary.toWF trainY_binary.toWF (by decide)
  refine ⟨(0, (s : ℤ)), ?_⟩
  have ht : (demoRule s).tail = [(s : ℤ)] := by
    show (List.mergeSort [(s : ℤ)] _) = _
    simp
  have hh : (demoRule s).head = [0] := by
    show (List.mergeSort [(0 : ℤ)] _) = _
    simp
  rw [area, Finset.mem_product, List.mem_toFinset, ht, hsp.2.2.2.2.1]
  refine ⟨⟨?_, ?_⟩, by simp⟩
  · unfold Fires; rw [hh]; interval_cases s <;> decide
  · rw [ht]
    interval_cases s <;> decide

theorem demo_generate {s : ℕ} (h : s < 2) (ws : ℕ → Unit) :
    generateCandidates demoSamplers demoParams trainX trainX.flip trainY.flip s ws =
      .ok [demoRule s] := by
  have hb := demoRule_bound h
  have hc : conjunctiveCollapseV2 trainY.flip [(s : ℤ)] = .ok _ :=
    collapse_int_ok (wf_flip trainY) (by simp) (by
      intro x hx
      simp only [List.mem_singleton] at hx
      subst hx
      exact ⟨by omega, by simp [trainY]; omega⟩)
  have hbind : bindDataset (Rule.new [0] [(s : ℤ)]) trainX.flip trainY.flip = .ok (demoRule s) := by
    apply bindDataset_ok (wf_flip trainX) (wf_flip trainY) (by decide)
    · exact Rule.new_head_ne_nil.mpr (by simp)
    · exact Rule.new_tail_ne_nil.mpr (by simp)
    · simp only [Rule.mem_new_head]; decide
    · simp only [Rule.mem_new_tail, List.mem_singleton]
      rintro x rfl
      exact ⟨by omega, by simp [trainY]; omega⟩
    · refine ⟨0, ?_⟩
      simp only [RowHas, Rule.mem_new_head]
      decide
  have ht : demoSamplers.tailSample s (ws 0) = .ok [(s : ℤ)] := if_pos h
  simp only [generateCandidates, demoParams, genLoop, ht, hc, bind, Except.bind]
  simp [demoSamplers, addHeads, hbind, bind, Except.bind]

/-- The objective used by the demonstration run can be evaluated. -/
theorem demo_objective {sel : List BRule} {s : ℕ} (h : s < 2)
    (hsel : ∀ b ∈ sel, BoundTo trainX trainY b) :
    ∃ v, objectiveOfRule qualityOfRule 1 sel (demoRule s) = .ok v := by
  obtain ⟨k, hk, -⟩ := klReal_bound (X := trainX) (Y := trainY) (by decide) (demoRule_bound h)
  have hd : diversityOfRule sel (demoRule s) = .ok (sel.map (areaDist (demoRule s))).sum := by
    apply pySum_ok
    intro b hb
    apply distReal_eq (demoRule_bound h).2.2 (hsel b hb).2.2
    obtain ⟨c, hc⟩ := demoRule_area h
    exact ⟨c, by simp [hc]⟩
  unfold objectiveOfRule qualityOfRule
  rw [hk, hd]
  exact ⟨_, rfl⟩

/-- The demonstration run selects `0 -> 0`, then `0 -> 1`, then stops because the tail sampler is
exhausted. -/
theorem demo_run (ws : ℕ → ℕ → Unit) :
    runFit demoSamplers demoParams (learnerDivMax demoParams trainY) trainX trainY [] ws 3 =
      some (.ok { sampler := 2, selected := [demoRule 0, demoRule 1],
                  pool := poolUnion (poolUnion [] [demoRule 0]) [demoRule 1] }) := by
  have hsb : ∀ (sel : List BRule) (s : ℕ), s < 2 → (∀ b ∈ sel, BoundTo trainX trainY b) →
      selectBest demoSamplers (objectiveOfRule qualityOfRule 1 sel) [demoRule s] = .ok (demoRule s) := by
    intro sel s hs hb
    obtain ⟨v, hv⟩ := demo_objective hs hb
    have : demoSamplers.setOrder [demoRule s] = [demoRule s] := rfl
    rw [selectBest, this, pyMax, hv]
    rfl
  have i0 : fitIter demoSamplers demoParams (learnerDivMax demoParams trainY) trainX trainX.flip
      trainY.flip (ws 0) { sampler := 0, selected := [], pool := [] } =
      .ok (.next { sampler := 1, selected := [demoRule 0], pool := poolUnion [] [demoRule 0] }) := by
    unfold fitIter
    rw [demo_generate (by norm_num)]
    simp only [learnerDivMax, bind, Except.bind]
    rw [show demoParams.lambd = 1 from rfl, hsb [] 0 (by norm_num) (by simp)]
    rfl
  have i1 : fitIter demoSamplers demoParams (learnerDivMax demoParams trainY) trainX trainX.flip
      trainY.flip (ws 1) { sampler := 1, selected := [demoRule 0], pool := poolUnion [] [demoRule 0] } =
      .ok (.next { sampler := 2, selected := [demoRule 0, demoRule 1],
                   pool := poolUnion (poolUnion [] [demoRule 0]) [demoRule 1] }) := by
    unfold fitIter
    rw [demo_generate (by norm_num)]
    simp only [learnerDivMax, bind, Except.bind]
    rw [show demoParams.lambd = 1 from rfl, hsb [demoRule 0] 1 (by norm_num) (by
      intro b hb; rw [List.mem_singleton] at hb; subst hb; exact demoRule_bound (by norm_num))]
    rfl
  have i2 : ∀ st : LoopState ℕ, st.sampler = 2 → fitIter demoSamplers demoParams
      (learnerDivMax demoParams trainY) trainX trainX.flip trainY.flip (ws 2) st = .ok (.done st) := by
    intro st hst
    unfold fitIter
    rw [hst]
    rfl
  unfold runFit
  have hf : demoSamplers.tailFit trainY = .ok 0 := rfl
  rw [hf]
  show fitLoop _ _ _ _ _ _ _ 3 0 _ = _
  rw [fitLoop, i0]
  show fitLoop _ _ _ _ _ _ _ 2 1 _ = _
  rw [fitLoop, i1]
  show fitLoop _ _ _ _ _ _ _ 1 2 _ = _
  rw [fitLoop, i2 _ rfl]

/-! ### C20 -/

/-- **C20.** A returned candidate set has no two equal rules, has at most
`n_tails_per_iter * n_heads_per_tail` members, and each member is a sampled tail with a head sampled
for that tail, bound to the training data; conversely every sampled pair is represented. In
particular no draw failed and no head was `None`. -/
theorem C20_candidates {σ ω : Type} (S : Samplers σ ω) (p : Params) (X Xc Yc : Cmp) (s : σ)
    (ws : ℕ → ω) (out : List BRule) (h : generateCandidates S p X Xc Yc s ws = .ok out) :
    (out.map BRule.toRule).Nodup ∧
    ((∀ X y w hs, S.headSample X y w p.nHeads = .ok hs → hs.length ≤ p.nHeads) →
      out.length ≤ p.nTails * p.nHeads) ∧
    (∀ b ∈ out, ∃ t < p.nTails, ∃ tail y heads hd, S.tailSample s (ws t) = .ok tail ∧
      conjunctiveCollapseV2 Yc tail = .ok y ∧ S.headSample X y (ws t) p.nHeads = .ok heads ∧
      some hd ∈ heads ∧ bindDataset (Rule.new hd tail) Xc Yc = .ok b) ∧
    (∀ t < p.nTails, ∃ tail y heads, S.tailSample s (ws t) = .ok tail ∧
      conjunctiveCollapseV2 Yc tail = .ok y ∧ S.headSample X y (ws t) p.nHeads = .ok heads ∧
      ∀ x ∈ heads, ∃ hd, x = some hd ∧ ∃ b ∈ out, b.toRule = Rule.new hd tail) := by
  obtain ⟨h1, h2, -, h4, h5⟩ := genLoop_ok h
  refine ⟨h1 (by simp), fun hl => by simpa using h2 hl, ?_, ?_⟩
  · intro b hb
    rcases h4 b hb with h | ⟨u, -, hu, tail, y, heads, hd, ⟨p1, p2, p3⟩, hm, hbd⟩
    · simp at h
    · exact ⟨u, by omega, tail, y, heads, hd, p1, p2, p3, hm, hbd⟩
  · intro t ht
    obtain ⟨tail, y, heads, ⟨p1, p2, p3⟩, hx⟩ := h5 t (Nat.zero_le _) (by omega)
    exact ⟨tail, y, heads, p1, p2, p3, hx⟩

/-- **C20.** A tail draw that fails after complete earlier draws is what the caller sees, whatever had
been collected so far (in particular `NoMoreSamples` propagates). -/
theorem C20_tail_failure_propagates {σ ω : Type} (S : Samplers σ ω) (p : Params) (X Xc Yc : Cmp)
    (s : σ) (ws : ℕ → ω) (t : ℕ) (ht : t < p.nTails) (e : PyErr)
    (hprev : ∀ v < t, ∃ tail y heads, S.tailSample s (ws v) = .ok tail ∧
      conjunctiveCollapseV2 Yc tail = .ok y ∧ S.headSample X y (ws v) p.nHeads = .ok heads ∧
      ∀ x ∈ heads, ∃ h, x = some h ∧ ∃ b, bindDataset (Rule.new h tail) Xc Yc = .ok b)
    (he : S.tailSample s (ws t) = .error e) :
    generateCandidates S p X Xc Yc s ws = .error e := by
  apply genLoop_tail_error (Nat.zero_le t) (by omega) ?_ he
  intro v _ hv
  obtain ⟨tail, y, heads, p1, p2, p3, hx⟩ := hprev v hv
  exact ⟨tail, y, heads, ⟨p1, p2, p3⟩, hx⟩

/-- **C20.** Any failing draw, or a head sampler that gave up (`None`), prevents a result. -/
theorem C20_no_partial_result {σ ω : Type} (S : Samplers σ ω) (p : Params) (X Xc Yc : Cmp) (s : σ)
    (ws : ℕ → ω) (t : ℕ) (ht : t < p.nTails)
    (hbad : (∃ e, S.tailSample s (ws t) = .error e) ∨
      (∃ tail y e, S.tailSample s (ws t) = .ok tail ∧ conjunctiveCollapseV2 Yc tail = .ok y ∧
        S.headSample X y (ws t) p.nHeads = .error e) ∨
      (∃ tail y heads, S.tailSample s (ws t) = .ok tail ∧ conjunctiveCollapseV2 Yc tail = .ok y ∧
        S.headSample X y (ws t) p.nHeads = .ok heads ∧ none ∈ heads)) :
    ∃ e, generateCandidates S p X Xc Yc s ws = .error e := by
  rcases hg : generateCandidates S p X Xc Yc s ws with e | out
  · exact ⟨e, rfl⟩
  · exfalso
    obtain ⟨tail, y, heads, p1, p2, p3, hx⟩ := (C20_candidates S p X Xc Yc s ws out hg).2.2.2 t ht
    rcases hbad with ⟨e, he⟩ | ⟨tail', y', e, h1, h2, h3⟩ | ⟨tail', y', heads', h1, h2, h3, h4⟩
    · rw [he] at p1; cases p1
    · rw [h1] at p1; cases p1
      rw [h2] at p2; cases p2
      rw [h3] at p3; cases p3
    · rw [h1] at p1; cases p1
      rw [h2] at p2; cases p2
      rw [h3] at p3; cases p3
      obtain ⟨hd, hd', -⟩ := hx none h4
      cases hd'

example : ∃ out, generateCandidates demoSamplers demoParams trainX trainX.flip trainY.flip 1
    (fun _ => ()) = .ok out ∧ (out.map BRule.toRule).Nodup :=
  ⟨_, demo_generate (by norm_num) _, (C20_candidates _ _ _ _ _ _ _ _ (demo_generate (by norm_num) (fun _ => ()))).1⟩

example : generateCandidates demoSamplers demoParams trainX trainX.flip trainY.flip 7
    (fun _ => ()) = .error .noMoreSamples :=
  C20_tail_failure_propagates demoSamplers demoParams _ _ _ 7 _ 0 (by simp [demoParams]) _
    (by intro v hv; omega) rfl

/-! ### C21 -/

/-- **C21.** The selected candidate is a member of the set with maximal objective, whatever the
iteration order of the set; on a set of candidates whose objectives can all be evaluated the call
returns; on the empty set it raises `ValueError`. -/
theorem C21_select_best {σ ω : Type} (S : Samplers σ ω) (obj : BRule → Py ℝ)
    (cands : List BRule) :
    (∀ best, selectBest S obj cands = .ok best →
      best ∈ cands ∧ ∃ v, obj best = .ok v ∧ ∀ c ∈ cands, ∃ vc, obj c = .ok vc ∧ vc ≤ v) ∧
    (cands ≠ [] → (∀ c ∈ cands, ∃ v, obj c = .ok v) → ∃ best, selectBest S obj cands = .ok best) ∧
    (cands = [] → selectBest S obj cands = .error .valueError) := by
  refine ⟨?_, ?_, ?_⟩
  · intro best h
    exact selectBest_ok (S := S) (obj := fun _ => obj) (sel := []) h
  · intro hne hall
    have hp := S.setOrder_perm cands
    apply pyMax_ok
    · intro h
      rw [h] at hp
      exact hne hp.symm.eq_nil
    · intro c hc
      exact hall c (hp.mem_iff.mp hc)
  · rintro rfl
    have : S.setOrder [] = [] := (S.setOrder_perm []).eq_nil
    rw [selectBest, this]
    rfl

example : ∃ best, selectBest demoSamplers (objectiveOfRule qualityOfRule 1 [])
    [demoRule 0, demoRule 1] = .ok best := by
  apply (C21_select_best demoSamplers _ _).2.1 (by simp)
  intro c hc
  simp only [List.mem_cons, List.not_mem_nil, or_false] at hc
  rcases hc with rfl | rfl
  · exact demo_objective (by norm_num) (by simp)
  · exact demo_objective (by norm_num) (by simp)

/-! ### C22 -/

theorem marginalRatio_ok {Y : Cmp} {sel : List BRule} {r : BRule} {q : ℚ}
    (h : marginalCoverageRatio Y sel r = .ok q) :
    0 < Y.nnz ∧ q * Y.nnz = r.marginalCoverage sel := by
  unfold marginalCoverageRatio pyDiv at h
  split at h
  · simp at h
  · rename_i hne
    simp only [Except.ok.injEq] at h
    have : Y.nnz ≠ 0 := by exact_mod_cast hne
    refine ⟨Nat.pos_of_ne_zero this, ?_⟩
    rw [← h]
    push_cast
    have : (Y.nnz : ℚ) ≠ 0 := by exact_mod_cast this
    field_simp

/-- The stopping test in tolerance mode. -/
theorem stop_false_tolerance {p : Params} {Y : Cmp} (hp : p.nMaxRules = none) {sel : List BRule}
    {r : BRule} (h : shouldStopDivMax p Y sel r = .ok false) :
    ∃ q, marginalCoverageRatio Y sel r = .ok q ∧ p.tolerance < q := by
  unfold shouldStopDivMax at h
  rw [hp] at h
  simp only [bind, Except.bind, pure, Except.pure] at h
  split at h
  · simp at h
  · rename_i q hq
    exact ⟨q, hq, by simpa using h⟩

/-- **C22.** With `n_max_rules` unset and a tolerance `t ≥ 0`, the first round from an empty selection
ends (returns or raises) within (number of label occurrences) + 1 iterations, whatever the samplers
do. -/
theorem C22_first_round_terminates {σ ω : Type} (S : Samplers σ ω) (hS : TailsAreLabelSets S)
    (p : Params) (hp : p.nMaxRules = none) (ht : 0 ≤ p.tolerance) (X Y : Cmp) (hX : X.WF)
    (hY : Y.Binary) (hn : X.nMajor = Y.nMajor) (ws : ℕ → ℕ → ω) (fuel : ℕ)
    (hfuel : (labelCells Y).card + 1 ≤ fuel) :
    (runFit S p (learnerDivMax p Y) X Y [] ws fuel).isSome := by
  unfold runFit
  split
  · rfl
  rename_i s0 _
  have hcard := card_labelCells hY
  refine fitLoop_terminates (P := fun st => ∀ b ∈ st.selected, BoundTo X Y b)
    (μ := fun st => (labelCells Y).card - (covered st.selected).card) ?_ fuel 0 _ (by simp) ?_
  · intro k st st' hP hi
    obtain ⟨cands, best, g1, g2, g3, -, g5, -⟩ := fitIter_next hi
    have hbest := generate_bound hS g1 best g2.1
    have hP' : ∀ b ∈ st'.selected, BoundTo X Y b := by
      intro b hb
      rw [g5, List.mem_append, List.mem_singleton] at hb
      rcases hb with hb | rfl
      · exact hP b hb
      · exact hbest
    refine ⟨hP', ?_⟩
    obtain ⟨q, hq, hlt⟩ := stop_false_tolerance hp g3
    obtain ⟨hpos, hqe⟩ := marginalRatio_ok hq
    have hmc : 0 < best.marginalCoverage st.selected := by
      have : (0 : ℚ) < best.marginalCoverage st.selected := by
        rw [← hqe]
        exact mul_pos (ht.trans_lt hlt) (by exact_mod_cast hpos)
      exact_mod_cast this
    have h1 := card_covered_snoc st.selected best
    have h2 := Finset.card_le_card (covered_subset hX hY.toWF hn hP')
    rw [g5] at h2 ⊢
    omega
  · simp [covered]; omega

/-- **C22.** In tolerance mode the number `k` of rules selected by the first round satisfies
`k * tolerance < 1` as soon as `k > 0`. -/
theorem C22_few_rules {σ ω : Type} (S : Samplers σ ω) (hS : TailsAreLabelSets S)
    (p : Params) (hp : p.nMaxRules = none) (X Y : Cmp) (hX : X.WF)
    (hY : Y.Binary) (hn : X.nMajor = Y.nMajor) (ws : ℕ → ℕ → ω) (fuel : ℕ) (st : LoopState σ)
    (h : runFit S p (learnerDivMax p Y) X Y [] ws fuel = some (.ok st)) (hk : st.selected ≠ []) :
    (st.selected.length : ℚ) * p.tolerance < 1 := by
  unfold runFit at h
  split at h
  · simp at h
  rename_i s0 _
  have key := fitLoop_inv (S := S) (p := p) (lr := learnerDivMax p Y) (X := X) (Xc := X.flip)
    (Yc := Y.flip) (ws := ws)
    (P := fun _ st => (∀ b ∈ st.selected, BoundTo X Y b) ∧
      (st.selected ≠ [] → 0 < Y.nnz ∧
        (st.selected.length : ℚ) * p.tolerance * Y.nnz < (covered st.selected).card))
    (Q := fun st => (∀ b ∈ st.selected, BoundTo X Y b) ∧
      (st.selected ≠ [] → 0 < Y.nnz ∧
        (st.selected.length : ℚ) * p.tolerance * Y.nnz < (covered st.selected).card))
    ?_ ?_ fuel 0 _ st ⟨by simp, by simp⟩ h
  · obtain ⟨hb, hcov⟩ := key
    obtain ⟨hpos, hlt⟩ := hcov hk
    have h2 : ((covered st.selected).card : ℚ) ≤ Y.nnz := by
      exact_mod_cast card_labelCells hY ▸ Finset.card_le_card (covered_subset hX hY.toWF hn hb)
    have h3 : (0 : ℚ) < Y.nnz := by exact_mod_cast hpos
    by_contra hc
    push Not at hc
    have := mul_le_mul_of_nonneg_right hc h3.le
    linarith
  · rintro k st st' ⟨hb, hcov⟩ hi
    obtain ⟨cands, best, g1, g2, g3, -, g5, -⟩ := fitIter_next hi
    have hbest := generate_bound hS g1 best g2.1
    obtain ⟨q, hq, hlt⟩ := stop_false_tolerance hp g3
    obtain ⟨hpos, hqe⟩ := marginalRatio_ok hq
    refine ⟨?_, fun _ => ⟨hpos, ?_⟩⟩
    · intro b hb'
      rw [g5, List.mem_append, List.mem_singleton] at hb'
      rcases hb' with hb' | rfl
      · exact hb b hb'
      · exact hbest
    · have h3 : (0 : ℚ) < Y.nnz := by exact_mod_cast hpos
      have hold : (st.selected.length : ℚ) * p.tolerance * Y.nnz ≤ (covered st.selected).card := by
        rcases eq_or_ne st.selected [] with h0 | h0
        · rw [h0]; simp
        · exact (hcov h0).2.le
      rw [g5, card_covered_snoc, List.length_append, List.length_singleton]
      push_cast
      rw [← hqe]
      nlinarith
  · rintro k st st' hP hi
    rcases fitIter_done hi with ⟨-, rfl⟩ | ⟨cands, best, -, -, -, rfl⟩
    · exact hP
    · exact hP

/-- Tolerance-mode parameters. -/
noncomputable def demoParamsTol : Params :=
  { lambd := 1, nTails := 1, nHeads := 1, nMaxRules := none, tolerance := 1 / 100 }

example : (runFit demoSamplers demoParamsTol (learnerDivMax demoParamsTol trainY) trainX trainY []
    (fun _ _ => ()) 7).isSome :=
  C22_first_round_terminates demoSamplers demo_tails demoParamsTol rfl (by norm_num [demoParamsTol])
    trainX trainY trainX_binary.toWF trainY_binary (by decide) _ 7 (by decide)

/-! ### C23 -/

/-- The four learners' stopping test under a budget. -/
theorem stop_budget {p : Params} {k : ℕ} (hp : p.nMaxRules = some k) {Y : Cmp} {lr : Learner}
    (hlr : lr = learnerDivMax p Y ∨ lr = learnerV2 p ∨ lr = learnerV3 p ∨ lr = learnerSubmod p)
    (sel : List BRule) (r : BRule) : lr.stop sel r = .ok (decide (k ≤ sel.length)) := by
  rcases hlr with rfl | rfl | rfl | rfl <;>
    simp [learnerDivMax, learnerV2, learnerV3, learnerSubmod, shouldStopDivMax, shouldStopV2, hp]

/-- **C23.** With a budget of `k` rules, every learner's loop from an empty selection ends (returns or
raises) within `k + 1` iterations. -/
theorem C23_budget_terminates {σ ω : Type} (S : Samplers σ ω) (p : Params) (k : ℕ)
    (hp : p.nMaxRules = some k) (X Y : Cmp) (lr : Learner)
    (hlr : lr = learnerDivMax p Y ∨ lr = learnerV2 p ∨ lr = learnerV3 p ∨ lr = learnerSubmod p)
    (ws : ℕ → ℕ → ω) (fuel : ℕ) (hfuel : k + 1 ≤ fuel) :
    (runFit S p lr X Y [] ws fuel).isSome := by
  unfold runFit
  split
  · rfl
  refine fitLoop_terminates (P := fun st => st.selected.length ≤ k)
    (μ := fun st => k - st.selected.length) ?_ fuel 0 _ (by simp) (by simp; omega)
  intro j st st' hP hi
  obtain ⟨cands, best, g1, g2, g3, -, g5, -⟩ := fitIter_next hi
  rw [stop_budget hp hlr] at g3
  simp only [Except.ok.injEq, decide_eq_false_iff_not, not_le] at g3
  rw [g5, List.length_append, List.length_singleton]
  omega

/-- **C23.** If the loop returns, at most `k` rules are selected, and exactly `k` unless the tail or
head sampler reported `NoMoreSamples` in the iteration after the last selected rule. -/
theorem C23_budget_exact {σ ω : Type} (S : Samplers σ ω) (p : Params) (k : ℕ)
    (hp : p.nMaxRules = some k) (X Y : Cmp) (lr : Learner)
    (hlr : lr = learnerDivMax p Y ∨ lr = learnerV2 p ∨ lr = learnerV3 p ∨ lr = learnerSubmod p)
    (ws : ℕ → ℕ → ω) (fuel : ℕ) (st : LoopState σ)
    (h : runFit S p lr X Y [] ws fuel = some (.ok st)) :
    st.selected.length ≤ k ∧
    (st.selected.length = k ∨ ∃ s0 s, S.tailFit Y = .ok s0 ∧ samplerAfter S s0 st.selected = .ok s ∧
      generateCandidates S p X X.flip Y.flip s (ws st.selected.length) = .error .noMoreSamples) := by
  unfold runFit at h
  split at h
  · simp at h
  rename_i s0 hs0
  obtain ⟨batches, s, ⟨hr1, -, hr3⟩, hs, hcase⟩ := fitLoop_history h
  simp only [List.length_nil, Nat.zero_add, List.drop_zero] at hr1 hr3 hs
  have hle : st.selected.length ≤ k := by
    rcases Nat.eq_zero_or_pos st.selected.length with h0 | h0
    · omega
    · obtain ⟨s', best, -, -, -, -, hstop⟩ := hr3 (batches.length - 1) (by omega)
      rw [stop_budget hp hlr] at hstop
      simp only [List.length_take, Except.ok.injEq, decide_eq_false_iff_not, not_le] at hstop
      omega
  refine ⟨hle, ?_⟩
  rcases hcase with ⟨hg, -⟩ | ⟨cands, best, -, -, hstop, -⟩
  · exact Or.inr ⟨s0, s, hs0, hs, hr1 ▸ hg⟩
  · left
    rw [stop_budget hp hlr] at hstop
    simp only [Except.ok.injEq, decide_eq_true_eq] at hstop
    omega

example : (runFit demoSamplers demoParams (learnerV3 demoParams) trainX trainY []
    (fun _ _ => ()) 6).isSome :=
  C23_budget_terminates demoSamplers demoParams 5 rfl trainX trainY _ (by simp) _ 6 le_rfl

example : ([demoRule 0, demoRule 1] : List BRule).length ≤ 5 :=
  (C23_budget_exact demoSamplers demoParams 5 rfl trainX trainY _ (by simp) _ 3 _
    (demo_run (fun _ _ => ()))).1

/-! ### C24 -/

/-- **C24.** In every completed run (any learner) from an empty selection there is one candidate batch
per selected rule, drawn with the tail sampler updated by exactly the rules selected before; the
`i`-th selected rule belongs to the `i`-th batch, has the largest objective there relative to the
rules selected before it, and did not trigger the stopping test. -/
theorem C24_greedy_trace {σ ω : Type} (S : Samplers σ ω) (p : Params) (X Y : Cmp) (lr : Learner)
    (ws : ℕ → ℕ → ω) (fuel : ℕ) (st : LoopState σ)
    (h : runFit S p lr X Y [] ws fuel = some (.ok st)) :
    ∃ s0, S.tailFit Y = .ok s0 ∧ ∀ i (hi : i < st.selected.length), ∃ s batch,
      samplerAfter S s0 (st.selected.take i) = .ok s ∧
      generateCandidates S p X X.flip Y.flip s (ws i) = .ok batch ∧
      GreedyChoice lr.objective (st.selected.take i) batch st.selected[i] ∧
      lr.stop (st.selected.take i) st.selected[i] = .ok false := by
  unfold runFit at h
  split at h
  · simp at h
  rename_i s0 hs0
  obtain ⟨batches, s, ⟨hr1, -, hr3⟩, -, -⟩ := fitLoop_history h
  simp only [List.length_nil, Nat.zero_add, List.drop_zero] at hr1 hr3
  refine ⟨s0, hs0, fun i hi => ?_⟩
  obtain ⟨s', best, e1, e2, e3, e4, e5⟩ := hr3 i (by omega)
  rw [List.getElem?_eq_getElem hi, Option.some.injEq] at e3
  subst e3
  exact ⟨s', batches[i], e1, e2, e4, e5⟩

/-- **C24.** The whole `fit` of the learners with a fixed number of rules: what it stores as selected rules is such a
greedy trace, and the objective it stores is the objective of these rules. -/
theorem C24_fit {σ ω : Type} (S : Samplers σ ω) (p : Params) (X Y : Cmp) (lr : Learner)
    (quality : List BRule → BRule → Py ℝ) (ws : ℕ → ℕ → ω) (fuel : ℕ) (sel : List BRule) (obj : ℝ)
    (h : fitV2 S p lr quality X Y [] ws fuel = some (.ok (sel, obj))) :
    objectiveOf quality p.lambd sel sel = .ok obj ∧
    ∃ s0, S.tailFit Y = .ok s0 ∧ ∀ i (hi : i < sel.length), ∃ s batch,
      samplerAfter S s0 (sel.take i) = .ok s ∧
      generateCandidates S p X X.flip Y.flip s (ws i) = .ok batch ∧
      GreedyChoice lr.objective (sel.take i) batch sel[i] ∧
      lr.stop (sel.take i) sel[i] = .ok false := by
  unfold fitV2 at h
  split at h
  · simp at h
  · simp at h
  · rename_i st hst
    cases ho : objectiveOf quality p.lambd st.selected st.selected with
    | error e => rw [ho] at h; simp [Bind.bind, Except.bind] at h
    | ok v =>
      rw [ho] at h
      simp only [Bind.bind, Except.bind, pure, Except.pure, Option.some.injEq, Except.ok.injEq, Prod.mk.injEq] at h
      obtain ⟨rfl, rfl⟩ := h
      exact ⟨ho, C24_greedy_trace S p X Y lr ws fuel st hst⟩

/-- **C24.** In tolerance mode each selected rule newly covers more than the tolerance fraction of the
label occurrences. -/
theorem C24_each_rule_covers {σ ω : Type} (S : Samplers σ ω) (p : Params) (hp : p.nMaxRules = none)
    (X Y : Cmp) (ws : ℕ → ℕ → ω) (fuel : ℕ) (st : LoopState σ)
    (h : runFit S p (learnerDivMax p Y) X Y [] ws fuel = some (.ok st)) :
    ∀ i (hi : i < st.selected.length),
      p.tolerance * Y.nnz < ((area st.selected[i]) \ covered (st.selected.take i)).card := by
  obtain ⟨s0, -, htr⟩ := C24_greedy_trace S p X Y _ ws fuel st h
  intro i hi
  obtain ⟨-, -, -, -, -, hstop⟩ := htr i hi
  obtain ⟨q, hq, hlt⟩ := stop_false_tolerance hp hstop
  obtain ⟨hpos, hqe⟩ := marginalRatio_ok hq
  rw [← marginalCoverage_eq, ← hqe]
  have h3 : (0 : ℚ) < Y.nnz := by exact_mod_cast hpos
  nlinarith

example : ∃ s0, demoSamplers.tailFit trainY = .ok s0 := by
  obtain ⟨s0, h, -⟩ := C24_greedy_trace demoSamplers demoParams trainX trainY _ _ 3 _
    (demo_run (fun _ _ => ()))
  exact ⟨s0, h⟩

/-! ### C25 -/

/-- **C25.** The second round selects exactly `budget` rules, each from the pool, each maximising the
objective relative to the ones chosen before it. -/
theorem C25_second_round {σ ω : Type} (S : Samplers σ ω) (p : Params) (pool : List BRule)
    (budget : ℕ) (sel : List BRule) (obj : ℝ) (h : fit2ndRound S p pool budget = .ok (sel, obj)) :
    sel.length = budget ∧
    ∀ i (hi : i < sel.length),
      GreedyChoice (objectiveOfRule qualityOfRule p.lambd) (sel.take i) pool sel[i] := by
  unfold fit2ndRound at h
  split at h
  · cases h
  rcases hpk : pickLoop S (objectiveOfRule qualityOfRule p.lambd) pool budget [] with e | out
  · rw [hpk] at h; cases h
  · rw [hpk] at h
    simp only [bind, Except.bind, pure, Except.pure] at h
    split at h
    · cases h
    · simp only [Except.ok.injEq, Prod.mk.injEq] at h
      obtain ⟨rfl, -⟩ := h
      obtain ⟨h1, -, h3⟩ := pickLoop_ok hpk
      exact ⟨by simpa using h1, fun i hi => h3 i (by simp) hi⟩

/-- **C25.** The pool of the second round is the union of the candidate batches generated in the first
round (equal rules kept once): one batch per selected rule, plus the last batch if the loop was left
by the stopping test. -/
theorem C25_pool_is_union_of_batches {σ ω : Type} (S : Samplers σ ω) (p : Params) (X Y : Cmp)
    (lr : Learner) (ws : ℕ → ℕ → ω) (fuel : ℕ) (st : LoopState σ)
    (h : runFit S p lr X Y [] ws fuel = some (.ok st)) :
    ∃ (s0 : σ) (batches : List (List BRule)), S.tailFit Y = .ok s0 ∧
      (batches.length = st.selected.length ∨ batches.length = st.selected.length + 1) ∧
      (∀ i (hi : i < batches.length), ∃ s, samplerAfter S s0 (st.selected.take i) = .ok s ∧
        generateCandidates S p X X.flip Y.flip s (ws i) = .ok batches[i]) ∧
      (∀ b ∈ st.pool, ∃ batch ∈ batches, b ∈ batch) ∧
      (∀ batch ∈ batches, ∀ c ∈ batch, ∃ b ∈ st.pool, b.toRule = c.toRule) := by
  unfold runFit at h
  split at h
  · simp at h
  rename_i s0 hs0
  obtain ⟨batches, s, ⟨hr1, -, hr3⟩, hs, hcase⟩ := fitLoop_history h
  simp only [List.length_nil, Nat.zero_add, List.drop_zero] at hr1 hr3 hs
  rcases hcase with ⟨-, hpool⟩ | ⟨cands, best, hg, -, -, hpool⟩
  · obtain ⟨m1, -, m3⟩ := mem_foldl_poolUnion batches []
    refine ⟨s0, batches, hs0, Or.inl hr1, ?_, ?_, ?_⟩
    · intro i hi
      obtain ⟨s', best, e1, e2, -⟩ := hr3 i hi
      exact ⟨s', e1, e2⟩
    · intro b hb
      rw [hpool] at hb
      rcases m1 b hb with h | h
      · simp at h
      · exact h
    · rw [hpool]; exact m3
  · obtain ⟨m1, -, m3⟩ := mem_foldl_poolUnion (batches ++ [cands]) []
    refine ⟨s0, batches ++ [cands], hs0, Or.inr (by simp [hr1]), ?_, ?_, ?_⟩
    · intro i hi
      rw [List.length_append, List.length_singleton] at hi
      by_cases hlt : i < batches.length
      · obtain ⟨s', best, e1, e2, -⟩ := hr3 i hlt
        exact ⟨s', e1, by rw [List.getElem_append_left hlt]; exact e2⟩
      · have : i = batches.length := by omega
        subst this
        refine ⟨s, ?_, ?_⟩
        · rw [hr1, List.take_length]; exact hs
        · simp only [List.getElem_concat_length]; exact hg
    · intro b hb
      rw [hpool] at hb
      rcases m1 b hb with h | h
      · simp at h
      · exact h
    · rw [hpool]; exact m3

/-- **C25.** The second round may choose the same rule more than once: with a single candidate it is
repeated to fill the budget. -/
theorem C25_may_repeat {σ ω : Type} (S : Samplers σ ω) (p : Params) (r : BRule) (budget : ℕ)
    (sel : List BRule) (obj : ℝ) (h : fit2ndRound S p [r] budget = .ok (sel, obj)) :
    sel = List.replicate budget r := by
  obtain ⟨h1, h2⟩ := C25_second_round S p [r] budget sel obj h
  apply List.eq_replicate_iff.mpr
  refine ⟨h1, ?_⟩
  intro b hb
  obtain ⟨i, hi, rfl⟩ := List.getElem_of_mem hb
  simpa using (h2 i hi).1

/-- Rules bound to the training data with a non-empty label area: the second round returns. -/
theorem fit2ndRound_succeeds {σ ω : Type} (S : Samplers σ ω) (p : Params) (X Y : Cmp)
    (hn : X.nMajor = Y.nMajor) (pool : List BRule) (hne : pool ≠ [])
    (hb : ∀ b ∈ pool, BoundTo X Y b) (ha : ∀ b ∈ pool, (area b).Nonempty) (budget : ℕ) :
    ∃ sel obj, fit2ndRound S p pool budget = .ok (sel, obj) := by
  have hobj : ∀ sel : List BRule, (∀ b ∈ sel, b ∈ pool) → ∀ c ∈ pool,
      ∃ v, objectiveOfRule qualityOfRule p.lambd sel c = .ok v := by
    intro sel hsel c hc
    obtain ⟨k, hk, -⟩ := klReal_bound hn (hb c hc)
    have hd : diversityOfRule sel c = .ok (sel.map (areaDist c)).sum := by
      apply pySum_ok
      intro b hb'
      apply distReal_eq (hb c hc).2.2 (hb b (hsel b hb')).2.2
      obtain ⟨x, hx⟩ := ha c hc
      exact ⟨x, by simp [hx]⟩
    unfold objectiveOfRule qualityOfRule
    rw [hk, hd]
    exact ⟨_, rfl⟩
  have hpick : ∀ n (sel : List BRule), (∀ b ∈ sel, b ∈ pool) →
      ∃ out, pickLoop S (objectiveOfRule qualityOfRule p.lambd) pool n sel = .ok out ∧
        ∀ b ∈ out, b ∈ pool := by
    intro n
    induction n with
    | zero => intro sel hsel; exact ⟨sel, rfl, hsel⟩
    | succ n ih =>
      intro sel hsel
      obtain ⟨best, hbest⟩ := (C21_select_best S (objectiveOfRule qualityOfRule p.lambd sel) pool).2.1
        hne (hobj sel hsel)
      have hmem := ((C21_select_best S (objectiveOfRule qualityOfRule p.lambd sel) pool).1 best hbest).1
      obtain ⟨out, ho, hm⟩ := ih (sel ++ [best]) (by
        intro b hb'
        rw [List.mem_append, List.mem_singleton] at hb'
        rcases hb' with h | rfl
        · exact hsel b h
        · exact hmem)
      refine ⟨out, ?_, hm⟩
      rw [pickLoop, hbest]
      exact ho
  obtain ⟨out, ho, hm⟩ := hpick budget [] (by simp)
  have hq : pySum (qualityOfRule out) out = .ok (out.map fun _ => (0 : ℝ)).sum :=
    pySum_ok fun b hb' => qualityOfRule_self hn (hb b (hm b hb')) hb'
  have hd : pySum (fun pr : BRule × BRule => distReal pr.1 pr.2) (pairs out) =
      .ok ((pairs out).map fun x => areaDist x.1 x.2).sum := by
    apply pySum_ok
    intro x hx
    have hx' := mem_pairs hx
    apply distReal_eq (hb _ (hm _ hx'.1)).2.2 (hb _ (hm _ hx'.2)).2.2
    obtain ⟨y, hy⟩ := ha _ (hm _ hx'.1)
    exact ⟨y, by simp [hy]⟩
  unfold fit2ndRound
  rw [if_neg (by rwa [List.length_eq_zero_iff]), ho]
  simp only [objectiveOf, hq, hd, bind, Except.bind, pure, Except.pure]
  exact ⟨out, _, rfl⟩

/-- The pool {0 -> 0, 0 -> 1} admits a second round of any budget. -/
theorem demo_second_round (budget : ℕ) :
    ∃ sel obj, fit2ndRound demoSamplers demoParams [demoRule 0, demoRule 1] budget = .ok (sel, obj) := by
  apply fit2ndRound_succeeds demoSamplers demoParams trainX trainY (by decide) _ (by simp)
  · intro b hb
    simp only [List.mem_cons, List.not_mem_nil, or_false] at hb
    rcases hb with rfl | rfl <;> exact demoRule_bound (by norm_num)
  · intro b hb
    simp only [List.mem_cons, List.not_mem_nil, or_false] at hb
    rcases hb with rfl | rfl <;> exact demoRule_area (by norm_num)

example : ∃ sel obj, fit2ndRound demoSamplers demoParams [demoRule 0, demoRule 1] 3 = .ok (sel, obj) ∧
    sel.length = 3 := by
  obtain ⟨sel, obj, h⟩ := demo_second_round 3
  exact ⟨sel, obj, h, (C25_second_round _ _ _ _ _ _ h).1⟩

/-! ### C26 -/

/-- **C26.** The objective of the classifier's own selection (both the product and the square-root
quality) is lambda times the sum of pairwise distances: the quality part contributes nothing. -/
theorem C26_objective_only_diversity (X Y : Cmp) (hn : X.nMajor = Y.nMajor) (lambd : ℝ)
    (sel : List BRule) (hb : ∀ b ∈ sel, BoundTo X Y b) (v : ℝ) :
    (objectiveOf qualityOfRule lambd sel sel = .ok v → v = lambd * diversity sel) ∧
    (objectiveOf qualityOfRuleV3 lambd sel sel = .ok v → v = lambd * diversity sel) :=
  ⟨objectiveOf_ok (fun b h => (hb b h).2.2) (fun b h => qualityOfRule_self hn (hb b h) h),
   objectiveOf_ok (fun b h => (hb b h).2.2) (fun b h => qualityOfRuleV3_self hn (hb b h) h)⟩

example : ∃ v, objectiveOf qualityOfRule 1 trainRules trainRules = .ok v → v = 1 * diversity trainRules :=
  ⟨1 * diversity trainRules, (C26_objective_only_diversity trainX trainY (by decide) 1 trainRules
    trainRules_bound _).1⟩

/-! ### C27 -/

/-- **C27.** `fit` keeps the second round's rules unless the first round's objective is strictly
larger; the kept rules attain the larger of the two objectives, while the reported `obj` is the
smaller, so it is the objective of the kept rules exactly when the rounds tie. -/
theorem C27_fit_keeps_larger_reports_smaller {σ ω : Type} (S : Samplers σ ω) (p : Params)
    (X Y : Cmp) (held : List BRule) (ws : ℕ → ℕ → ω) (fuel : ℕ) (res : FitResult)
    (h : fitDivMax S p X Y held ws fuel = some (.ok res)) :
    ∃ st, runFit S p (learnerDivMax p Y) X Y held ws fuel = some (.ok st) ∧
      res.round1 = st.selected ∧
      fit2ndRound S p st.pool st.selected.length = .ok (res.round2, res.objRound2) ∧
      objectiveOf qualityOfRule p.lambd res.round1 res.round1 = .ok res.objRound1 ∧
      objectiveOf qualityOfRule p.lambd res.round2 res.round2 = .ok res.objRound2 ∧
      (res.objRound2 < res.objRound1 → res.selected = res.round1) ∧
      (res.objRound1 ≤ res.objRound2 → res.selected = res.round2) ∧
      objectiveOf qualityOfRule p.lambd res.selected res.selected =
        .ok (max res.objRound1 res.objRound2) ∧
      res.obj = min res.objRound1 res.objRound2 ∧
      (objectiveOf qualityOfRule p.lambd res.selected res.selected = .ok res.obj ↔
        res.objRound1 = res.objRound2) := by
  unfold fitDivMax at h
  split at h
  · cases h
  · cases h
  rename_i st hrun
  simp only [Option.some.injEq] at h
  unfold fitTail at h
  rcases h1 : objectiveOf qualityOfRule p.lambd st.selected st.selected with e | o1
  · rw [h1] at h; cases h
  rw [h1] at h
  rcases h2 : fit2ndRound S p st.pool st.selected.length with e | ⟨sel2, o2⟩
  · rw [h2] at h; cases h
  rw [h2] at h
  simp only [bind, Except.bind, pure, Except.pure, Except.ok.injEq] at h
  subst h
  have ho2 : objectiveOf qualityOfRule p.lambd sel2 sel2 = .ok o2 := by
    have h2' := h2
    unfold fit2ndRound at h2'
    split at h2'
    · cases h2'
    rcases hpk : pickLoop S (objectiveOfRule qualityOfRule p.lambd) st.pool st.selected.length [] with e | out
    · rw [hpk] at h2'; cases h2'
    rw [hpk] at h2'
    simp only [bind, Except.bind, pure, Except.pure] at h2'
    split at h2'
    · cases h2'
    · rename_i o ho
      simp only [Except.ok.injEq, Prod.mk.injEq] at h2'
      obtain ⟨rfl, rfl⟩ := h2'
      exact ho
  have hmax : objectiveOf qualityOfRule p.lambd (if o1 > o2 then st.selected else sel2)
      (if o1 > o2 then st.selected else sel2) = .ok (max o1 o2) := by
    split
    · rename_i hgt
      rw [h1, max_eq_left (le_of_lt hgt)]
    · rename_i hgt
      rw [ho2, max_eq_right (not_lt.mp hgt)]
  refine ⟨st, hrun, rfl, h2, h1, ho2, ?_, ?_, hmax, rfl, ?_⟩
  · intro hlt; exact if_pos hlt
  · intro hle; exact if_neg (not_lt.mpr hle)
  · show (objectiveOf qualityOfRule p.lambd (if o1 > o2 then st.selected else sel2)
      (if o1 > o2 then st.selected else sel2) = .ok (min o1 o2)) ↔ o1 = o2
    rw [hmax]
    simp only [Except.ok.injEq]
    constructor
    · intro h
      rcases le_total o1 o2 with hle | hle
      · rw [max_eq_right hle, min_eq_left hle] at h; exact h.symm
      · rw [max_eq_left hle, min_eq_right hle] at h; exact h
    · rintro rfl; simp

theorem demo_objective_value :
    ∃ o, objectiveOf qualityOfRule 1 [demoRule 0, demoRule 1] [demoRule 0, demoRule 1] = .ok o := by
  have hb : ∀ b ∈ [demoRule 0, demoRule 1], BoundTo trainX trainY b := by
    intro b hb
    simp only [List.mem_cons, List.not_mem_nil, or_false] at hb
    rcases hb with rfl | rfl <;> exact demoRule_bound (by norm_num)
  have hq : pySum (qualityOfRule [demoRule 0, demoRule 1]) [demoRule 0, demoRule 1] = .ok _ :=
    pySum_ok (g := fun _ => 0) fun b hb' => qualityOfRule_self (by decide) (hb b hb') hb'
  have hd : pySum (fun pr : BRule × BRule => distReal pr.1 pr.2) (pairs [demoRule 0, demoRule 1]) =
      .ok _ := pySum_ok (g := fun x => areaDist x.1 x.2) fun x hx => by
        have hx' := mem_pairs hx
        apply distReal_eq (hb _ hx'.1).2.2 (hb _ hx'.2).2.2
        have : (area x.1).Nonempty := by
          have := hx'.1
          simp only [List.mem_cons, List.not_mem_nil, or_false] at this
          rcases this with h | h <;> rw [h] <;> exact demoRule_area (by norm_num)
        obtain ⟨y, hy⟩ := this
        exact ⟨y, by simp [hy]⟩
  exact ⟨_, by simp only [objectiveOf, hq, hd, bind, Except.bind, pure, Except.pure]; rfl⟩

/-- The demonstration fit completes. -/
theorem demo_fit (ws : ℕ → ℕ → Unit) :
    ∃ res, fitDivMax demoSamplers demoParams trainX trainY [] ws 3 = some (.ok res) := by
  have hpool : poolUnion (poolUnion [] [demoRule 0]) [demoRule 1] = [demoRule 0, demoRule 1] := by
    have hne : ¬ (demoRule 0).toRule = (demoRule 1).toRule := by
      intro h
      have := congrArg Rule.tail h
      simp [demoRule, boundRule, Rule.new] at this
    have hne' : (demoRule 0).toRule.eq (demoRule 1).toRule = false := by
      rcases hb : (demoRule 0).toRule.eq (demoRule 1).toRule with _ | _
      · rfl
      · exact absurd ((Rule.eq_iff _ _).mp hb) hne
    simp [poolUnion, hne']
  unfold fitDivMax
  rw [demo_run ws, hpool]
  obtain ⟨sel, obj, h2⟩ := demo_second_round 2
  obtain ⟨o, h1⟩ := demo_objective_value
  simp only [fitTail]
  rw [show demoParams.lambd = 1 from rfl, h1]
  rw [show ([demoRule 0, demoRule 1] : List BRule).length = 2 from rfl, h2]
  exact ⟨_, rfl⟩

example : ∃ res, fitDivMax demoSamplers demoParams trainX trainY [] (fun _ _ => ()) 3 = some (.ok res) ∧
    res.obj = min res.objRound1 res.objRound2 := by
  obtain ⟨res, h⟩ := demo_fit (fun _ _ => ())
  obtain ⟨-, -, -, -, -, -, -, -, -, h2, -⟩ := C27_fit_keeps_larger_reports_smaller _ _ _ _ _ _ _ res h
  exact ⟨res, h, h2⟩

example : ∃ sel obj, fitV2 demoSamplers demoParams (learnerDivMax demoParams trainY) qualityOfRule trainX trainY []
    (fun _ _ => ()) 3 = some (.ok (sel, obj)) ∧ sel.length = 2 ∧
    objectiveOf qualityOfRule demoParams.lambd sel sel = .ok obj := by
  obtain ⟨o, h1⟩ := demo_objective_value
  have h : fitV2 demoSamplers demoParams (learnerDivMax demoParams trainY) qualityOfRule trainX trainY []
      (fun _ _ => ()) 3 = some (.ok ([demoRule 0, demoRule 1], o)) := by
    unfold fitV2
    rw [demo_run]
    simp only
    rw [show demoParams.lambd = 1 from rfl, h1]
    rfl
  exact ⟨_, _, h, rfl, (C24_fit demoSamplers demoParams trainX trainY _ _ _ 3 _ _ h).1⟩

/-! ### C28 -/

/-- **C28.** Refitting an object that already holds at least `n_max_rules` rules leaves the selected
rules unchanged, whatever the new data and samplers. -/
theorem C28_refit_keeps_rules {σ ω : Type} (S : Samplers σ ω) (p : Params) (k : ℕ)
    (hp : p.nMaxRules = some k) (X Y : Cmp) (lr : Learner)
    (hlr : lr = learnerDivMax p Y ∨ lr = learnerV2 p ∨ lr = learnerV3 p ∨ lr = learnerSubmod p)
    (held : List BRule) (hheld : k ≤ held.length) (ws : ℕ → ℕ → ω) (fuel : ℕ) (st : LoopState σ)
    (h : runFit S p lr X Y held ws fuel = some (.ok st)) : st.selected = held := by
  unfold runFit at h
  split at h
  · simp at h
  obtain ⟨batches, s, ⟨hr1, hr2, hr3⟩, -, -⟩ := fitLoop_history h
  rcases Nat.eq_zero_or_pos batches.length with h0 | h0
  · rw [← hr2, List.take_of_length_le (by omega)]
  · obtain ⟨s', best, -, -, -, -, hstop⟩ := hr3 0 h0
    rw [stop_budget hp hlr] at hstop
    simp only [List.length_take, Except.ok.injEq, decide_eq_false_iff_not, not_le] at hstop
    omega

/-- **C28.** More generally a refit only ever appends to the rules already held. -/
theorem C28_refit_extends {σ ω : Type} (S : Samplers σ ω) (p : Params) (X Y : Cmp) (lr : Learner)
    (held : List BRule) (ws : ℕ → ℕ → ω) (fuel : ℕ) (st : LoopState σ)
    (h : runFit S p lr X Y held ws fuel = some (.ok st)) : held <+: st.selected := by
  unfold runFit at h
  split at h
  · simp at h
  obtain ⟨batches, s, ⟨hr1, hr2, hr3⟩, -, -⟩ := fitLoop_history h
  rw [← hr2]
  exact List.take_prefix _ _

/-- Six rules already held (budget 5), and a sampler that still has something to offer: the refit
returns with the six rules. -/
example : ∃ st, runFit demoSamplers demoParams (learnerV2 demoParams) trainX trainY
    (List.replicate 6 (demoRule 1)) (fun _ _ => ()) 6 = some (.ok st) ∧
    st.selected = List.replicate 6 (demoRule 1) := by
  have hb : ∀ b ∈ List.replicate 6 (demoRule 1), BoundTo trainX trainY b := by
    intro b hb
    rw [List.eq_of_mem_replicate hb]
    exact demoRule_bound (by norm_num)
  obtain ⟨v, hv⟩ := demo_objective (s := 0) (by norm_num) hb
  have : ∃ st, runFit demoSamplers demoParams (learnerV2 demoParams) trainX trainY
      (List.replicate 6 (demoRule 1)) (fun _ _ => ()) 6 = some (.ok st) := by
    have hi : fitIter demoSamplers demoParams (learnerV2 demoParams) trainX trainX.flip trainY.flip
        (fun _ => ()) { sampler := 0, selected := List.replicate 6 (demoRule 1), pool := [] } =
        .ok (.done { sampler := 0, selected := List.replicate 6 (demoRule 1),
                     pool := poolUnion [] [demoRule 0] }) := by
      unfold fitIter
      rw [demo_generate (by norm_num)]
      have hs : selectBest demoSamplers ((learnerV2 demoParams).objective
          (List.replicate 6 (demoRule 1))) [demoRule 0] = .ok (demoRule 0) := by
        have : demoSamplers.setOrder [demoRule 0] = [demoRule 0] := rfl
        rw [selectBest, this, pyMax]
        show (do let kx ← objectiveOfRule qualityOfRule 1 _ _; pyMaxLoop _ _ _ kx) = _
        rw [hv]; rfl
      simp only [hs, bind, Except.bind]
      rfl
    unfold runFit
    have hf : demoSamplers.tailFit trainY = .ok 0 := rfl
    rw [hf]
    simp only [fitLoop, hi]
    exact ⟨_, rfl⟩
  obtain ⟨st, hst⟩ := this
  exact ⟨st, hst, C28_refit_keeps_rules demoSamplers demoParams 5 rfl trainX trainY _ (by simp) _
    (by simp) _ 6 st hst⟩

/-! ### C29 -/

theorem objectiveOf_error {lambd : ℝ} {sel rules : List BRule} {e : PyErr}
    (h : objectiveOf qualityOfRule lambd sel rules = .error e) : e = .zeroDivisionError := by
  unfold objectiveOf at h
  rcases hq : pySum (qualityOfRule sel) rules with e' | q
  · rw [hq] at h
    cases h
    obtain ⟨x, -, hx⟩ := pySum_error e 0 hq
    unfold qualityOfRule at hx
    rcases hk : x.klReal with e'' | k
    · rw [hk] at hx; cases hx; exact klReal_error hk
    · rw [hk] at hx; cases hx
  · rw [hq] at h
    rcases hd : pySum (fun pr : BRule × BRule => distReal pr.1 pr.2) (pairs rules) with e' | d
    · rw [hd] at h
      cases h
      obtain ⟨x, -, hx⟩ := pySum_error e 0 hd
      exact distReal_error hx
    · rw [hd] at h; cases h

theorem objectiveOfRule_error {lambd : ℝ} {sel : List BRule} {r : BRule} {e : PyErr}
    (h : objectiveOfRule qualityOfRule lambd sel r = .error e) : e = .zeroDivisionError := by
  unfold objectiveOfRule at h
  rcases hq : qualityOfRule sel r with e' | q
  · rw [hq] at h
    cases h
    unfold qualityOfRule at hq
    rcases hk : r.klReal with e'' | k
    · rw [hk] at hq; cases hq; exact klReal_error hk
    · rw [hk] at hq; cases hq
  · rw [hq] at h
    rcases hd : diversityOfRule sel r with e' | d
    · rw [hd] at h
      cases h
      obtain ⟨x, -, hx⟩ := pySum_error e 0 hd
      exact distReal_error hx
    · rw [hd] at h; cases h

theorem pyMaxLoop_error {α κ : Type} [LinearOrder κ] {key : α → Py κ} {e : PyErr} :
    ∀ {xs : List α} {b : α} {k : κ}, pyMaxLoop key xs b k = .error e → ∃ x ∈ xs, key x = .error e
  | [], b, k, h => by simp [pyMaxLoop] at h
  | x :: xs, b, k, h => by
    rw [pyMaxLoop] at h
    rcases hx : key x with e' | kx
    · rw [hx] at h; cases h; exact ⟨x, by simp, hx⟩
    · rw [hx] at h
      simp only [bind, Except.bind] at h
      split at h <;> obtain ⟨y, hy, he⟩ := pyMaxLoop_error h <;> exact ⟨y, by simp [hy], he⟩

theorem pyMax_error {α κ : Type} [LinearOrder κ] {key : α → Py κ} {e : PyErr} {xs : List α}
    (h : pyMax key xs = .error e) : (xs = [] ∧ e = .valueError) ∨ ∃ x ∈ xs, key x = .error e := by
  cases xs with
  | nil => simp only [pyMax, Except.error.injEq] at h; exact Or.inl ⟨rfl, h.symm⟩
  | cons x xs =>
    right
    rw [pyMax] at h
    rcases hx : key x with e' | kx
    · rw [hx] at h; cases h; exact ⟨x, by simp, hx⟩
    · rw [hx] at h
      obtain ⟨y, hy, he⟩ := pyMaxLoop_error h
      exact ⟨y, by simp [hy], he⟩

theorem pickLoop_error {σ ω : Type} {S : Samplers σ ω} {lambd : ℝ} {pool : List BRule} {e : PyErr} :
    ∀ {n : ℕ} {sel : List BRule},
      pickLoop S (objectiveOfRule qualityOfRule lambd) pool n sel = .error e →
      e = .valueError ∨ e = .zeroDivisionError
  | 0, sel, h => by simp [pickLoop] at h
  | n + 1, sel, h => by
    rw [pickLoop] at h
    rcases hb : selectBest S (objectiveOfRule qualityOfRule lambd sel) pool with e' | best
    · rw [hb] at h
      cases h
      rcases pyMax_error hb with ⟨-, h⟩ | ⟨x, -, hx⟩
      · exact Or.inl h
      · exact Or.inr (objectiveOfRule_error hx)
    · rw [hb] at h
      exact pickLoop_error h

/-- **C29.** Once the first round of a new classifier has ended normally, `fit` raises
`InsufficientCandidates` exactly when no candidate rule was generated, which happens exactly when the
very first batch could not be generated because of `NoMoreSamples`; no rule is selected then. -/
theorem C29_insufficient_candidates {σ ω : Type} (S : Samplers σ ω) (p : Params) (X Y : Cmp)
    (ws : ℕ → ℕ → ω) (fuel : ℕ) (st : LoopState σ)
    (h : runFit S p (learnerDivMax p Y) X Y [] ws fuel = some (.ok st)) :
    (fitDivMax S p X Y [] ws fuel = some (.error .insufficientCandidates) ↔ st.pool = []) ∧
    (st.pool = [] → st.selected = []) ∧
    (st.pool = [] ↔ ∃ s0, S.tailFit Y = .ok s0 ∧
      generateCandidates S p X X.flip Y.flip s0 (ws 0) = .error .noMoreSamples) := by
  have hrun := h
  unfold runFit at h
  split at h
  · simp at h
  rename_i s0 hs0
  obtain ⟨batches, s, ⟨hr1, -, hr3⟩, hs, hcase⟩ := fitLoop_history h
  simp only [List.length_nil, Nat.zero_add, List.drop_zero] at hr1 hr3 hs
  -- a batch is never empty, since a choice was made from it
  have hnonempty : ∀ (bs : List (List BRule)), (∃ b ∈ bs, b ≠ []) → bs.foldl poolUnion [] ≠ [] := by
    rintro bs ⟨b, hb, hne⟩ h0
    obtain ⟨c, hc⟩ := List.exists_mem_of_ne_nil b hne
    obtain ⟨x, hx, -⟩ := (mem_foldl_poolUnion bs []).2.2 b hb c hc
    rw [h0] at hx; simp at hx
  have hbatch : batches ≠ [] → ∃ b ∈ batches, b ≠ [] := by
    intro hne
    have hpos : 0 < batches.length := List.length_pos_of_ne_nil hne
    obtain ⟨s', best, -, -, -, hgc, -⟩ := hr3 0 hpos
    exact ⟨batches[0], List.getElem_mem hpos, List.ne_nil_of_mem hgc.1⟩
  have hempty : st.pool = [] → batches = [] ∧
      generateCandidates S p X X.flip Y.flip s (ws batches.length) = .error .noMoreSamples := by
    intro h0
    rcases hcase with ⟨hg, hpool⟩ | ⟨cands, best, -, hgc, -, hpool⟩
    · refine ⟨?_, hg⟩
      by_contra hne
      exact hnonempty _ (hbatch hne) (hpool ▸ h0)
    · exact absurd (hpool ▸ h0)
        (hnonempty _ ⟨cands, by simp, List.ne_nil_of_mem hgc.1⟩)
  have hsel : st.pool = [] → st.selected = [] := by
    intro h0
    obtain ⟨hb, -⟩ := hempty h0
    rw [hb] at hr1
    exact List.length_eq_zero_iff.mp hr1.symm
  refine ⟨?_, hsel, ?_⟩
  · unfold fitDivMax
    rw [hrun]
    simp only [Option.some.injEq]
    constructor
    · intro hf
      by_contra hne
      unfold fitTail at hf
      rcases h1 : objectiveOf qualityOfRule p.lambd st.selected st.selected with e | o1
      · rw [h1] at hf; cases hf; exact absurd (objectiveOf_error h1) (by decide)
      rw [h1] at hf
      rcases h2 : fit2ndRound S p st.pool st.selected.length with e | ⟨sel2, o2⟩
      · rw [h2] at hf; cases hf
        unfold fit2ndRound at h2
        rw [if_neg (by rwa [List.length_eq_zero_iff])] at h2
        rcases hpk : pickLoop S (objectiveOfRule qualityOfRule p.lambd) st.pool st.selected.length [] with e | out
        · rw [hpk] at h2; cases h2
          rcases pickLoop_error hpk with h | h <;> exact absurd h (by decide)
        · rw [hpk] at h2
          simp only [bind, Except.bind, pure, Except.pure] at h2
          split at h2
          · rename_i e he
            cases h2
            exact absurd (objectiveOf_error he) (by decide)
          · cases h2
      · rw [h2] at hf; cases hf
    · intro h0
      rw [fitTail, hsel h0, h0]
      simp [objectiveOf, pySum, pairs, fit2ndRound, bind, Except.bind, pure, Except.pure]
  · constructor
    · intro h0
      obtain ⟨hb, hg⟩ := hempty h0
      have hs' : s = s0 := by
        rw [hsel h0] at hs
        simp only [samplerAfter, List.foldlM_nil, pure, Except.pure, Except.ok.injEq] at hs
        exact hs.symm
      rw [hb, hs'] at hg
      exact ⟨s0, hs0, hg⟩
    · rintro ⟨s0', h1, hg⟩
      rw [hs0] at h1
      cases h1
      have hb : batches = [] := by
        by_contra hne
        have hpos : 0 < batches.length := List.length_pos_of_ne_nil hne
        obtain ⟨s', best, e1, e2, -⟩ := hr3 0 hpos
        simp only [samplerAfter, List.take_zero, List.foldlM_nil, pure, Except.pure,
          Except.ok.injEq] at e1
        subst e1
        rw [hg] at e2; cases e2
      subst hb
      have hs1 : st.selected = [] := List.length_eq_zero_iff.mp (by simpa using hr1.symm)
      rcases hcase with ⟨-, hpool⟩ | ⟨cands, best, hg', -, -, -⟩
      · exact hpool
      · rw [hs1] at hs
        simp only [samplerAfter, List.foldlM_nil, pure, Except.pure, Except.ok.injEq] at hs
        subst hs
        rw [List.length_nil, hg] at hg'; cases hg'

/-- A sampler with nothing to offer. -/
def emptySamplers : Samplers Unit Unit :=
  { tailFit := fun _ => .ok (), tailSample := fun _ _ => .error .noMoreSamples,
    tailUpdate := fun _ _ _ => .ok (), headSample := fun _ _ _ _ => .ok [], setOrder := id,
    setOrder_perm := fun _ => List.Perm.refl _ }

example : fitDivMax emptySamplers demoParams trainX trainY [] (fun _ _ => ()) 3 =
    some (.error .insufficientCandidates) := by
  have hr : runFit emptySamplers demoParams (learnerDivMax demoParams trainY) trainX trainY []
      (fun _ _ => ()) 3 = some (.ok { sampler := (), selected := [], pool := [] }) := rfl
  exact (C29_insufficient_candidates _ _ _ _ _ _ _ hr).1.mpr rfl

/-! ### C30 -/

/-- **C30.** Let `kl` be the KL scores of the candidates and `κ ≥ 0` a lower bound of those of the
competitors. The list `G` chosen by the second round beats every list `O` of `k` candidates in the
following sense: the quality collected by the greedy picks, plus `κ` times the covered cells, plus
lambda times the diversity of `G`, is at least `κ` times the cells covered by `O` plus half of lambda
times the diversity of `O`. -/
theorem C30_greedy_guarantee_general {σ ω : Type} (S : Samplers σ ω) (p : Params) (X Y : Cmp)
    (pool : List BRule) (hb : ∀ b ∈ pool, BoundTo X Y b) (k : ℕ) (G : List BRule) (obj : ℝ)
    (h : fit2ndRound S p pool k = .ok (G, obj)) (hl : 0 ≤ p.lambd) (kl : BRule → ℝ)
    (hkl : ∀ r ∈ pool, r.KL = .ok (kl r : EReal)) (O : List BRule) (hO : O.length = k)
    (hOp : ∀ o ∈ O, o ∈ pool) (κ : ℝ) (hκ : 0 ≤ κ) (hκO : ∀ o ∈ O, κ ≤ kl o) :
    κ * (covered O).card + p.lambd * diversity O / 2 ≤
      (∑ i ∈ Finset.range k, if h : i < G.length then
        kl G[i] * ((area G[i]) \ covered (G.take i)).card else 0)
      + κ * (covered G).card + p.lambd * diversity G := by
  obtain ⟨hlen, hgr⟩ := C25_second_round S p pool k G obj h
  simp only [← marginalCoverage_eq]
  apply greedy_approx pool G O k hlen hO hOp p.lambd κ hl hκ kl hκO
  intro i hi c hc
  have hnd : ∀ b ∈ G.take i, b.tail.Nodup := by
    intro b hb'
    obtain ⟨j, hj, rfl⟩ := List.getElem_of_mem (List.mem_of_mem_take hb')
    exact (hb _ (hgr j hj).1).2.2
  obtain ⟨hmem, v, hv, hmax⟩ := hgr i hi
  obtain ⟨vc, hvc, hle⟩ := hmax c hc
  obtain ⟨q, hq, hve⟩ := objectiveOfRule_ok hnd (hb _ hmem).2.2 hv
  obtain ⟨qc, hqc, hvce⟩ := objectiveOfRule_ok hnd (hb _ hc).2.2 hvc
  have hqual : ∀ r ∈ pool, qualityOfRule (G.take i) r = .ok ((r.marginalCoverage (G.take i) : ℝ) * kl r) := by
    intro r hr
    simp [qualityOfRule, BRule.klReal, hkl r hr, bind, Except.bind, pure, Except.pure]
  rw [hqual _ hmem] at hq
  rw [hqual _ hc] at hqc
  cases hq; cases hqc
  rw [hve, hvce] at hle
  linarith

/-- The cells newly covered by the picks add up to the covered cells. -/
theorem sum_new_cells (G : List BRule) :
    (∑ i ∈ Finset.range G.length, if h : i < G.length then
      (((area G[i]) \ covered (G.take i)).card : ℝ) else 0) = (covered G).card := by
  have := sum_marginal G G.length le_rfl
  rw [List.take_length] at this
  rw [← this]
  push_cast
  apply Finset.sum_congr rfl
  intro i _
  split
  · rw [marginalCoverage_eq]
  · simp

/-- **C30.** When all candidates have the same KL score `κ`, the list chosen by the second round
reaches at least half of the value `2 κ coverage + lambda diversity` of every list (in particular
every subset) of `k` candidates. -/
theorem C30_greedy_half_approximation {σ ω : Type} (S : Samplers σ ω) (p : Params) (X Y : Cmp)
    (pool : List BRule) (hb : ∀ b ∈ pool, BoundTo X Y b) (k : ℕ) (G : List BRule) (obj : ℝ)
    (h : fit2ndRound S p pool k = .ok (G, obj)) (hl : 0 ≤ p.lambd) (κ : ℝ) (hκ : 0 ≤ κ)
    (hkl : ∀ r ∈ pool, r.KL = .ok (κ : EReal)) (O : List BRule) (hO : O.length = k)
    (hOp : ∀ o ∈ O, o ∈ pool) :
    (2 * κ * (covered O).card + p.lambd * diversity O) / 2 ≤
      2 * κ * (covered G).card + p.lambd * diversity G := by
  have hlen := (C25_second_round S p pool k G obj h).1
  have := C30_greedy_guarantee_general S p X Y pool hb k G obj h hl (fun _ => κ) hkl O hO hOp κ hκ
    (fun _ _ => le_rfl)
  have hs := sum_new_cells G
  subst hlen
  have e : (∑ i ∈ Finset.range G.length, if h : i < G.length then
        κ * ((area G[i]) \ covered (G.take i)).card else 0) = κ * (covered G).card := by
    rw [← hs, Finset.mul_sum]
    apply Finset.sum_congr rfl
    intro i _
    split <;> simp
  rw [e] at this
  linarith

/-- The KL score of a rule as a real number. -/
noncomputable def demoKL (r : BRule) : ℝ := match r.KL with | .ok k => k.toReal | .error _ => 0

/-- The guarantee applies to a real run: two candidates, budget 2. -/
example : ∃ G obj, fit2ndRound demoSamplers demoParams [demoRule 0, demoRule 1] 2 = .ok (G, obj) ∧
    0 + demoParams.lambd * diversity [demoRule 0, demoRule 1] / 2 ≤
      (∑ i ∈ Finset.range 2, if h : i < G.length then
        demoKL G[i] * ((area G[i]) \ covered (G.take i)).card else 0)
      + 0 + demoParams.lambd * diversity G := by
  obtain ⟨G, obj, h⟩ := demo_second_round 2
  have hb : ∀ b ∈ [demoRule 0, demoRule 1], BoundTo trainX trainY b := by
    intro b hb
    simp only [List.mem_cons, List.not_mem_nil, or_false] at hb
    rcases hb with rfl | rfl <;> exact demoRule_bound (by norm_num)
  refine ⟨G, obj, h, ?_⟩
  have := C30_greedy_guarantee_general demoSamplers demoParams trainX trainY _ hb 2 G obj h
    (by simp [demoParams]) demoKL ?_
    [demoRule 0, demoRule 1] rfl (fun _ h => h) 0 le_rfl ?_
  · simpa only [zero_mul] using this
  · intro r hr
    obtain ⟨k, -, -, hk⟩ := klReal_bound (X := trainX) (Y := trainY) (by decide) (hb r hr)
    simp [demoKL, hk]
  · intro r hr
    obtain ⟨k, -, hk0, hk⟩ := klReal_bound (X := trainX) (Y := trainY) (by decide) (hb r hr)
    simpa [demoKL, hk] using hk0

/-- The equal-score form applies to a real run: one candidate rule, budget 3. -/
example : ∃ G obj κ, fit2ndRound demoSamplers demoParams [demoRule 0] 3 = .ok (G, obj) ∧
    (2 * κ * (covered (List.replicate 3 (demoRule 0))).card
      + demoParams.lambd * diversity (List.replicate 3 (demoRule 0))) / 2 ≤
      2 * κ * (covered G).card + demoParams.lambd * diversity G := by
  have hb : ∀ b ∈ [demoRule 0], BoundTo trainX trainY b := by
    intro b hb
    rw [List.mem_singleton.mp hb]
    exact demoRule_bound (by norm_num)
  obtain ⟨G, obj, h⟩ := fit2ndRound_succeeds demoSamplers demoParams trainX trainY (by decide)
    [demoRule 0] (by simp) hb
    (by intro b hb; rw [List.mem_singleton.mp hb]; exact demoRule_area (by norm_num)) 3
  obtain ⟨k, -, hk0, hk⟩ := klReal_bound (X := trainX) (Y := trainY) (by decide)
    (demoRule_bound (s := 0) (by norm_num))
  refine ⟨G, obj, k, h, C30_greedy_half_approximation demoSamplers demoParams trainX trainY _ hb 3 G
    obj h (by simp [demoParams]) k hk0 ?_ _ (by simp) ?_⟩
  · intro r hr; rw [List.mem_singleton.mp hr]; exact hk
  · intro o ho; rw [List.eq_of_mem_replicate ho]; simp

/-! ### C31 -/

/-- **C31.** The objective of GreedySubmod is KL + lambda * (newly covered cells) when the rule covers
something new and 0 otherwise; with lambda ≥ 0 it is non-negative. -/
theorem C31_submod_objective (X Y : Cmp) (hn : X.nMajor = Y.nMajor) (lambd : ℝ) (hl : 0 ≤ lambd)
    (sel : List BRule) (r : BRule) (hb : BoundTo X Y r) :
    ∃ k v : ℝ, r.KL = .ok (k : EReal) ∧ objectiveSubmod lambd sel r = .ok v ∧ 0 ≤ v ∧
      (¬ area r ⊆ covered sel → v = k + lambd * (area r \ covered sel).card) ∧
      (area r ⊆ covered sel → v = 0) := by
  obtain ⟨k, hk, hk0, hkl⟩ := klReal_bound hn hb
  have hmc := marginalCoverage_eq r sel
  refine ⟨k, (if 0 < r.marginalCoverage sel then 1 else 0) * k + lambd * r.marginalCoverage sel, hkl,
    ?_, ?_, ?_, ?_⟩
  · simp [objectiveSubmod, hk, bind, Except.bind, pure, Except.pure]
  · have : (0 : ℝ) ≤ (if 0 < r.marginalCoverage sel then 1 else 0) := by split <;> norm_num
    positivity
  · intro hns
    have : 0 < r.marginalCoverage sel := by
      rw [hmc, Finset.card_pos, Finset.sdiff_nonempty]
      exact hns
    rw [if_pos this, hmc, one_mul]
  · intro hs
    have : r.marginalCoverage sel = 0 := by
      rw [hmc, Finset.card_eq_zero, Finset.sdiff_eq_empty_iff_subset]
      exact hs
    simp [this]

/-- **C31.** A rule that covers nothing new is selected only when no candidate scores above 0; in
particular, never when lambda > 0 and some candidate covers something new. -/
theorem C31_useless_rule_not_selected {σ ω : Type} (S : Samplers σ ω) (X Y : Cmp)
    (hn : X.nMajor = Y.nMajor) (lambd : ℝ) (hl : 0 ≤ lambd) (sel cands : List BRule)
    (hb : ∀ b ∈ cands, BoundTo X Y b) (best : BRule)
    (h : selectBest S (objectiveSubmod lambd sel) cands = .ok best)
    (huseless : area best ⊆ covered sel) :
    (∀ c ∈ cands, objectiveSubmod lambd sel c = .ok 0) ∧
    (0 < lambd → ∀ c ∈ cands, area c ⊆ covered sel) := by
  obtain ⟨hmem, v, hv, hmax⟩ := selectBest_ok h
  obtain ⟨k, v', -, hv', -, -, h0⟩ := C31_submod_objective X Y hn lambd hl sel best (hb _ hmem)
  rw [hv] at hv'
  cases hv'
  have hv0 := h0 huseless
  subst hv0
  have hall : ∀ c ∈ cands, objectiveSubmod lambd sel c = .ok 0 := by
    intro c hc
    obtain ⟨vc, hvc, hle⟩ := hmax c hc
    obtain ⟨k', w, -, hw, hw0, -⟩ := C31_submod_objective X Y hn lambd hl sel c (hb _ hc)
    rw [hvc] at hw
    cases hw
    rw [hvc, le_antisymm hle hw0]
  refine ⟨hall, fun hpos c hc => ?_⟩
  by_contra hns
  obtain ⟨k', w, hk', hw, -, hw1, -⟩ := C31_submod_objective X Y hn lambd hl sel c (hb _ hc)
  obtain ⟨k'', -, hk0, hk''⟩ := klReal_bound hn (hb _ hc)
  rw [hk'] at hk''
  have hkk : k' = k'' := by exact_mod_cast Except.ok.inj hk''
  rw [hall c hc] at hw
  cases hw
  have h1 := hw1 hns
  have h2 : 0 < (area c \ covered sel).card := by
    rw [Finset.card_pos, Finset.sdiff_nonempty]; exact hns
  have h3 : 0 < lambd * (area c \ covered sel).card := mul_pos hpos (by exact_mod_cast h2)
  linarith

example : ∃ k v : ℝ, (demoRule 0).KL = .ok (k : EReal) ∧
    objectiveSubmod 1 [demoRule 1] (demoRule 0) = .ok v ∧ 0 ≤ v := by
  obtain ⟨k, v, h1, h2, h3, -⟩ := C31_submod_objective trainX trainY (by decide) 1 (by norm_num)
    [demoRule 1] (demoRule 0) (demoRule_bound (by norm_num))
  exact ⟨k, v, h1, h2, h3⟩

end Verif
