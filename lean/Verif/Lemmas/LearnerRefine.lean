/-
Every run of a learner with its real samplers is a run of the learner with arbitrary samplers
(`Verif.Model.Greedy`), so that what holds for all samplers holds for the real ones.
-/
import Verif.Lemmas.Learner

namespace Verif

/-- What one pass of candidate generation consumes: the tail drawn, and the heads drawn for it. -/
abbrev Draws := Py (List ℤ) × Py (List (Option (List ℤ)))

open Classical in
/-- A tail read from a tape, provided that it is a set of labels. -/
noncomputable def tapeTail (w : Draws) : Py (List ℤ) :=
  match w.1 with
  | .ok tail => if (∀ l ∈ tail, 0 ≤ l) ∧ tail.Nodup then .ok tail else .error .exception
  | .error e => .error e

/-- The real tail sampler, with all draws read from a tape. -/
noncomputable def tapeSamplers (env : LearnEnv) (p : ℚ) (history : List (List ℕ × List ℤ)) :
    Samplers UState Draws where
  tailFit := tailFit env.toHeadEnv p true history
  tailSample _ w := tapeTail w
  tailUpdate s rows labels := updateRowWeights s (env.order rows) (env.orderZ labels)
  headSample _ _ w _ := w.2
  setOrder := env.setOrder
  setOrder_perm := env.setOrder_perm

theorem tapeTails {env : LearnEnv} {p : ℚ} {history : List (List ℕ × List ℤ)} :
    TailsAreLabelSets (tapeSamplers env p history) := by
  intro s w tail h
  change tapeTail w = .ok tail at h
  unfold tapeTail at h
  split at h
  · split at h
    · cases h; assumption
    · cases h
  · cases h

theorem genLoop_congr {σ ω : Type} {S : Samplers σ ω} {X Xc Yc : Cmp} {nHeads : ℕ} {s : σ}
    {ws ws' : ℕ → ω} : ∀ (todo t : ℕ) (rules : List BRule), (∀ i, t ≤ i → ws i = ws' i) →
    genLoop S X Xc Yc nHeads s ws todo t rules = genLoop S X Xc Yc nHeads s ws' todo t rules
  | 0, t, rules, _ => rfl
  | todo + 1, t, rules, h => by
    rw [genLoop, genLoop, h t le_rfl]
    have ih := fun r => genLoop_congr (S := S) (X := X) (Xc := Xc) (Yc := Yc) (nHeads := nHeads) (s := s)
      todo (t + 1) r (fun i hi => h i (by omega))
    simp only [ih]

theorem fitLoop_congr {σ ω : Type} {S : Samplers σ ω} {p : Params} {lr : Learner} {X Xc Yc : Cmp}
    {ws ws' : ℕ → ℕ → ω} : ∀ (fuel k : ℕ) (st : LoopState σ), (∀ i, k ≤ i → ws i = ws' i) →
    fitLoop S p lr X Xc Yc ws fuel k st = fitLoop S p lr X Xc Yc ws' fuel k st
  | 0, k, st, _ => rfl
  | fuel + 1, k, st, h => by
    rw [fitLoop, fitLoop, h k le_rfl]
    have ih := fun st => fitLoop_congr (S := S) (p := p) (lr := lr) (X := X) (Xc := Xc) (Yc := Yc)
      fuel (k + 1) st (fun i hi => h i (by omega))
    simp only [ih]

theorem orRaise_not_error {α β : Type} {r : Py α} {h : HeadSampler} {k : α → RandR (Py β × HeadSampler)}
    {e : PyErr} (hk : ∀ a, ¬ (k a).Outcome (.error e)) : ¬ (orRaise r h k).Outcome (.error e) := by
  rw [outcome_orRaise]
  rintro (⟨a, -, ha⟩ | ⟨e', -, h⟩)
  · exact hk a ha
  · cases h

/-- Exceptions of candidate generation are always reported together with the head sampler. -/
theorem learnGen_not_error {env : LearnEnv} {X Xc Yc : Cmp} {nHeads : ℕ} {s : UState} {e : PyErr} :
    ∀ (todo : ℕ) (h : HeadSampler) (rules : List BRule),
    ¬ (learnGen env X Xc Yc nHeads s todo h rules).Outcome (.error e)
  | 0, h, rules => fun hx => by cases hx
  | todo + 1, h, rules => by
    rw [learnGen, RandR.bind_eq, RandR.outcome_bind]
    rintro (⟨t, -, hx⟩ | ⟨e, ht, -⟩)
    · refine orRaise_not_error (fun T => orRaise_not_error fun y => orRaise_not_error fun h1 => ?_) hx
      rw [RandR.bind_eq, RandR.outcome_bind]
      rintro (⟨q, -, hx⟩ | ⟨e, ht, -⟩)
      · exact orRaise_not_error (fun r => orRaise_not_error fun r' => learnGen_not_error todo _ _) hx
      · rw [outcome_attempt] at ht
        obtain ⟨r, -, hr⟩ := ht
        cases hr
    · rw [outcome_attempt] at ht
      obtain ⟨r, -, hr⟩ := ht
      cases hr

/-- Candidate generation with the real samplers reads some tape. -/
theorem learnGen_tape {env : LearnEnv} (he : env.Good) {X Y : Cmp} (hD : LearnData env X Y) {q : ℚ}
    {us history : List (List ℕ × List ℤ)} {s : UState} (hs : TailAfter env.toHeadEnv q true Y us s)
    (nHeads : ℕ) : ∀ (todo t : ℕ) (h : HeadSampler) (rules : List BRule) (g : Py (List BRule))
    (h' : HeadSampler), (learnGen env X X.flip Y.flip nHeads s todo h rules).Outcome (.ok (g, h')) →
    ∃ ws, genLoop (tapeSamplers env q history) X X.flip Y.flip nHeads s ws todo t rules = g
  | 0, t, h, rules, g, h', hx => by
    cases hx
    exact ⟨fun _ => (.ok [], .ok []), rfl⟩
  | todo + 1, t, h, rules, g, h', hx => by
    rw [learnGen, RandR.bind_eq, RandR.outcome_bind] at hx
    rcases hx with ⟨tr, ht, hx⟩ | ⟨e, -, e'⟩
    swap
    · cases e'
    rw [outcome_attempt] at ht
    obtain ⟨r, ht, e⟩ := ht
    cases e
    rw [outcome_toReal] at ht
    rcases tail_outcome he.heads hD.labels hD.depthY hD.pos hs ht with ⟨rfl, h0⟩ |
      ⟨T, rfl, hTs, hTne, hTr, -⟩
    · cases hx
      exact ⟨fun _ => (.error .noMoreSamples, .ok []), rfl⟩
    change (orRaise (conjunctiveCollapseV2 Y.flip (env.orderZ T)) h _).Outcome _ at hx
    have htape : ∀ w, tapeTail (.ok (env.orderZ T), w) = .ok (env.orderZ T) := by
      intro w
      unfold tapeTail
      simp only
      rw [if_pos]
      exact ⟨fun l hl => (hTr l (((he.ints T).2 l).mp hl)).1, (he.ints T).1⟩
    have hstep : ∀ (w : Py (List (Option (List ℤ)))),
        genLoop (tapeSamplers env q history) X X.flip Y.flip nHeads s (fun _ => (.ok (env.orderZ T), w))
          (todo + 1) t rules = (conjunctiveCollapseV2 Y.flip (env.orderZ T) >>= fun _ => w >>= fun heads =>
          addHeads X.flip Y.flip (env.orderZ T) heads rules >>= fun r =>
          genLoop (tapeSamplers env q history) X X.flip Y.flip nHeads s
            (fun _ => (.ok (env.orderZ T), w)) todo (t + 1) r) := by
      intro w
      rw [genLoop]
      change (tapeTail (.ok (env.orderZ T), w) >>= _) = _
      rw [htape]
      rfl
    rw [outcome_orRaise] at hx
    rcases hx with ⟨y, hy, hx⟩ | ⟨e, hy, hx⟩
    swap
    · cases hx
      refine ⟨fun _ => (.ok (env.orderZ T), .ok []), ?_⟩
      rw [hstep, hy]
      rfl
    rw [outcome_orRaise] at hx
    rcases hx with ⟨h1, hf, hx⟩ | ⟨e, hf, hx⟩
    swap
    · cases hx
      refine ⟨fun _ => (.ok (env.orderZ T), .error e), ?_⟩
      rw [hstep, hy]
      rfl
    rw [RandR.bind_eq, RandR.outcome_bind] at hx
    rcases hx with ⟨qr, hq, hx⟩ | ⟨e, -, e'⟩
    swap
    · cases e'
    rw [outcome_orRaise] at hx
    rcases hx with ⟨r, rfl, hx⟩ | ⟨e, rfl, hx⟩
    swap
    · cases hx
      refine ⟨fun _ => (.ok (env.orderZ T), .error e), ?_⟩
      rw [hstep, hy]
      rfl
    rw [outcome_orRaise] at hx
    rcases hx with ⟨rules', ha, hx⟩ | ⟨e, ha, hx⟩
    swap
    · cases hx
      refine ⟨fun _ => (.ok (env.orderZ T), .ok (r.1.map (Option.map env.orderZ))), ?_⟩
      rw [hstep, hy]
      simp only [bind, Except.bind]
      rw [ha]
    obtain ⟨ws, hws⟩ := learnGen_tape he hD hs nHeads todo (t + 1) r.2 rules' g h' hx
    refine ⟨fun i => if i = t then (.ok (env.orderZ T), .ok (r.1.map (Option.map env.orderZ))) else ws i, ?_⟩
    rw [genLoop]
    simp only [if_true]
    change (tapeTail (.ok (env.orderZ T), .ok (r.1.map (Option.map env.orderZ))) >>= _) = _
    rw [htape]
    simp only [bind, Except.bind]
    rw [hy]
    have hhs : ∀ y', (tapeSamplers env q history).headSample X y'
        (.ok (env.orderZ T), .ok (r.1.map (Option.map env.orderZ))) nHeads =
        .ok (r.1.map (Option.map env.orderZ)) := fun _ => rfl
    simp only [hhs]
    rw [ha, ← hws]
    exact genLoop_congr todo (t + 1) rules' fun i hi => by simp [show i ≠ t by omega]

theorem applyUpdates_append_single (u : List ℕ × List ℤ) : ∀ (us : List (List ℕ × List ℤ)) (s : UState),
    applyUpdates s (us ++ [u]) = (applyUpdates s us).bind fun s' => updateRowWeights s' u.1 u.2
  | [], s => by
    simp only [List.nil_append, applyUpdates, Except.bind, bind]
    rcases updateRowWeights s u.1 u.2 with e | s' <;> rfl
  | v :: us, s => by
    simp only [List.cons_append, applyUpdates, bind]
    rcases updateRowWeights s v.1 v.2 with e | s'
    · rfl
    · exact applyUpdates_append_single u us s'

/-- The state of the loop without the head sampler. -/
def forget (st : LearnState) : LoopState UState :=
  { sampler := st.sampler.1, selected := st.selected, pool := st.pool }

/-- The result of an iteration without the head sampler. -/
def forgetIter : IterResult (UState × HeadSampler) → IterResult UState
  | .done st => .done (forget st)
  | .next st => .next (forget st)

/-- The result of the loop without the head sampler. -/
def forgetRun : Py (Option LearnState) → Option (Py (LoopState UState))
  | .ok none => none
  | .ok (some st) => some (.ok (forget st))
  | .error e => some (.error e)

theorem learnChoose_forget {env : LearnEnv} {p : Params} {lr : Learner} {q : ℚ}
    {history : List (List ℕ × List ℤ)} {X Xc Yc : Cmp} {st : LearnState} {h : HeadSampler}
    {cands : List BRule} {ws : ℕ → Draws}
    (hg : generateCandidates (tapeSamplers env q history) p X Xc Yc st.sampler.1 ws = .ok cands) :
    fitIter (tapeSamplers env q history) p lr X Xc Yc ws (forget st) =
      (learnChoose env lr st h cands).map forgetIter := by
  unfold fitIter
  change (match generateCandidates (tapeSamplers env q history) p X Xc Yc st.sampler.1 ws with
    | .error .noMoreSamples => _ | .error e => _ | .ok cands => _) = _
  rw [hg]
  simp only [selectBest, learnChoose, forget]
  change ((pyMax (lr.objective st.selected) (env.setOrder cands)) >>= _) = _
  rcases pyMax (lr.objective st.selected) (env.setOrder cands) with e | best
  · rfl
  simp only [bind, Except.bind]
  rcases lr.stop st.selected best with e | stop
  · rfl
  cases stop
  · simp only [Bool.false_eq_true, if_false]
    rw [show (tapeSamplers env q history).tailUpdate st.sampler.1 best.support best.tail.toFinset =
      updateRowWeights st.sampler.1 (env.order best.support) (env.orderZ best.tail.toFinset) from rfl]
    rcases updateRowWeights st.sampler.1 (env.order best.support) (env.orderZ best.tail.toFinset) with e | s'
    · rfl
    · rfl
  · rfl

theorem learnIter_tape {env : LearnEnv} (he : env.Good) {X Y : Cmp} (hD : LearnData env X Y) {q : ℚ}
    {us history : List (List ℕ × List ℤ)} {p : Params} {lr : Learner} {st : LearnState}
    (hs : TailAfter env.toHeadEnv q true Y us st.sampler.1) {x : Py (IterResult (UState × HeadSampler))}
    (hx : (learnIter env p lr X X.flip Y.flip st).Outcome x) :
    (∃ ws, fitIter (tapeSamplers env q history) p lr X X.flip Y.flip ws (forget st) = x.map forgetIter) ∧
    ∀ st', x = .ok (.next st') → ∃ us', TailAfter env.toHeadEnv q true Y us' st'.sampler.1 := by
  unfold learnIter at hx
  rw [RandR.bind_eq, RandR.outcome_bind] at hx
  rcases hx with ⟨⟨g, h'⟩, hg, hx⟩ | ⟨e, hg, rfl⟩
  swap
  · exact absurd hg (learnGen_not_error _ _ _)
  obtain ⟨ws, hws⟩ := learnGen_tape (history := history) he hD hs p.nHeads p.nTails 0 _ _ _ _ hg
  have hgc : generateCandidates (tapeSamplers env q history) p X X.flip Y.flip st.sampler.1 ws = g := hws
  rcases g with e | cands
  · have hfi : fitIter (tapeSamplers env q history) p lr X X.flip Y.flip ws (forget st) =
        (match (.error e : Py (List BRule)) with
          | .error .noMoreSamples => .ok (.done (forget st))
          | .error e => .error e
          | .ok _ => .error .exception) := by
      unfold fitIter
      change (match generateCandidates (tapeSamplers env q history) p X X.flip Y.flip st.sampler.1 ws with
        | .error .noMoreSamples => _ | .error e => _ | .ok cands => _) = _
      rw [hgc]
      cases e <;> rfl
    refine ⟨⟨ws, ?_⟩, ?_⟩
    · rw [hfi]
      cases e <;> (cases hx; rfl)
    · intro st' e'
      subst e'
      cases e <;> cases hx
  · change x = learnChoose env lr st h' cands at hx
    refine ⟨⟨ws, ?_⟩, ?_⟩
    · rw [hx]
      exact learnChoose_forget hgc
    · intro st' e'
      rw [e'] at hx
      unfold learnChoose at hx
      rcases hb : pyMax (lr.objective st.selected) (env.setOrder cands) with e | best
      · rw [hb] at hx; cases hx
      rw [hb] at hx
      simp only [bind, Except.bind] at hx
      rcases hst : lr.stop st.selected best with e | stop
      · rw [hst] at hx; cases hx
      rw [hst] at hx
      cases stop
      · simp only [Bool.false_eq_true, if_false] at hx
        rcases hu : updateRowWeights st.sampler.1 (env.order best.support) (env.orderZ best.tail.toFinset)
          with e | s'
        · rw [hu] at hx; cases hx
        · rw [hu] at hx
          cases hx
          obtain ⟨s0, h0, hu0⟩ := hs
          refine ⟨us ++ [(env.order best.support, env.orderZ best.tail.toFinset)], s0, h0, ?_⟩
          rw [applyUpdates_append_single, hu0]
          exact hu
      · cases hx

/-- Every run of the loop with the real samplers is a run of the loop on some tape. -/
theorem learnLoop_tape {env : LearnEnv} (he : env.Good) {X Y : Cmp} (hD : LearnData env X Y) {q : ℚ}
    {history : List (List ℕ × List ℤ)} {p : Params} {lr : Learner} :
    ∀ (fuel k : ℕ) (us : List (List ℕ × List ℤ)) (st : LearnState) (x : Py (Option LearnState)),
    TailAfter env.toHeadEnv q true Y us st.sampler.1 →
    (learnLoop env p lr X X.flip Y.flip fuel st).Outcome x →
    ∃ ws, fitLoop (tapeSamplers env q history) p lr X X.flip Y.flip ws fuel k (forget st) = forgetRun x
  | 0, k, us, st, x, hs, hx => by
    cases hx
    exact ⟨fun _ _ => (.ok [], .ok []), rfl⟩
  | fuel + 1, k, us, st, x, hs, hx => by
    rw [learnLoop, RandR.bind_eq, RandR.outcome_bind] at hx
    rcases hx with ⟨r, hr, hx⟩ | ⟨e, hr, rfl⟩
    · obtain ⟨⟨w, hw⟩, hnext⟩ := learnIter_tape (history := history) he hD hs hr
      rcases r with st' | st'
      · cases hx
        refine ⟨fun _ => w, ?_⟩
        rw [fitLoop, hw]
        rfl
      · obtain ⟨us', hs'⟩ := hnext st' rfl
        obtain ⟨ws, hws⟩ := learnLoop_tape he hD fuel (k + 1) us' st' x hs' hx
        refine ⟨fun i => if i = k then w else ws i, ?_⟩
        rw [fitLoop]
        simp only [if_true]
        rw [hw, ← hws]
        exact fitLoop_congr fuel (k + 1) _ fun i hi => by simp [show i ≠ k by omega]
    · obtain ⟨⟨w, hw⟩, -⟩ := learnIter_tape (history := history) he hD hs hr
      refine ⟨fun _ => w, ?_⟩
      rw [fitLoop, hw]
      rfl

end Verif
