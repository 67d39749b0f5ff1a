/-
Property C116: the dummy samplers, alone and inside the learners.
-/
import Verif.Model.Dummy
import Verif.Props.Greedy
import Verif.Props.Rule

namespace Verif

namespace Dummy

variable {G E : Type} (R : Rng G E)

/-! ### The samplers -/

/-- **C116.** After `fit` on a matrix with columns, `sample_once` returns one column of the matrix last fitted, whatever the
seed passed and the state of the generator; on a matrix without columns it raises `ValueError`; before `fit`,
`AttributeError`. -/
theorem C116_sample_once (o : Obj) (M : Cmp) (seed : Option ℕ) (g : G) :
    (0 < M.nMinor → ∃ j < M.nMinor, ((o.fit M).sampleOnce R seed g).1 = .ok {j}) ∧
    (M.nMinor = 0 → ((o.fit M).sampleOnce R seed g).1 = .error .valueError) ∧
    (Obj.new.sampleOnce R seed g).1 = .error .attributeError := by
  refine ⟨fun h => ?_, fun h => ?_, rfl⟩
  · refine ⟨_, R.randint_lt M.nMinor g h, ?_⟩
    unfold Obj.sampleOnce Obj.fit
    simp only [if_neg h.ne']
  · unfold Obj.sampleOnce Obj.fit
    simp only [if_pos h]

/-- **C116.** Seeds passed to `sample_once` have no effect. -/
theorem C116_seed_ignored (o : Obj) (seed seed' : Option ℕ) (g : G) :
    o.sampleOnce R seed g = o.sampleOnce R seed' g := rfl

theorem comprehension_ok {M : Cmp} (o : Obj) (h : 0 < M.nMinor) : ∀ (k : ℕ) (g : G),
    ∃ l, ((o.fit M).comprehension R k g).1 = .ok l ∧ l.length = k ∧ ∀ S ∈ l, ∃ j < M.nMinor, S = {j}
  | 0, g => ⟨[], rfl, rfl, by simp⟩
  | k + 1, g => by
    obtain ⟨j, hj, h1⟩ := (C116_sample_once R o M (some (R.randint 100000 g).1) (R.randint 100000 g).2).1 h
    rcases hs : (o.fit M).sampleOnce R (some (R.randint 100000 g).1) (R.randint 100000 g).2 with ⟨r, g'⟩
    rw [hs] at h1
    simp only at h1
    subst h1
    obtain ⟨l, h2, h3, h4⟩ := comprehension_ok o h k g'
    rcases hc : (o.fit M).comprehension R k g' with ⟨r, g''⟩
    rw [hc] at h2
    simp only at h2
    subst h2
    refine ⟨{j} :: l, ?_, by simp [h3], ?_⟩
    · rw [Obj.comprehension, hs]
      simp only
      rw [hc]
    · intro S hS
      rcases List.mem_cons.1 hS with rfl | hS
      · exact ⟨j, hj, rfl⟩
      · exact h4 S hS

/-- **C116.** `sample(k)` after `fit` on a matrix with columns returns `k` sets of one column each. -/
theorem C116_sample (o : Obj) (M : Cmp) (h : 0 < M.nMinor) (k : ℕ) (w : World G E) :
    ∃ l, ((o.fit M).sample R k w).1 = .ok l ∧ l.length = k ∧ ∀ S ∈ l, ∃ j < M.nMinor, S = {j} :=
  comprehension_ok R o h k (R.reseed none w).gen

/-- **C116.** `sample` does not depend on the state of the generator: seeding it before the call has no effect on the result, so
the results cannot be reproduced. Every call takes one item of the operating system's entropy. -/
theorem C116_not_reproducible (o : Obj) (M : Cmp) (k : ℕ) (w : World G E) (seed : ℕ) :
    (o.fit M).sample R k (R.reseed (some seed) w) = (o.fit M).sample R k w ∧
      ((o.fit M).sample R k w).2.entropy = fun i => w.entropy (i + 1) :=
  ⟨rfl, rfl⟩

/-- **C116.** Single calls can be reproduced: after seeding the generator, any number of `sample_once()` give the same
results, whatever happened before. -/
theorem C116_calls_reproducible (o o' : Obj) (M : Cmp) (k : ℕ) (w w' : World G E) (seed : ℕ) :
    (o.fit M).calls R k (R.reseed (some seed) w).gen = (o'.fit M).calls R k (R.reseed (some seed) w').gen := rfl

/-- What successive calls `randint(0, b)` return, for the bounds in order. -/
def draws : List ℕ → G → List ℕ
  | [], _ => []
  | b :: bs, g => (R.randint b g).1 :: draws bs (R.randint b g).2

/-- **C116.** Successive calls of `sample_once()` use successive draws of the generator, one each. -/
theorem C116_calls_draws (o : Obj) (M : Cmp) (h : 0 < M.nMinor) (k : ℕ) (g : G) :
    (o.fit M).calls R k g = (draws R (List.replicate k M.nMinor) g).map fun j => .ok {j} := by
  induction k generalizing g with
  | zero => rfl
  | succ k ih =>
    have e : ∀ seed, (o.fit M).sampleOnce R seed g = (.ok {(R.randint M.nMinor g).1}, (R.randint M.nMinor g).2) := by
      intro seed
      unfold Obj.sampleOnce Obj.fit
      simp only [if_neg h.ne']
    show ((o.fit M).sampleOnce R none g).1 :: (o.fit M).calls R k ((o.fit M).sampleOnce R none g).2 = _
    rw [e, List.replicate_succ, ih]
    rfl

theorem comprehension_draws (o : Obj) (M : Cmp) (h : 0 < M.nMinor) (k : ℕ) (g : G) :
    ((o.fit M).comprehension R k g).1.map (fun l => l.map some) =
      .ok ((List.range k).map fun i =>
        (draws R (List.replicate k [100000, M.nMinor]).flatten g)[2 * i + 1]?.map fun j => {j}) := by
  induction k generalizing g with
  | zero => rfl
  | succ k ih =>
    have e : ∀ seed g, (o.fit M).sampleOnce R seed g = (.ok {(R.randint M.nMinor g).1}, (R.randint M.nMinor g).2) := by
      intro seed g
      unfold Obj.sampleOnce Obj.fit
      simp only [if_neg h.ne']
    have hih := ih (R.randint M.nMinor (R.randint 100000 g).2).2
    unfold Obj.comprehension
    simp only [e]
    rcases hc : (o.fit M).comprehension R k (R.randint M.nMinor (R.randint 100000 g).2).2 with ⟨r, g'⟩
    rw [hc] at hih
    rcases r with x | l
    · cases hih
    · simp only [Except.map, Except.ok.injEq] at hih ⊢
      rw [List.map_cons, hih, List.range_succ_eq_map, List.map_cons, List.map_map, List.replicate_succ]
      simp only [List.flatten_cons, List.cons_append, List.nil_append, draws]
      refine congrArg₂ _ rfl (List.map_congr_left fun i _ => ?_)
      simp only [Function.comp_apply, Nat.succ_eq_add_one, List.getElem?_cons_succ, show 2 * (i + 1) = 2 * i + 1 + 1 by ring]

/-- **C116.** `sample(k)` uses `2 k` draws of the freshly seeded generator: a seed, which is ignored, and then the column, for
each of the `k` sets. -/
theorem C116_sample_draws (o : Obj) (M : Cmp) (h : 0 < M.nMinor) (k : ℕ) (w : World G E) :
    ((o.fit M).sample R k w).1.map (fun l => l.map some) =
      .ok ((List.range k).map fun i =>
        (draws R (List.replicate k [100000, M.nMinor]).flatten (R.fresh (w.entropy 0)))[2 * i + 1]?.map fun j => {j}) :=
  comprehension_draws R o M h k _

/-- **C116.** Errors of `sample`: `AttributeError` before `fit`, leaving the generator alone; without columns `ValueError`,
except that no draws give the empty list. -/
theorem C116_sample_errors (o : Obj) (M : Cmp) (h : M.nMinor = 0) (k : ℕ) (w : World G E) :
    Obj.new.sample R k w = (.error .attributeError, w) ∧
    ((o.fit M).sample R 0 w).1 = .ok [] ∧ ((o.fit M).sample R (k + 1) w).1 = .error .valueError := by
  refine ⟨rfl, rfl, ?_⟩
  show ((o.fit M).comprehension R (k + 1) _).1 = _
  generalize (R.reseed none w).gen = g
  have h1 := (C116_sample_once R o M (some (R.randint 100000 g).1) (R.randint 100000 g).2).2.1 h
  rcases hs : (o.fit M).sampleOnce R (some (R.randint 100000 g).1) (R.randint 100000 g).2 with ⟨r, g'⟩
  rw [hs] at h1
  simp only at h1
  subst h1
  rw [Obj.comprehension, hs]

/-! ### Inside the learners -/

variable {so : List BRule → List BRule} {hso : ∀ l, (so l).Perm l}

theorem samplerAfter_dummy (o : Obj) : ∀ rules, samplerAfter (samplers so hso) o rules = .ok o
  | [] => rfl
  | r :: rules => samplerAfter_dummy o rules

theorem tailSample_dummy {Y : Cmp} (hL : 0 < Y.nMinor) (w : ℕ × (ℕ → ℕ)) :
    (samplers so hso).tailSample (Obj.new.fit Y) w = .ok [((w.1 % Y.nMinor : ℕ) : ℤ)] := if_neg hL.ne'

theorem headSample_dummy {X : Cmp} (hD : 0 < X.nMinor) (y : List Bool) (w : ℕ × (ℕ → ℕ)) (k : ℕ) :
    (samplers so hso).headSample X y w k =
      .ok ((List.range k).map fun i => some [((w.2 i % X.nMinor : ℕ) : ℤ)]) :=
  mapM_ok_of_forall fun _ _ => if_neg hD.ne'

theorem single_lt {Y : Cmp} {l : ℕ} (hl : l < Y.nMinor) : ∀ x ∈ [(l : ℤ)], 0 ≤ x ∧ x < (Y.flip.nMajor : ℤ) := by
  intro x hx
  rw [List.mem_singleton] at hx
  subst hx
  exact ⟨Int.natCast_nonneg _, by rw [Cmp.flip_nMajor]; exact_mod_cast hl⟩

/-- Binding a rule of one feature and one label: it succeeds exactly when the feature occurs. -/
theorem bind_single {X Y : Cmp} (hX : X.WF) (hN : X.nMajor = Y.nMajor) {f l : ℕ}
    (hf : f < X.nMinor) (hl : l < Y.nMinor) :
    ((∃ i, X.Stored i f) → ∃ b, bindDataset (Rule.new [(f : ℤ)] [(l : ℤ)]) X.flip Y.flip = .ok b) ∧
      ((∀ i, ¬ X.Stored i f) →
        bindDataset (Rule.new [(f : ℤ)] [(l : ℤ)]) X.flip Y.flip = .error .valueError) := by
  have hrow : ∀ i, RowHas X.flip [(f : ℤ)] i ↔ X.Stored i f := by
    intro i
    simp only [RowHas, List.mem_singleton, forall_eq, Int.natCast_nonneg, true_and, Int.toNat_natCast]
    exact Cmp.stored_flip hX i f
  constructor
  · rintro ⟨i, hi⟩
    refine (C05_bind_succeeds_iff X.flip Y.flip (Cmp.wf_flip X) (Cmp.wf_flip Y) (by simpa using hN) [(f : ℤ)] [(l : ℤ)]
      (by simp)).mpr ⟨by simp, by simp, by simpa using hf, by simpa using hl, i, (hrow i).2 hi⟩
  · intro h
    refine C05_unsupported_head X.flip Y.flip (Cmp.wf_flip X) (Cmp.wf_flip Y) _ _ (by simp) (by simp) (by simpa using hf)
      (by simpa using hl) fun i hi => h i ((hrow i).1 hi)

/-- The heads of one tail: if all drawn features occur the candidates grow, else `ValueError`. -/
theorem addHeads_dummy {X Y : Cmp} (hX : X.WF) (hN : X.nMajor = Y.nMajor) (hD : 0 < X.nMinor) {l : ℕ}
    (hl : l < Y.nMinor) (v : ℕ → ℕ) : ∀ (is : List ℕ) (rules : List BRule),
    (∃ out, addHeads X.flip Y.flip [(l : ℤ)] (is.map fun i => some [((v i % X.nMinor : ℕ) : ℤ)]) rules = .ok out) ∨
      addHeads X.flip Y.flip [(l : ℤ)] (is.map fun i => some [((v i % X.nMinor : ℕ) : ℤ)]) rules = .error .valueError
  | [], rules => Or.inl ⟨rules, rfl⟩
  | i :: is, rules => by
    rw [List.map_cons, addHeads]
    split
    · exact addHeads_dummy hX hN hD hl v is rules
    · obtain ⟨h1, h2⟩ := bind_single hX hN (Nat.mod_lt (v i) hD) hl
      by_cases hs : ∃ j, X.Stored j (v i % X.nMinor)
      · obtain ⟨b, hb⟩ := h1 hs
        rw [hb]
        exact addHeads_dummy hX hN hD hl v is _
      · rw [h2 fun j hj => hs ⟨j, hj⟩]
        exact Or.inr rfl

theorem genLoop_dummy {X Y : Cmp} (hX : X.WF) (hY : Y.WF) (hN : X.nMajor = Y.nMajor) (hD : 0 < X.nMinor)
    (hL : 0 < Y.nMinor) (nHeads : ℕ) (ws : ℕ → ℕ × (ℕ → ℕ)) : ∀ (todo t : ℕ) (rules : List BRule),
    (∃ out, genLoop (samplers so hso) X X.flip Y.flip nHeads (Obj.new.fit Y) ws todo t rules = .ok out) ∨
      genLoop (samplers so hso) X X.flip Y.flip nHeads (Obj.new.fit Y) ws todo t rules = .error .valueError
  | 0, t, rules => Or.inl ⟨rules, rfl⟩
  | todo + 1, t, rules => by
    have hl : (ws t).1 % Y.nMinor < Y.nMinor := Nat.mod_lt _ hL
    rw [genLoop, tailSample_dummy hL]
    simp only [bind, Except.bind]
    rw [collapse_int_ok (Cmp.wf_flip Y) (by simp) (single_lt hl)]
    simp only
    rw [headSample_dummy hD]
    simp only
    rcases addHeads_dummy hX hN hD hl (ws t).2 (List.range nHeads) rules with ⟨out, h⟩ | h
    · rw [h]
      exact genLoop_dummy hX hY hN hD hL nHeads ws todo (t + 1) out
    · rw [h]
      exact Or.inr rfl

/-- **C116.** In a learner with the dummy samplers every selected rule, and every candidate of the second round, has exactly
one feature and one label, both of the training data. -/
theorem C116_rules (so : List BRule → List BRule) (hso : ∀ l, (so l).Perm l) (p : Params) (X Y : Cmp) (lr : Learner)
    (ws : ℕ → ℕ → ℕ × (ℕ → ℕ)) (fuel : ℕ) (st : LoopState Obj)
    (h : runFit (samplers so hso) p lr X Y [] ws fuel = some (.ok st)) :
    ∀ r, r ∈ st.selected ∨ r ∈ st.pool →
      ∃ f < X.nMinor, ∃ l < Y.nMinor, r.head = [(f : ℤ)] ∧ r.tail = [(l : ℤ)] := by
  obtain ⟨s0, batches, h0, -, h2, h3, -⟩ := C25_pool_is_union_of_batches _ p X Y lr ws fuel st h
  have hs0 : s0 = Obj.new.fit Y := by
    have : (samplers so hso).tailFit Y = .ok (Obj.new.fit Y) := rfl
    rw [this] at h0
    cases h0
    rfl
  have key : ∀ s i batch, s = Obj.new.fit Y →
      generateCandidates (samplers so hso) p X X.flip Y.flip s (ws i) = .ok batch → ∀ r ∈ batch,
      ∃ f < X.nMinor, ∃ l < Y.nMinor, r.head = [(f : ℤ)] ∧ r.tail = [(l : ℤ)] := by
    intro s i batch hs hg r hr
    subst hs
    obtain ⟨-, -, hm, -⟩ := C20_candidates _ p X X.flip Y.flip _ (ws i) batch hg
    obtain ⟨t, -, tail, y, heads, hd, p1, -, p3, p4, p5⟩ := hm r hr
    have hL : 0 < Y.nMinor := by
      by_contra hc
      have : (samplers so hso).tailSample (Obj.new.fit Y) (ws i t) = .error .valueError := if_pos (by omega)
      rw [this] at p1
      cases p1
    rw [tailSample_dummy hL] at p1
    cases p1
    obtain ⟨hp, hhd⟩ : 0 < X.nMinor ∧ ∃ f < X.nMinor, hd = [(f : ℤ)] := by
      by_cases hD : 0 < X.nMinor
      · rw [headSample_dummy hD] at p3
        cases p3
        obtain ⟨j, -, hj⟩ := List.mem_map.1 p4
        cases hj
        exact ⟨hD, _, Nat.mod_lt _ hD, rfl⟩
      · exfalso
        have hz : X.nMinor = 0 := by omega
        have : heads = [] := by
          have h3 : (List.range p.nHeads).mapM (fun i' =>
            if X.nMinor = 0 then (.error .valueError : Py (Option (List ℤ)))
            else .ok (some [(((ws i t).2 i' % X.nMinor : ℕ) : ℤ)])) = .ok heads := p3
          cases hk : p.nHeads with
          | zero => rw [hk] at h3; cases h3; rfl
          | succ k =>
            rw [hk, List.range_succ_eq_map, List.mapM_cons, if_pos hz] at h3
            cases h3
        rw [this] at p4
        cases p4
    obtain ⟨f, hf, rfl⟩ := hhd
    have hr' := bindDataset_toRule p5
    refine ⟨f, hf, _, Nat.mod_lt (ws i t).1 hL, ?_, ?_⟩
    · show r.toRule.head = _
      rw [hr']
      simp [Rule.new]
    · show r.toRule.tail = _
      rw [hr']
      simp [Rule.new]
  have hbatch : ∀ i (hi : i < batches.length), ∀ r ∈ batches[i],
      ∃ f < X.nMinor, ∃ l < Y.nMinor, r.head = [(f : ℤ)] ∧ r.tail = [(l : ℤ)] := by
    intro i hi
    obtain ⟨s, e1, e2⟩ := h2 i hi
    rw [samplerAfter_dummy] at e1
    cases e1
    exact key _ i _ hs0 e2
  rintro r (hr | hr)
  · obtain ⟨i, hi, rfl⟩ := List.getElem_of_mem hr
    obtain ⟨s0', h0', htr⟩ := C24_greedy_trace _ p X Y lr ws fuel st h
    obtain ⟨s, batch, e1, e2, e3, -⟩ := htr i hi
    rw [samplerAfter_dummy] at e1
    cases e1
    rw [h0] at h0'
    cases h0'
    exact key _ i _ hs0 e2 _ e3.1
  · obtain ⟨batch, hb, hr⟩ := h3 r hr
    obtain ⟨i, hi, rfl⟩ := List.getElem_of_mem hb
    exact hbatch i hi r hr

/-- **C116.** Under a budget of `k` rules, every learner with the dummy samplers ends within `k + 1` rounds, and if it does not
raise it has selected exactly `k` rules: the dummy samplers never run out. -/
theorem C116_budget (so : List BRule → List BRule) (hso : ∀ l, (so l).Perm l) (p : Params) (k : ℕ)
    (hp : p.nMaxRules = some k) (X Y : Cmp) (hX : X.WF) (hY : Y.WF) (hN : X.nMajor = Y.nMajor) (hD : 0 < X.nMinor)
    (hL : 0 < Y.nMinor) (lr : Learner)
    (hlr : lr = learnerDivMax p Y ∨ lr = learnerV2 p ∨ lr = learnerV3 p ∨ lr = learnerSubmod p)
    (ws : ℕ → ℕ → ℕ × (ℕ → ℕ)) (fuel : ℕ) (hfuel : k + 1 ≤ fuel) :
    (∃ e, runFit (samplers so hso) p lr X Y [] ws fuel = some (.error e)) ∨
      ∃ st, runFit (samplers so hso) p lr X Y [] ws fuel = some (.ok st) ∧ st.selected.length = k := by
  have ht := C23_budget_terminates (samplers so hso) p k hp X Y lr hlr ws fuel hfuel
  rcases hr : runFit (samplers so hso) p lr X Y [] ws fuel with _ | e | st
  · rw [hr] at ht; cases ht
  · exact Or.inl ⟨e, rfl⟩
  · refine Or.inr ⟨st, rfl, ?_⟩
    rcases (C23_budget_exact (samplers so hso) p k hp X Y lr hlr ws fuel st hr).2 with h | ⟨s0, s, h0, h1, h2⟩
    · exact h
    · exfalso
      have : (samplers so hso).tailFit Y = .ok (Obj.new.fit Y) := rfl
      rw [this] at h0
      cases h0
      rw [samplerAfter_dummy] at h1
      cases h1
      rcases genLoop_dummy (so := so) (hso := hso) hX hY hN hD hL p.nHeads (ws st.selected.length) p.nTails 0 [] with
        ⟨out, h⟩ | h
      · rw [show generateCandidates (samplers so hso) p X X.flip Y.flip (Obj.new.fit Y) (ws st.selected.length) =
          genLoop (samplers so hso) X X.flip Y.flip p.nHeads (Obj.new.fit Y) (ws st.selected.length) p.nTails 0 [] from rfl,
          h] at h2
        cases h2
      · rw [show generateCandidates (samplers so hso) p X X.flip Y.flip (Obj.new.fit Y) (ws st.selected.length) =
          genLoop (samplers so hso) X X.flip Y.flip p.nHeads (Obj.new.fit Y) (ws st.selected.length) p.nTails 0 [] from rfl,
          h] at h2
        cases h2

/-- **C116.** If every feature occurs in the training data and a round draws something, `GreedySubmod` with the dummy samplers
does not raise: it selects exactly as many rules as the budget allows. -/
theorem C116_submod (so : List BRule → List BRule) (hso : ∀ l, (so l).Perm l) (p : Params) (k : ℕ)
    (hp : p.nMaxRules = some k) (hl : 0 ≤ p.lambd) (ht : 0 < p.nTails) (hh : 0 < p.nHeads) (X Y : Cmp) (hX : X.WF)
    (hY : Y.WF) (hN : X.nMajor = Y.nMajor) (hD : 0 < X.nMinor) (hL : 0 < Y.nMinor)
    (hocc : ∀ f < X.nMinor, ∃ i, X.Stored i f) (ws : ℕ → ℕ → ℕ × (ℕ → ℕ)) (fuel : ℕ) (hfuel : k + 1 ≤ fuel) :
    ∃ rules, fitSubmod (samplers so hso) p X Y [] ws fuel = some (.ok rules) ∧ rules.length = k := by
  have hgen : ∀ w, ∃ out, generateCandidates (samplers so hso) p X X.flip Y.flip (Obj.new.fit Y) w = .ok out ∧
      out ≠ [] ∧ ∀ b ∈ out, BoundTo X Y b := by
    intro w
    have hadd : ∀ (l : ℕ), l < Y.nMinor → ∀ (v : ℕ → ℕ) (n : ℕ) (rules : List BRule), ∃ out,
        addHeads X.flip Y.flip [(l : ℤ)] ((List.range n).map fun i => some [((v i % X.nMinor : ℕ) : ℤ)]) rules =
          .ok out := by
      intro l hl' v n rules
      refine addHeads_succeeds _ _ ?_
      intro x hx
      obtain ⟨i, -, rfl⟩ := List.mem_map.1 hx
      exact ⟨_, rfl, (bind_single hX hN (Nat.mod_lt (v i) hD) hl').1 (hocc _ (Nat.mod_lt _ hD))⟩
    have hloop : ∀ (todo t : ℕ) (rules : List BRule), ∃ out,
        genLoop (samplers so hso) X X.flip Y.flip p.nHeads (Obj.new.fit Y) w todo t rules = .ok out := by
      intro todo
      induction todo with
      | zero => intro t rules; exact ⟨rules, rfl⟩
      | succ todo ih =>
        intro t rules
        have hl' : (w t).1 % Y.nMinor < Y.nMinor := Nat.mod_lt _ hL
        rw [genLoop, tailSample_dummy hL]
        simp only [bind, Except.bind]
        rw [collapse_int_ok (Cmp.wf_flip Y) (by simp) (single_lt hl')]
        simp only
        rw [headSample_dummy hD]
        simp only
        obtain ⟨out, ho⟩ := hadd _ hl' (w t).2 p.nHeads rules
        rw [ho]
        exact ih (t + 1) out
    obtain ⟨out, ho⟩ := hloop p.nTails 0 []
    refine ⟨out, ho, ?_, ?_⟩
    · obtain ⟨-, -, -, h4⟩ := C20_candidates (samplers so hso) p X X.flip Y.flip (Obj.new.fit Y) w out ho
      obtain ⟨tail, y, heads, p1, p2, p3, p4⟩ := h4 0 ht
      rw [headSample_dummy hD] at p3
      cases p3
      obtain ⟨hd, -, b, hb, -⟩ := p4 _ (List.mem_map.2 ⟨0, List.mem_range.2 hh, rfl⟩)
      exact List.ne_nil_of_mem hb
    · intro b hb
      obtain ⟨-, -, h3, -⟩ := C20_candidates (samplers so hso) p X X.flip Y.flip (Obj.new.fit Y) w out ho
      obtain ⟨t, -, tail, y, heads, hd, p1, -, p3, p4, p5⟩ := h3 b hb
      rw [tailSample_dummy hL] at p1
      cases p1
      have ht : b.tail = [(((w t).1 % Y.nMinor : ℕ) : ℤ)] := by
        show b.toRule.tail = _
        rw [bindDataset_toRule p5]
        simp [Rule.new]
      refine ⟨⟨_, _, p5⟩, ?_, ?_⟩
      · intro l hm
        rw [ht, List.mem_singleton] at hm
        rw [hm]
        exact Int.natCast_nonneg _
      · rw [ht]; simp
  have hiter : ∀ w (st : LoopState Obj), st.sampler = Obj.new.fit Y →
      ∃ r, fitIter (samplers so hso) p (learnerSubmod p) X X.flip Y.flip w st = .ok r ∧
        ∀ st', r = .next st' → st'.sampler = Obj.new.fit Y := by
    intro w st hst
    obtain ⟨out, ho, hne, hb⟩ := hgen w
    obtain ⟨best, hbest⟩ := (C21_select_best (samplers so hso) ((learnerSubmod p).objective st.selected) out).2.1 hne
      fun c hc => by
        obtain ⟨-, v, -, hv, -⟩ := C31_submod_objective X Y hN p.lambd hl st.selected c (hb c hc)
        exact ⟨v, hv⟩
    unfold fitIter
    rw [hst, ho]
    simp only [bind, Except.bind]
    rw [hbest]
    simp only
    rw [stop_budget (Y := Y) hp (by simp)]
    simp only
    split
    · exact ⟨_, rfl, fun st' h => by cases h⟩
    · refine ⟨_, rfl, fun st' h => ?_⟩
      cases h
      rfl
  have hno : ∀ (fuel j : ℕ) (st : LoopState Obj), st.sampler = Obj.new.fit Y → ∀ e,
      fitLoop (samplers so hso) p (learnerSubmod p) X X.flip Y.flip ws fuel j st ≠ some (.error e) := by
    intro fuel
    induction fuel with
    | zero => intro j st _ e h; cases h
    | succ fuel ih =>
      intro j st hst e
      obtain ⟨r, hr, hr'⟩ := hiter (ws j) st hst
      rw [fitLoop, hr]
      cases r with
      | done st' => simp
      | next st' => exact ih (j + 1) st' (hr' st' rfl) e
  rcases C116_budget so hso p k hp X Y hX hY hN hD hL (learnerSubmod p) (by simp) ws fuel hfuel with
    ⟨e, h⟩ | ⟨st, h, hlen⟩
  · exact absurd h (hno fuel 0 _ rfl e)
  · refine ⟨st.selected, ?_, hlen⟩
    unfold fitSubmod
    rw [h]

/-- **C116.** A drawn feature that does not occur in the training data makes `fit` raise `ValueError`: here the first one. -/
theorem C116_absent_feature (so : List BRule → List BRule) (hso : ∀ l, (so l).Perm l) (p : Params) (ht : 0 < p.nTails)
    (hh : 0 < p.nHeads) (X Y : Cmp) (hX : X.WF) (hN : X.nMajor = Y.nMajor) (hD : 0 < X.nMinor)
    (hL : 0 < Y.nMinor) (lr : Learner) (ws : ℕ → ℕ → ℕ × (ℕ → ℕ)) (fuel : ℕ)
    (habs : ∀ i, ¬ X.Stored i ((ws 0 0).2 0 % X.nMinor)) :
    runFit (samplers so hso) p lr X Y [] ws (fuel + 1) = some (.error .valueError) := by
  have hgen : generateCandidates (samplers so hso) p X X.flip Y.flip (Obj.new.fit Y) (ws 0) = .error .valueError := by
    obtain ⟨nt, hnt⟩ := Nat.exists_eq_succ_of_ne_zero ht.ne'
    obtain ⟨nh, hnh⟩ := Nat.exists_eq_succ_of_ne_zero hh.ne'
    have hl' : (ws 0 0).1 % Y.nMinor < Y.nMinor := Nat.mod_lt _ hL
    unfold generateCandidates
    rw [hnt, Nat.succ_eq_add_one, genLoop, tailSample_dummy hL]
    simp only [bind, Except.bind]
    rw [collapse_int_ok (Cmp.wf_flip Y) (by simp) (single_lt hl')]
    simp only
    rw [headSample_dummy hD]
    simp only
    rw [hnh, Nat.succ_eq_add_one, List.range_succ_eq_map, List.map_cons, addHeads]
    rw [if_neg (by simp), (bind_single hX hN (Nat.mod_lt ((ws 0 0).2 0) hD) hl').2 habs]
    rfl
  show fitLoop _ _ _ _ _ _ _ _ _ _ = _
  rw [fitLoop]
  unfold fitIter
  simp only
  rw [hgen]

/-! ### Non-triviality -/

/-- A generator that counts. -/
def counting : Rng ℕ ℕ where
  seed := id
  fresh := id
  randint := fun n g => (g % n, g + 1)
  randint_lt := fun _ g h => Nat.mod_lt g h
  pick := fun _ g => (g, g + 1)
  unif := fun g => (0, g + 1)

example : ((Obj.new.fit trainX).sample counting 2 { gen := 0, entropy := fun i => i }).1 = .ok [{1}, {0}] := by
  decide

example : ∃ rules, fitSubmod (samplers id fun _ => .refl _) { demoParams with nMaxRules := some 3 } trainX trainY []
    (fun i j => (i + j, fun k => i + j + k)) 4 = some (.ok rules) ∧ rules.length = 3 :=
  C116_submod id (fun _ => .refl _) _ 3 rfl (by simp [demoParams]) (by simp [demoParams]) (by simp [demoParams])
    trainX trainY (by constructor <;> decide) (by constructor <;> decide) (by decide) (by decide) (by decide)
    (fun f hf => ⟨3, by have : f < 3 := hf; interval_cases f <;> decide⟩) _ 4 le_rfl

end Dummy

end Verif
