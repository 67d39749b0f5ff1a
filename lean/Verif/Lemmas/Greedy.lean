import Verif.Lemmas.Coverage
import Verif.Lemmas.KL
import Verif.Props.Rule

namespace Verif
open Cmp

/-! ### candidate generation -/

theorem Rule.eq_iff (a b : Rule) : a.eq b = true ↔ a = b := by
  cases a; cases b; simp [Rule.eq]

/-- What `addHeads` adds when it succeeds. -/
theorem addHeads_ok {Xc Yc : Cmp} {tail : List ℤ} :
    ∀ {heads : List (Option (List ℤ))} {rules out : List BRule},
      addHeads Xc Yc tail heads rules = .ok out →
      ((rules.map BRule.toRule).Nodup → (out.map BRule.toRule).Nodup) ∧
      out.length ≤ rules.length + heads.length ∧
      (∀ b ∈ rules, b ∈ out) ∧
      (∀ b ∈ out, b ∈ rules ∨ ∃ h, some h ∈ heads ∧ bindDataset (Rule.new h tail) Xc Yc = .ok b) ∧
      (∀ x ∈ heads, ∃ h, x = some h ∧ ∃ b ∈ out, b.toRule = Rule.new h tail)
  | [], rules, out, h => by
    simp only [addHeads, Except.ok.injEq] at h
    subst h
    exact ⟨id, by simp, fun _ h => h, fun _ h => Or.inl h, by simp⟩
  | none :: _, rules, out, h => by simp [addHeads] at h
  | some hd :: rest, rules, out, h => by
    rw [addHeads] at h
    by_cases hany : rules.any (fun b => b.toRule.eq (Rule.new hd tail)) = true
    · simp only [hany, if_true] at h
      obtain ⟨h1, h2, h3, h4, h5⟩ := addHeads_ok h
      refine ⟨h1, by simp; omega, h3, ?_, ?_⟩
      · intro b hb
        rcases h4 b hb with h | ⟨h', hm, hbd⟩
        · exact Or.inl h
        · exact Or.inr ⟨h', by simp [hm], hbd⟩
      · intro x hx
        rcases List.mem_cons.mp hx with rfl | hx
        · obtain ⟨b, hb, he⟩ := List.any_eq_true.mp hany
          exact ⟨hd, rfl, b, h3 b hb, (Rule.eq_iff _ _).mp he⟩
        · exact h5 x hx
    · simp only [hany, Bool.false_eq_true, if_false, bind, Except.bind] at h
      split at h
      · simp at h
      · rename_i b hb
        have htr := bindDataset_toRule hb
        obtain ⟨h1, h2, h3, h4, h5⟩ := addHeads_ok h
        refine ⟨?_, by simp at h2 ⊢; omega, fun b hb => h3 b (by simp [hb]), ?_, ?_⟩
        · intro hn
          apply h1
          rw [List.map_append, List.nodup_append]
          refine ⟨hn, by simp, ?_⟩
          intro a ha c hc hac
          simp only [List.map_cons, List.map_nil, List.mem_singleton] at hc
          obtain ⟨b', hb', rfl⟩ := List.mem_map.mp ha
          apply hany
          rw [List.any_eq_true]
          exact ⟨b', hb', (Rule.eq_iff _ _).mpr (by rw [hac, hc, htr])⟩
        · intro c hc
          rcases h4 c hc with h | ⟨h', hm, hbd⟩
          · rcases List.mem_append.mp h with h | h
            · exact Or.inl h
            · rw [List.mem_singleton] at h
              subst h
              exact Or.inr ⟨hd, by simp, hb⟩
          · exact Or.inr ⟨h', by simp [hm], hbd⟩
        · intro x hx
          rcases List.mem_cons.mp hx with rfl | hx
          · exact ⟨hd, rfl, b, h3 b (by simp), htr⟩
          · exact h5 x hx

/-- All heads can be bound: `addHeads` succeeds. -/
theorem addHeads_succeeds {Xc Yc : Cmp} {tail : List ℤ} :
    ∀ (heads : List (Option (List ℤ))) (rules : List BRule),
      (∀ x ∈ heads, ∃ h, x = some h ∧ ∃ b, bindDataset (Rule.new h tail) Xc Yc = .ok b) →
      ∃ out, addHeads Xc Yc tail heads rules = .ok out
  | [], rules, _ => ⟨rules, rfl⟩
  | x :: rest, rules, h => by
    obtain ⟨hd, rfl, b, hb⟩ := h x (by simp)
    rw [addHeads]
    have ih := fun r => addHeads_succeeds rest r (fun y hy => h y (by simp [hy]))
    split
    · exact ih rules
    · rw [hb]
      exact ih _

/-- One pass of the outer loop, as the caller sees it: the sampled tail, the heads sampled for it, all
of them bindable. -/
def PassOk {σ ω : Type} (S : Samplers σ ω) (X Yc : Cmp) (nHeads : ℕ) (s : σ) (w : ω)
    (tail : List ℤ) (y : List Bool) (heads : List (Option (List ℤ))) : Prop :=
  S.tailSample s w = .ok tail ∧ conjunctiveCollapseV2 Yc tail = .ok y ∧
    S.headSample X y w nHeads = .ok heads

theorem genLoop_ok {σ ω : Type} {S : Samplers σ ω} {X Xc Yc : Cmp} {nHeads : ℕ} {s : σ} {ws : ℕ → ω} :
    ∀ {todo t : ℕ} {rules out : List BRule},
      genLoop S X Xc Yc nHeads s ws todo t rules = .ok out →
      ((rules.map BRule.toRule).Nodup → (out.map BRule.toRule).Nodup) ∧
      ((∀ X y w hs, S.headSample X y w nHeads = .ok hs → hs.length ≤ nHeads) →
        out.length ≤ rules.length + todo * nHeads) ∧
      (∀ b ∈ rules, b ∈ out) ∧
      (∀ b ∈ out, b ∈ rules ∨ ∃ u, t ≤ u ∧ u < t + todo ∧ ∃ tail y heads h,
        PassOk S X Yc nHeads s (ws u) tail y heads ∧ some h ∈ heads ∧
        bindDataset (Rule.new h tail) Xc Yc = .ok b) ∧
      (∀ u, t ≤ u → u < t + todo → ∃ tail y heads, PassOk S X Yc nHeads s (ws u) tail y heads ∧
        ∀ x ∈ heads, ∃ h, x = some h ∧ ∃ b ∈ out, b.toRule = Rule.new h tail)
  | 0, t, rules, out, h => by
    simp only [genLoop, Except.ok.injEq] at h
    subst h
    exact ⟨id, by simp, fun _ h => h, fun _ h => Or.inl h, by intro u h1 h2; omega⟩
  | todo + 1, t, rules, out, h => by
    rw [genLoop] at h
    simp only [bind, Except.bind] at h
    split at h
    · simp at h
    rename_i tail htail
    split at h
    · simp at h
    rename_i y hy
    split at h
    · simp at h
    rename_i heads hheads
    split at h
    · simp at h
    rename_i rules' hrules'
    obtain ⟨a1, a2, a3, a4, a5⟩ := addHeads_ok hrules'
    obtain ⟨g1, g2, g3, g4, g5⟩ := genLoop_ok h
    refine ⟨fun hn => g1 (a1 hn), ?_, fun b hb => g3 b (a3 b hb), ?_, ?_⟩
    · intro hlen
      have h1 := g2 hlen
      have h2 := hlen _ _ _ _ hheads
      rw [Nat.add_mul, Nat.one_mul]
      omega
    · intro b hb
      rcases g4 b hb with hb | ⟨u, h1, h2, hrest⟩
      · rcases a4 b hb with hb | ⟨h, hm, hbd⟩
        · exact Or.inl hb
        · exact Or.inr ⟨t, le_rfl, by omega, tail, y, heads, h, ⟨htail, hy, hheads⟩, hm, hbd⟩
      · exact Or.inr ⟨u, by omega, by omega, hrest⟩
    · intro u hu1 hu2
      by_cases hut : u = t
      · subst hut
        refine ⟨tail, y, heads, ⟨htail, hy, hheads⟩, ?_⟩
        intro x hx
        obtain ⟨h', hx', b, hb, hbt⟩ := a5 x hx
        exact ⟨h', hx', b, g3 b hb, hbt⟩
      · exact g5 u (by omega) (by omega)

/-- The first failing tail draw is what the caller sees. -/
theorem genLoop_tail_error {σ ω : Type} {S : Samplers σ ω} {X Xc Yc : Cmp} {nHeads : ℕ} {s : σ}
    {ws : ℕ → ω} {e : PyErr} : ∀ {todo t u : ℕ} {rules : List BRule}, t ≤ u → u < t + todo →
      (∀ v, t ≤ v → v < u → ∃ tail y heads, PassOk S X Yc nHeads s (ws v) tail y heads ∧
        ∀ x ∈ heads, ∃ h, x = some h ∧ ∃ b, bindDataset (Rule.new h tail) Xc Yc = .ok b) →
      S.tailSample s (ws u) = .error e →
      genLoop S X Xc Yc nHeads s ws todo t rules = .error e
  | 0, t, u, rules, h1, h2, _, _ => by omega
  | todo + 1, t, u, rules, h1, h2, hprev, he => by
    rw [genLoop]
    by_cases hut : u = t
    · subst hut
      rw [he]; rfl
    · obtain ⟨tail, y, heads, ⟨p1, p2, p3⟩, hb⟩ := hprev t le_rfl (by omega)
      obtain ⟨out, ho⟩ := addHeads_succeeds heads rules hb
      simp only [p1, p2, p3, ho, bind, Except.bind]
      exact genLoop_tail_error (u := u) (by omega) (by omega)
        (fun v hv1 hv2 => hprev v (by omega) hv2) he

theorem generate_bound {σ ω : Type} {S : Samplers σ ω} (hS : TailsAreLabelSets S) {p : Params}
    {X Y : Cmp} {s : σ} {ws : ℕ → ω} {out : List BRule}
    (h : generateCandidates S p X X.flip Y.flip s ws = .ok out) : ∀ b ∈ out, BoundTo X Y b := by
  intro b hb
  obtain ⟨-, -, -, h4, -⟩ := genLoop_ok h
  rcases h4 b hb with hb | ⟨u, -, -, tail, y, heads, hd, ⟨p1, -, -⟩, -, hbd⟩
  · simp at hb
  · have := hS _ _ _ p1
    have ht := bindDataset_toRule hbd
    refine ⟨⟨hd, tail, hbd⟩, ?_, ?_⟩
    · intro l hl
      rw [ht] at hl
      exact this.1 l ((Rule.mem_new_tail _ _ _).mp hl)
    · rw [ht]
      exact (List.mergeSort_perm _ _).nodup_iff.mpr this.2

/-! ### selecting the best candidate -/

theorem selectBest_ok {σ ω : Type} {S : Samplers σ ω} {obj : List BRule → BRule → Py ℝ}
    {sel cands : List BRule} {best : BRule} (h : selectBest S (obj sel) cands = .ok best) :
    GreedyChoice obj sel cands best := by
  obtain ⟨h1, v, h2, h3⟩ := pyMax_spec h
  have hp := S.setOrder_perm cands
  exact ⟨hp.mem_iff.mp h1, v, h2, fun c hc => h3 c (hp.mem_iff.mpr hc)⟩

/-! ### the fitting loop -/

section loop
variable {σ ω : Type} {S : Samplers σ ω} {p : Params} {lr : Learner} {X Xc Yc : Cmp}

theorem fitIter_next {ws : ℕ → ω} {st st' : LoopState σ}
    (h : fitIter S p lr X Xc Yc ws st = .ok (.next st')) :
    ∃ cands best, generateCandidates S p X Xc Yc st.sampler ws = .ok cands ∧
      GreedyChoice lr.objective st.selected cands best ∧ lr.stop st.selected best = .ok false ∧
      S.tailUpdate st.sampler best.support best.tail.toFinset = .ok st'.sampler ∧
      st'.selected = st.selected ++ [best] ∧ st'.pool = poolUnion st.pool cands := by
  unfold fitIter at h
  split at h
  · simp at h
  · simp at h
  · rename_i cands hc
    simp only [bind, Except.bind, pure, Except.pure] at h
    split at h
    · simp at h
    rename_i best hbest
    split at h
    · simp at h
    rename_i stop hstop
    split at h
    · simp at h
    rename_i hs
    split at h
    · simp at h
    rename_i s' hs'
    simp only [Except.ok.injEq, IterResult.next.injEq] at h
    subst h
    refine ⟨cands, best, hc, selectBest_ok hbest, ?_, hs', rfl, rfl⟩
    rw [hstop]; simpa using hs

theorem fitIter_done {ws : ℕ → ω} {st st' : LoopState σ}
    (h : fitIter S p lr X Xc Yc ws st = .ok (.done st')) :
    (generateCandidates S p X Xc Yc st.sampler ws = .error .noMoreSamples ∧ st' = st) ∨
    ∃ cands best, generateCandidates S p X Xc Yc st.sampler ws = .ok cands ∧
      GreedyChoice lr.objective st.selected cands best ∧ lr.stop st.selected best = .ok true ∧
      st' = { st with pool := poolUnion st.pool cands } := by
  unfold fitIter at h
  split at h
  · rename_i hg
    simp only [Except.ok.injEq, IterResult.done.injEq] at h
    exact Or.inl ⟨hg, h.symm⟩
  · simp at h
  · rename_i cands hc
    simp only [bind, Except.bind, pure, Except.pure] at h
    split at h
    · simp at h
    rename_i best hbest
    split at h
    · simp at h
    rename_i stop hstop
    split at h
    · rename_i hs
      simp only [Except.ok.injEq, IterResult.done.injEq] at h
      refine Or.inr ⟨cands, best, hc, selectBest_ok hbest, ?_, h.symm⟩
      rw [hstop]; simpa using hs
    · split at h <;> simp at h

/-- Invariant rule for the fitting loop. -/
theorem fitLoop_inv {ws : ℕ → ℕ → ω} (P : ℕ → LoopState σ → Prop) (Q : LoopState σ → Prop)
    (hnext : ∀ k st st', P k st → fitIter S p lr X Xc Yc (ws k) st = .ok (.next st') → P (k + 1) st')
    (hdone : ∀ k st st', P k st → fitIter S p lr X Xc Yc (ws k) st = .ok (.done st') → Q st') :
    ∀ fuel k st st', P k st → fitLoop S p lr X Xc Yc ws fuel k st = some (.ok st') → Q st' := by
  intro fuel
  induction fuel with
  | zero => intro k st st' _ h; simp [fitLoop] at h
  | succ fuel ih =>
    intro k st st' hP h
    rw [fitLoop] at h
    split at h
    · simp at h
    · rename_i st1 hi
      simp only [Option.some.injEq, Except.ok.injEq] at h
      subst h
      exact hdone k st st1 hP hi
    · rename_i st1 hi
      exact ih (k + 1) st1 st' (hnext k st st1 hP hi) h

/-- Termination rule: a natural-number measure that decreases at every continuing iteration. -/
theorem fitLoop_terminates {ws : ℕ → ℕ → ω} (P : LoopState σ → Prop) (μ : LoopState σ → ℕ)
    (hnext : ∀ k st st', P st → fitIter S p lr X Xc Yc (ws k) st = .ok (.next st') →
      P st' ∧ μ st' < μ st) :
    ∀ fuel k st, P st → μ st < fuel → (fitLoop S p lr X Xc Yc ws fuel k st).isSome := by
  intro fuel
  induction fuel with
  | zero => intro k st _ h; omega
  | succ fuel ih =>
    intro k st hP h
    rw [fitLoop]
    split
    · rfl
    · rfl
    · rename_i st1 hi
      obtain ⟨h1, h2⟩ := hnext k st st1 hP hi
      exact ih (k + 1) st1 h1 (by omega)

/-- The history of a run that has selected `sel` from sampler state `s0`: one batch per iteration. -/
def RunHistory (S : Samplers σ ω) (p : Params) (lr : Learner) (X Xc Yc : Cmp) (ws : ℕ → ℕ → ω)
    (s0 : σ) (held sel : List BRule) (batches : List (List BRule)) : Prop :=
  held.length + batches.length = sel.length ∧ sel.take held.length = held ∧
  ∀ i (hi : i < batches.length), ∃ s best, samplerAfter S s0 ((sel.drop held.length).take i) = .ok s ∧
    generateCandidates S p X Xc Yc s (ws i) = .ok batches[i] ∧
    sel[held.length + i]? = some best ∧
    GreedyChoice lr.objective (sel.take (held.length + i)) batches[i] best ∧
    lr.stop (sel.take (held.length + i)) best = .ok false

theorem samplerAfter_snoc (S : Samplers σ ω) (s0 : σ) (rs : List BRule) (r : BRule) (s : σ)
    (h : samplerAfter S s0 rs = .ok s) :
    samplerAfter S s0 (rs ++ [r]) = S.tailUpdate s r.support r.tail.toFinset := by
  unfold samplerAfter at h ⊢
  rw [List.foldlM_append, h]
  simp [bind, Except.bind, pure, Except.pure]
  cases S.tailUpdate s r.support r.tail.toFinset <;> rfl

theorem fitLoop_history {ws : ℕ → ℕ → ω} {s0 : σ} {held : List BRule} {fuel : ℕ}
    {st' : LoopState σ}
    (h : fitLoop S p lr X Xc Yc ws fuel 0 { sampler := s0, selected := held, pool := [] } =
      some (.ok st')) :
    ∃ batches s, RunHistory S p lr X Xc Yc ws s0 held st'.selected batches ∧
      samplerAfter S s0 (st'.selected.drop held.length) = .ok s ∧
      ((generateCandidates S p X Xc Yc s (ws batches.length) = .error .noMoreSamples ∧
          st'.pool = batches.foldl poolUnion []) ∨
        ∃ cands best, generateCandidates S p X Xc Yc s (ws batches.length) = .ok cands ∧
          GreedyChoice lr.objective st'.selected cands best ∧
          lr.stop st'.selected best = .ok true ∧
          st'.pool = (batches ++ [cands]).foldl poolUnion []) := by
  refine fitLoop_inv (S := S) (p := p) (lr := lr) (X := X) (Xc := Xc) (Yc := Yc) (ws := ws)
    (P := fun k st => ∃ batches, batches.length = k ∧
      RunHistory S p lr X Xc Yc ws s0 held st.selected batches ∧
      samplerAfter S s0 (st.selected.drop held.length) = .ok st.sampler ∧
      st.pool = batches.foldl poolUnion [])
    (Q := fun st' => ∃ batches s, RunHistory S p lr X Xc Yc ws s0 held st'.selected batches ∧
      samplerAfter S s0 (st'.selected.drop held.length) = .ok s ∧
      ((generateCandidates S p X Xc Yc s (ws batches.length) = .error .noMoreSamples ∧
          st'.pool = batches.foldl poolUnion []) ∨
        ∃ cands best, generateCandidates S p X Xc Yc s (ws batches.length) = .ok cands ∧
          GreedyChoice lr.objective st'.selected cands best ∧
          lr.stop st'.selected best = .ok true ∧
          st'.pool = (batches ++ [cands]).foldl poolUnion [])) ?_ ?_ fuel 0 _ st' ?_ h
  · rintro k st st1 ⟨batches, hlen, ⟨hr1, hr2, hr3⟩, hsamp, hpool⟩ hi
    obtain ⟨cands, best, g1, g2, g3, g4, g5, g6⟩ := fitIter_next hi
    have hle : held.length ≤ st.selected.length := by omega
    refine ⟨batches ++ [cands], by simp [hlen], ⟨?_, ?_, ?_⟩, ?_, ?_⟩
    · rw [g5]; simp; omega
    · rw [g5, List.take_append_of_le_length hle, hr2]
    · intro i hi
      rw [List.length_append, List.length_singleton] at hi
      by_cases hlt : i < batches.length
      · obtain ⟨s, b, e1, e2, e3, e4, e5⟩ := hr3 i hlt
        have hls : held.length + i < st.selected.length := by omega
        refine ⟨s, b, ?_, ?_, ?_, ?_, ?_⟩
        · rw [g5, List.drop_append_of_le_length hle, List.take_append_of_le_length]
          · exact e1
          · rw [List.length_drop]; omega
        · rw [List.getElem_append_left hlt]; exact e2
        · rw [g5, List.getElem?_append_left hls]; exact e3
        · rw [g5, List.take_append_of_le_length hls.le, List.getElem_append_left hlt]; exact e4
        · rw [g5, List.take_append_of_le_length hls.le]; exact e5
      · have hieq : i = batches.length := by omega
        subst hieq
        refine ⟨st.sampler, best, ?_, ?_, ?_, ?_, ?_⟩
        · rw [g5, List.drop_append_of_le_length hle, List.take_append_of_le_length
            (by rw [List.length_drop]; omega), List.take_of_length_le (by rw [List.length_drop]; omega)]
          exact hsamp
        · simp only [List.getElem_concat_length]; rw [hlen]; exact g1
        · rw [g5, hr1]; simp
        · rw [g5, hr1, List.take_append_of_le_length le_rfl, List.take_length]
          simp only [List.getElem_concat_length]; exact g2
        · rw [g5, hr1, List.take_append_of_le_length le_rfl, List.take_length]; exact g3
    · rw [g5, List.drop_append_of_le_length hle, samplerAfter_snoc S s0 _ _ _ hsamp, g4]
    · rw [g6, hpool, List.foldl_append]; rfl
  · rintro k st st1 ⟨batches, hlen, hr, hsamp, hpool⟩ hi
    rcases fitIter_done hi with ⟨hg, rfl⟩ | ⟨cands, best, g1, g2, g3, rfl⟩
    · exact ⟨batches, st1.sampler, hr, hsamp, Or.inl ⟨by rw [hlen]; exact hg, hpool⟩⟩
    · refine ⟨batches, st.sampler, hr, hsamp, Or.inr ⟨cands, best, by rw [hlen]; exact g1, g2, g3, ?_⟩⟩
      simp only [List.foldl_append, hpool]; rfl
  · refine ⟨[], rfl, ⟨by simp, by simp, by simp⟩, by simp [samplerAfter, pure, Except.pure], rfl⟩

theorem mem_poolUnion {pool cands : List BRule} :
    (∀ b ∈ poolUnion pool cands, b ∈ pool ∨ b ∈ cands) ∧
    (∀ b ∈ pool, b ∈ poolUnion pool cands) ∧
    (∀ c ∈ cands, ∃ b ∈ poolUnion pool cands, b.toRule = c.toRule) := by
  refine ⟨?_, ?_, ?_⟩
  · intro b hb
    rcases List.mem_append.mp hb with h | h
    · exact Or.inl h
    · exact Or.inr (List.mem_filter.mp h).1
  · intro b hb; exact List.mem_append.mpr (Or.inl hb)
  · intro c hc
    by_cases h : pool.any (fun b => b.toRule.eq c.toRule) = true
    · obtain ⟨b, hb, he⟩ := List.any_eq_true.mp h
      exact ⟨b, List.mem_append.mpr (Or.inl hb), (Rule.eq_iff _ _).mp he⟩
    · exact ⟨c, List.mem_append.mpr (Or.inr (List.mem_filter.mpr ⟨hc, by simp [h]⟩)), rfl⟩

theorem mem_foldl_poolUnion : ∀ (batches : List (List BRule)) (pool : List BRule),
    (∀ b ∈ batches.foldl poolUnion pool, b ∈ pool ∨ ∃ cs ∈ batches, b ∈ cs) ∧
    (∀ b ∈ pool, b ∈ batches.foldl poolUnion pool) ∧
    (∀ cs ∈ batches, ∀ c ∈ cs, ∃ b ∈ batches.foldl poolUnion pool, b.toRule = c.toRule)
  | [], pool => ⟨fun b h => Or.inl h, fun b h => h, by simp⟩
  | cs :: rest, pool => by
    obtain ⟨h1, h2, h3⟩ := mem_foldl_poolUnion rest (poolUnion pool cs)
    obtain ⟨u1, u2, u3⟩ := mem_poolUnion (pool := pool) (cands := cs)
    rw [List.foldl_cons]
    refine ⟨?_, fun b hb => h2 b (u2 b hb), ?_⟩
    · intro b hb
      rcases h1 b hb with h | ⟨c, hc, hbc⟩
      · rcases u1 b h with h | h
        · exact Or.inl h
        · exact Or.inr ⟨cs, by simp, h⟩
      · exact Or.inr ⟨c, by simp [hc], hbc⟩
    · intro c hc x hx
      rcases List.mem_cons.mp hc with rfl | hc
      · obtain ⟨b, hb, he⟩ := u3 x hx
        exact ⟨b, h2 b hb, he⟩
      · exact h3 c hc x hx

end loop

/-! ### sums, distances and objectives -/

theorem pySum_aux {α : Type} {f : α → Py ℝ} {g : α → ℝ} : ∀ {l : List α} (a : ℝ),
    (∀ x ∈ l, f x = .ok (g x)) →
    l.foldlM (fun acc x => do let y ← f x; return acc + y) a = Except.ok (ε := PyErr) (a + (l.map g).sum)
  | [], a, _ => by simp [pure, Except.pure]
  | x :: l, a, h => by
    rw [List.foldlM_cons, h x (by simp)]
    simp only [bind, Except.bind, pure, Except.pure]
    have := pySum_aux (l := l) (a + g x) (fun y hy => h y (by simp [hy]))
    simp only [bind, Except.bind, pure, Except.pure] at this
    rw [this, List.map_cons, List.sum_cons, add_assoc]

theorem pySum_ok {α : Type} {f : α → Py ℝ} {g : α → ℝ} {l : List α} (h : ∀ x ∈ l, f x = .ok (g x)) :
    pySum f l = .ok (l.map g).sum := by
  rw [pySum, pySum_aux 0 h, zero_add]

theorem pySum_inv_aux {α : Type} {f : α → Py ℝ} : ∀ {l : List α} (a v : ℝ),
    l.foldlM (fun acc x => do let y ← f x; return acc + y) a = Except.ok (ε := PyErr) v →
    ∀ x ∈ l, ∃ y, f x = .ok y
  | [], _, _, _ => by simp
  | x :: l, a, v, h => by
    rw [List.foldlM_cons] at h
    simp only [bind, Except.bind, pure, Except.pure] at h
    rcases hx : f x with e | y
    · simp [hx] at h
    · rw [hx] at h
      intro z hz
      rcases List.mem_cons.mp hz with rfl | hz
      · exact ⟨y, hx⟩
      · exact pySum_inv_aux (a + y) v h z hz

theorem pySum_inv {α : Type} {f : α → Py ℝ} {l : List α} {v : ℝ} (h : pySum f l = .ok v) :
    ∀ x ∈ l, ∃ y, f x = .ok y := pySum_inv_aux 0 v h

theorem pySum_error {α : Type} {f : α → Py ℝ} (e : PyErr) : ∀ {l : List α} (a : ℝ),
    l.foldlM (fun acc x => do let y ← f x; return acc + y) a = Except.error (α := ℝ) e →
    ∃ x ∈ l, f x = .error e
  | [], a, h => by simp [pure, Except.pure] at h
  | x :: l, a, h => by
    rw [List.foldlM_cons] at h
    simp only [bind, Except.bind, pure, Except.pure] at h
    rcases hx : f x with e' | y
    · simp only [hx, Except.error.injEq] at h
      exact ⟨x, by simp, by rw [hx, h]⟩
    · rw [hx] at h
      obtain ⟨z, hz, he⟩ := pySum_error e (a + y) h
      exact ⟨z, by simp [hz], he⟩

theorem distReal_ok {a b : BRule} (ha : a.tail.Nodup) (hb : b.tail.Nodup) {d : ℝ}
    (h : distReal a b = .ok d) : d = areaDist a b ∧ (area a ∪ area b).Nonempty := by
  unfold distReal at h
  rw [jaccardDistance_eq a b ha hb] at h
  split at h
  · simp [bind, Except.bind] at h
  · rename_i hne
    simp only [bind, Except.bind, pure, Except.pure, Except.ok.injEq] at h
    refine ⟨?_, Finset.nonempty_iff_ne_empty.mpr hne⟩
    rw [← h, areaDist]
    push_cast
    rfl

theorem distReal_eq {a b : BRule} (ha : a.tail.Nodup) (hb : b.tail.Nodup)
    (h : (area a ∪ area b).Nonempty) : distReal a b = .ok (areaDist a b) := by
  unfold distReal
  rw [jaccardDistance_eq a b ha hb, if_neg (Finset.nonempty_iff_ne_empty.mp h)]
  simp [bind, Except.bind, pure, Except.pure, areaDist]

theorem distReal_error {a b : BRule} {e : PyErr} (h : distReal a b = .error e) :
    e = .zeroDivisionError := by
  unfold distReal jaccardDistance pyDiv at h
  simp only [bind, Except.bind, pure, Except.pure] at h
  split at h
  · rename_i h2
    split at h2
    · rename_i h3
      split at h3
      · simp_all
      · simp at h3
    · simp at h2
  · simp at h

theorem klReal_error {r : BRule} {e : PyErr} (h : r.klReal = .error e) : e = .zeroDivisionError := by
  unfold BRule.klReal BRule.KL BRule.precision BRule.baseRate pyDiv at h
  simp only [bind, Except.bind, pure, Except.pure] at h
  split at h
  · rename_i h2
    split at h2
    · rename_i h3
      split at h3
      · simp_all
      · simp at h3
    · split at h2
      · rename_i h3
        split at h3
        · simp_all
        · simp at h3
      · split at h2 <;> simp at h2
  · simp at h

theorem klReal_bound {X Y : Cmp} (hn : X.nMajor = Y.nMajor) {b : BRule}
    (hb : BoundTo X Y b) : ∃ k, b.klReal = .ok k ∧ 0 ≤ k ∧ b.KL = .ok (k : EReal) := by
  obtain ⟨⟨head, tail, hbind⟩, h0, -⟩ := hb
  have ht := bindDataset_toRule hbind
  have h0' : ∀ l ∈ tail, 0 ≤ l := by
    intro l hl
    apply h0
    rw [ht]; exact (Rule.mem_new_tail _ _ _).mpr hl
  obtain ⟨p, q, k, -, -, hk, hk0, -⟩ := C12_KL X.flip Y.flip (wf_flip X) (wf_flip Y)
    (by simpa using hn) head tail h0' b hbind
  exact ⟨k, by simp [BRule.klReal, hk, bind, Except.bind, pure, Except.pure], hk0, hk⟩

theorem pairs_sum (f : BRule → BRule → ℝ) : ∀ (l : List BRule),
    ((pairs l).map fun pr => f pr.1 pr.2).sum =
      match l with
      | [] => 0
      | r :: rs => (rs.map (f r)).sum + ((pairs rs).map fun pr => f pr.1 pr.2).sum
  | [] => by simp [pairs]
  | r :: rs => by
    simp [pairs, List.map_append, List.sum_append, List.map_map, Function.comp_def]

theorem pairs_areaDist : ∀ (l : List BRule), ((pairs l).map fun pr => areaDist pr.1 pr.2).sum = diversity l
  | [] => by simp [pairs, diversity]
  | r :: rs => by
    rw [pairs_sum]
    show _ + _ = _
    rw [diversity, pairs_areaDist rs, distTo]

theorem mem_pairs {l : List BRule} {pr : BRule × BRule} (h : pr ∈ pairs l) : pr.1 ∈ l ∧ pr.2 ∈ l := by
  induction l with
  | nil => simp [pairs] at h
  | cons a l ih =>
    rw [pairs, List.mem_append, List.mem_map] at h
    rcases h with ⟨b, hb, rfl⟩ | h
    · simp [hb]
    · have := ih h
      simp [this.1, this.2]

/-- The greedy objective of a candidate, when it can be evaluated. -/
theorem objectiveOfRule_ok {quality : List BRule → BRule → Py ℝ} {lambd : ℝ} {sel : List BRule}
    {r : BRule} (hs : ∀ b ∈ sel, b.tail.Nodup) (hr : r.tail.Nodup) {v : ℝ}
    (h : objectiveOfRule quality lambd sel r = .ok v) :
    ∃ q, quality sel r = .ok q ∧ v = q + lambd * distTo r sel := by
  unfold objectiveOfRule at h
  simp only [bind, Except.bind, pure, Except.pure] at h
  split at h
  · simp at h
  rename_i q hq
  split at h
  · simp at h
  rename_i d hd
  have hok : ∀ x ∈ sel, distReal r x = .ok (areaDist r x) := by
    intro x hx
    obtain ⟨y, hy⟩ := pySum_inv hd x hx
    rw [hy, (distReal_ok hr (hs x hx) hy).1]
  unfold diversityOfRule at hd
  rw [pySum_ok hok] at hd
  simp only [Except.ok.injEq] at h hd
  exact ⟨q, hq, by rw [← h, ← hd, distTo]⟩

theorem marginalCoverage_self {sel : List BRule} {r : BRule} (h : r ∈ sel) :
    r.marginalCoverage sel = 0 := by
  rw [marginalCoverage_eq, Finset.card_eq_zero, Finset.sdiff_eq_empty_iff_subset]
  intro c hc
  rw [mem_covered]
  exact ⟨r, h, hc⟩

theorem qualityOfRule_self {X Y : Cmp} (hn : X.nMajor = Y.nMajor) {sel : List BRule} {r : BRule}
    (hb : BoundTo X Y r) (hr : r ∈ sel) : qualityOfRule sel r = .ok 0 := by
  obtain ⟨k, hk, -⟩ := klReal_bound hn hb
  unfold qualityOfRule
  rw [hk, marginalCoverage_self hr]
  simp [bind, Except.bind, pure, Except.pure]

theorem qualityOfRuleV3_self {X Y : Cmp} (hn : X.nMajor = Y.nMajor) {sel : List BRule} {r : BRule}
    (hb : BoundTo X Y r) (hr : r ∈ sel) : qualityOfRuleV3 sel r = .ok 0 := by
  obtain ⟨k, hk, -⟩ := klReal_bound hn hb
  unfold qualityOfRuleV3
  rw [hk, marginalCoverage_self hr]
  simp [bind, Except.bind, pure, Except.pure]

/-- The distances of all pairs, when they can be evaluated. -/
theorem pairDist_ok {sel : List BRule} (hb : ∀ b ∈ sel, b.tail.Nodup) {d : ℝ}
    (hd : pySum (fun pr : BRule × BRule => distReal pr.1 pr.2) (pairs sel) = .ok d) :
    d = diversity sel := by
  have hok : ∀ x ∈ pairs sel, distReal x.1 x.2 = .ok (areaDist x.1 x.2) := by
    intro x hx
    obtain ⟨y, hy⟩ := pySum_inv hd x hx
    have hm := mem_pairs hx
    rw [hy, (distReal_ok (hb _ hm.1) (hb _ hm.2) hy).1]
  have h2 := pySum_ok (g := fun x : BRule × BRule => areaDist x.1 x.2) hok
  rw [h2] at hd
  rw [← pairs_areaDist]
  exact (Except.ok.inj hd).symm

theorem objectiveOf_ok {quality : List BRule → BRule → Py ℝ}
    {lambd : ℝ} {sel : List BRule} (hb : ∀ b ∈ sel, b.tail.Nodup)
    (hq0 : ∀ b ∈ sel, quality sel b = .ok 0) {v : ℝ}
    (h : objectiveOf quality lambd sel sel = .ok v) : v = lambd * diversity sel := by
  have hq : pySum (quality sel) sel = .ok 0 := by
    rw [pySum_ok (g := fun _ => 0) hq0]
    simp
  unfold objectiveOf at h
  rw [hq] at h
  rcases hd : pySum (fun pr : BRule × BRule => distReal pr.1 pr.2) (pairs sel) with e | d
  · rw [hd] at h; cases h
  · rw [hd] at h
    have h3 : (0 : ℝ) + lambd * d = v := Except.ok.inj h
    rw [← h3, pairDist_ok hb hd, zero_add]

end Verif
