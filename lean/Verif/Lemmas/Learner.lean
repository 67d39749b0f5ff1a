/-
Lemmas about the learners with their real samplers.
-/
import Verif.Spec.Learner
import Verif.Props.Uncovered
import Verif.Props.Head
import Verif.Props.Greedy

namespace Verif
open Cmp

/-! ### Random programs -/

theorem outcome_toReal {α : Type} (m : Rand α) (x : Py α) : m.toReal.Outcome x ↔ m.Outcome x := by
  induction m with
  | done r => rfl
  | choice p k ih =>
    simp only [Rand.toReal, RandR.Outcome, Rand.Outcome, ih, List.length_map, List.getElem_map]
    constructor
    · rintro ⟨i, h, hp, ho⟩; exact ⟨i, h, by exact_mod_cast hp, ho⟩
    · rintro ⟨i, h, hp, ho⟩; exact ⟨i, h, by exact_mod_cast hp, ho⟩

theorem outcome_attempt {α : Type} (m : RandR α) (x : Py (Py α)) :
    m.attempt.Outcome x ↔ ∃ r, m.Outcome r ∧ x = .ok r := by
  induction m with
  | done r => simp [RandR.attempt, RandR.Outcome]
  | choice p k ih =>
    simp only [RandR.attempt, RandR.Outcome, ih]
    constructor
    · rintro ⟨i, h, hp, r, ho, e⟩; exact ⟨r, ⟨i, h, hp, ho⟩, e⟩
    · rintro ⟨r, ⟨i, h, hp, ho⟩, e⟩; exact ⟨i, h, hp, r, ho, e⟩
  | unif k ih =>
    simp only [RandR.attempt, RandR.Outcome, ih]
    constructor
    · rintro ⟨i, h, hp, r, ho, e⟩; exact ⟨r, ⟨i, h, hp, ho⟩, e⟩
    · rintro ⟨r, ⟨i, h, hp, ho⟩, e⟩; exact ⟨i, h, hp, r, ho, e⟩

/-! ### The tail sampler on real data -/

theorem rowContains_iff_rowHas {Y : Cmp} (hY : Y.WF) {i : ℕ} {S : Finset ℤ} {items : List ℤ}
    (h : ∀ x, x ∈ items ↔ x ∈ S) : RowContains Y i S ↔ RowHas Y.flip items i := by
  unfold RowContains RowHas
  constructor
  · intro hc c hm
    obtain ⟨j, rfl, hj⟩ := hc c ((h c).mp hm)
    refine ⟨by positivity, ?_⟩
    rw [Int.toNat_natCast]
    exact (stored_flip hY i j).mpr hj
  · intro hc x hx
    obtain ⟨h0, h1⟩ := hc x ((h x).mpr hx)
    exact ⟨x.toNat, by omega, (stored_flip hY i x.toNat).mp h1⟩

theorem tailFit_ok {env : HeadEnv} (he : env.Good) (p : ℚ) (prune : Bool)
    (history : List (List ℕ × List ℤ)) {Y : Cmp} (hY : Y.Binary) (hc : 0 < Y.nMinor)
    (hd : Y.nMinor < env.depth) :
    ∃ g space, buildGraph Y.flip = .ok g ∧
      tailFit env p prune history Y = .ok (assignRowWeights space (naiveNewRows Y space) history) ∧
      space.Nodup ∧ ∀ T, T ∈ space ↔ ∃ U, g.Probable p U ∧ T = intSet U := by
  obtain ⟨g, space, h1, h2, h3, h4⟩ := buildSpaceAndRows_ok he (HeadSampler.init prune p true) hY hc hd
  refine ⟨g, space, h1, ?_, h3, h4⟩
  unfold tailFit
  rw [h2]
  rfl

theorem columns_of_tailFit {env : HeadEnv} {p : ℚ} {prune : Bool} {history : List (List ℕ × List ℤ)} {Y : Cmp}
    (hY : Y.Binary) {s : UState} (h : tailFit env p prune history Y = .ok s) : 0 < Y.nMinor := by
  by_contra hc
  unfold tailFit at h
  rw [buildSpaceAndRows_empty _ hY (by omega)] at h
  cases h

/-- What a tail draw on real data can give. -/
theorem tail_outcome {env : HeadEnv} (he : env.Good) {p : ℚ} {prune : Bool} {Y : Cmp} (hY : Y.Binary)
    (hd : Y.nMinor < env.depth) (hpos : 0 < Y.nMajor) {us : List (List ℕ × List ℤ)} {s : UState}
    (hs : TailAfter env p prune Y us s) {x : Py (Finset ℤ)} (hx : (sampleOnce s).Outcome x) :
    (x = .error .noMoreSamples ∧ totalArea s.space s.newRows us = 0) ∨
    ∃ T, x = .ok T ∧ T ∈ s.space ∧ T.Nonempty ∧ (∀ l ∈ T, 0 ≤ l ∧ l < Y.nMinor) ∧
      ∃ i < Y.nMajor, RowContains Y i T ∧ ∃ l ∈ T, ¬ CoveredBy us i l := by
  obtain ⟨s0, h0, hu⟩ := hs
  obtain ⟨g, space, hg, hf, hnd, hmem⟩ := tailFit_ok he p prune [] hY (columns_of_tailFit hY h0) hd
  rw [hf] at h0
  cases h0
  obtain ⟨-, rfl⟩ := fresh_applyUpdates_inv hu
  have hlen := naiveNewRows_length Y space
  have hne : naiveNewRows Y space ≠ [] := by
    intro h; rw [h] at hlen; simp at hlen; omega
  rw [outcome_once space _ us hne] at hx
  split at hx
  · rename_i h0
    exact Or.inl ⟨hx, h0⟩
  · right
    obtain ⟨i, hi, id, hid, ⟨l, hl⟩, rfl⟩ := hx
    rw [hlen] at hi
    have hrec : id ∈ recordAt (naiveNewRows Y space) i := List.mem_toFinset.mpr hid
    obtain ⟨h1, h2⟩ := (recordAt_naive Y space hi).mp hrec
    have hl' : l ∈ space.getD id ∅ := (Finset.mem_filter.mp hl).1
    refine ⟨_, rfl, ?_, ⟨l, hl'⟩, ?_, i, hi, h2, l, hl', (Finset.mem_filter.mp hl).2⟩
    · show space.getD id ∅ ∈ space
      rw [getD_lt h1]; exact List.getElem_mem h1
    · intro x hx
      obtain ⟨j, rfl, hj⟩ := h2 x hx
      exact ⟨by positivity, by exact_mod_cast (Stored.minor_lt hY.toWF hj)⟩

/-! ### One tail and its heads -/

theorem Supported.area_nonempty {X Y : Cmp} (hX : X.WF) (hY : Y.WF) (hn : X.nMajor = Y.nMajor) {b : BRule}
    (h : Supported X Y b) : (area b).Nonempty := by
  obtain ⟨hb, i, hi⟩ := h
  obtain ⟨-, ht, -⟩ := hb.spec hX hY hn
  obtain ⟨l, hl⟩ := List.exists_mem_of_ne_nil _ ht
  exact ⟨(i, l), Finset.mem_product.mpr ⟨hi, List.mem_toFinset.mpr hl⟩⟩

/-- Everything `sample(n)` can do after a fit. -/
theorem headSample_outcome {env : HeadEnv} (he : env.Good) {X : Cmp} (hX : X.Binary)
    (hd : X.nMinor < env.depth) {s s' : HeadSampler} (hs : HeadReach env X s) {y : List ℤ}
    (hf : headFit env s X y = .ok s') : ∀ (n : ℕ) (x : Py (List (Option (Finset ℤ)) × HeadSampler)),
    (headSample env n s').Outcome x → ∃ hs, x = .ok (hs, s') ∧ hs.length = n ∧
      ∀ o ∈ hs, o = none ∨ ∃ T, o = some T ∧ ∃ i j, y[i]? = some 1 ∧ y[j]? = some 0 ∧
        RowContains X i T ∧ ¬ RowContains X j T
  | 0, x, h => ⟨[], h, rfl, by simp⟩
  | n + 1, x, h => by
    rw [headSample, RandR.bind_eq, RandR.outcome_bind] at h
    rcases h with ⟨r, hr, h⟩ | ⟨e, hr, -⟩
    · have key : r.2 = s' ∧ (r.1 = none ∨ ∃ T, r.1 = some T ∧ ∃ i j, y[i]? = some 1 ∧ y[j]? = some 0 ∧
          RowContains X i T ∧ ¬ RowContains X j T) := by
        rcases C58_outcomes env he X hX hd s s' hs y hf _ hr with e | ⟨T, space, -, -, e, hij⟩
        · cases e; exact ⟨rfl, Or.inl rfl⟩
        · cases e; exact ⟨rfl, Or.inr ⟨T, rfl, hij⟩⟩
      rw [key.1, RandR.bind_eq, RandR.outcome_bind] at h
      rcases h with ⟨q, hq, h⟩ | ⟨e, hq, -⟩
      · obtain ⟨hs', e, hl, hall⟩ := headSample_outcome he hX hd hs hf n _ hq
        cases e
        refine ⟨r.1 :: hs', h, by simp [hl], ?_⟩
        intro o ho
        rcases List.mem_cons.mp ho with rfl | ho
        · exact key.2
        · exact hall o ho
      · obtain ⟨hs', e', -⟩ := headSample_outcome he hX hd hs hf n _ hq
        cases e'
    · rcases C58_outcomes env he X hX hd s s' hs y hf _ hr with e | ⟨T, space, -, -, e, hij⟩ <;> cases e

theorem headSample_reach {env : HeadEnv} {X : Cmp} : ∀ (n : ℕ) {s s' : HeadSampler}
    {hs : List (Option (Finset ℤ))}, HeadReach env X s → (headSample env n s).Outcome (.ok (hs, s')) →
    HeadReach env X s'
  | 0, s, s', hs, hr, h => by cases h; exact hr
  | n + 1, s, s', hs, hr, h => by
    rw [headSample, RandR.bind_eq, RandR.outcome_bind] at h
    rcases h with ⟨⟨r, s1⟩, h1, h⟩ | ⟨e, -, e'⟩
    · rw [RandR.bind_eq, RandR.outcome_bind] at h
      rcases h with ⟨⟨q, s2⟩, h2, h⟩ | ⟨e, -, e'⟩
      · cases h
        exact headSample_reach n (.sample _ _ _ hr h1) h2
      · cases e'
    · cases e'

/-- Heads that are `None` or can be bound: `addHeads` returns, or raises `TypeError` for a `None`. -/
theorem addHeads_cases {Xc Yc : Cmp} {tail : List ℤ} : ∀ (heads : List (Option (List ℤ)))
    (rules : List BRule),
    (∀ x ∈ heads, x = none ∨ ∃ h, x = some h ∧ ∃ b, bindDataset (Rule.new h tail) Xc Yc = .ok b) →
    (∃ out, addHeads Xc Yc tail heads rules = .ok out) ∨
      (none ∈ heads ∧ addHeads Xc Yc tail heads rules = .error .typeError)
  | [], rules, _ => Or.inl ⟨rules, rfl⟩
  | x :: rest, rules, h => by
    rcases h x (by simp) with rfl | ⟨hd, rfl, b, hb⟩
    · exact Or.inr ⟨by simp, rfl⟩
    · rw [addHeads]
      have ih := fun r => addHeads_cases rest r (fun y hy => h y (by simp [hy]))
      split
      · rcases ih rules with h | ⟨h1, h2⟩
        · exact Or.inl h
        · exact Or.inr ⟨by simp [h1], h2⟩
      · rw [hb]
        rcases ih (rules ++ [b]) with h | ⟨h1, h2⟩
        · exact Or.inl h
        · exact Or.inr ⟨by simp [h1], h2⟩

theorem labels01_getElem? (y : List Bool) (i : ℕ) :
    (labels01 y)[i]? = y[i]?.map fun b => if b then (1 : ℤ) else 0 := by
  simp [labels01]

/-- A head that some row carrying the tail contains, and some row does not, makes a supported rule. -/
theorem bind_supported {X Y : Cmp} (hX : X.Binary) (hY : Y.Binary) (hn : X.nMajor = Y.nMajor)
    {orderZ : Finset ℤ → List ℤ} (ho : Traverses orderZ) {T H : Finset ℤ} (hT : T.Nonempty)
    (hTr : ∀ l ∈ T, 0 ≤ l ∧ l < Y.nMinor) {i j : ℕ} (hi : RowContains Y i T) (hHi : RowContains X i H)
    (hHj : ¬ RowContains X j H) :
    ∃ b, bindDataset (Rule.new (orderZ H) (orderZ T)) X.flip Y.flip = .ok b ∧ Supported X Y b := by
  have hHne : H.Nonempty := by
    rw [Finset.nonempty_iff_ne_empty]
    rintro rfl
    exact hHj (by intro x hx; simp at hx)
  have ne : ∀ {S : Finset ℤ}, S.Nonempty → orderZ S ≠ [] := by
    rintro S ⟨x, hx⟩ h
    have := (ho S).2 x |>.mpr hx
    rw [h] at this
    simp at this
  have hHr : ∀ x ∈ orderZ H, 0 ≤ x ∧ x < X.nMinor := by
    intro x hx
    obtain ⟨k, rfl, hk⟩ := hHi x (((ho H).2 x).mp hx)
    exact ⟨by positivity, by exact_mod_cast Stored.minor_lt hX.toWF hk⟩
  have hTr' : ∀ x ∈ orderZ T, 0 ≤ x ∧ x < Y.nMinor := fun x hx => hTr x (((ho T).2 x).mp hx)
  have hrowX := (rowContains_iff_rowHas hX.toWF (ho H).2).mp hHi
  have hrowY := (rowContains_iff_rowHas hY.toWF (ho T).2).mp hi
  refine ⟨_, bindDataset_ok (wf_flip X) (wf_flip Y) (by simpa using hn)
    (Rule.new_head_ne_nil.mpr (ne hHne)) (Rule.new_tail_ne_nil.mpr (ne hT))
    (by simpa only [Rule.mem_new_head, flip_nMajor] using hHr)
    (by simpa only [Rule.mem_new_tail, flip_nMajor] using hTr')
    ⟨i, by simpa only [RowHas, Rule.mem_new_head] using hrowX⟩,
    boundTo_mk hn (ne hHne) (ne hT) (ho T).1 hHr hTr' ⟨i, hrowX⟩, i, ?_⟩
  have hlt : i < X.nMajor := by
    obtain ⟨x, hx⟩ := hHne
    obtain ⟨k, -, hk⟩ := hHi x hx
    exact Stored.major_lt hX.toWF hk
  simp only [boundRule, Finset.mem_filter, Finset.mem_range, flip_nMinor, RowHas, Rule.mem_new_head,
    Rule.mem_new_tail]
  exact ⟨hlt, hrowX, hrowY⟩

/-! ### Candidate generation -/

theorem outcome_orRaise {α β : Type} {r : Py α} {h : HeadSampler} {k : α → RandR (Py β × HeadSampler)}
    {x : Py (Py β × HeadSampler)} :
    (orRaise r h k).Outcome x ↔
      (∃ a, r = .ok a ∧ (k a).Outcome x) ∨ ∃ e, r = .error e ∧ x = .ok (.error e, h) := by
  unfold orRaise
  cases r with
  | ok a => simp
  | error e => simp [RandR.pure_eq]

/-- Everything candidate generation can do. -/
theorem learnGen_outcome {env : LearnEnv} (he : env.Good) {X Y : Cmp} (hD : LearnData env X Y) {p : ℚ}
    {prune : Bool} {us : List (List ℕ × List ℤ)} {s : UState}
    (hs : TailAfter env.toHeadEnv p prune Y us s) (nHeads : ℕ) :
    ∀ (todo : ℕ) (h : HeadSampler) (rules : List BRule) (x : Py (Py (List BRule) × HeadSampler)),
      HeadReach env.toHeadEnv X h → (∀ b ∈ rules, Supported X Y b) →
      (learnGen env X X.flip Y.flip nHeads s todo h rules).Outcome x →
      ∃ g h', x = .ok (g, h') ∧ HeadReach env.toHeadEnv X h' ∧
        ((∃ out, g = .ok out ∧ (∀ b ∈ out, Supported X Y b) ∧
            (rules ≠ [] ∨ (0 < todo ∧ 0 < nHeads) → out ≠ [])) ∨
          (g = .error .noMoreSamples ∧ totalArea s.space s.newRows us = 0) ∨
          g = .error .typeError ∨
          (g = .error .assertionError ∧ ∃ T ∈ s.space, ∀ i < Y.nMajor, RowContains Y i T))
  | 0, h, rules, x, hh, hr, hx => by
    rw [learnGen] at hx
    exact ⟨_, _, hx, hh, Or.inl ⟨rules, rfl, hr, by simp⟩⟩
  | todo + 1, h, rules, x, hh, hr, hx => by
    classical
    have hX := hD.features
    have hY := hD.labels
    rw [learnGen, RandR.bind_eq, RandR.outcome_bind] at hx
    rcases hx with ⟨t, ht, hx⟩ | ⟨e, ht, -⟩
    swap
    · rw [outcome_attempt] at ht
      obtain ⟨r, -, hr⟩ := ht
      cases hr
    rw [outcome_attempt] at ht
    obtain ⟨r, ht, e⟩ := ht
    cases e
    rw [outcome_toReal] at ht
    rcases tail_outcome he.heads hY hD.depthY hD.pos hs ht with ⟨rfl, h0⟩ |
      ⟨T, rfl, hTs, hTne, hTr, i, hi, hTi, -⟩
    · exact ⟨_, _, hx, hh, Or.inr (Or.inl ⟨rfl, h0⟩)⟩
    · have hne : env.orderZ T ≠ [] := by
        obtain ⟨l, hl⟩ := hTne
        intro h
        have := ((he.ints T).2 l).mpr hl
        rw [h] at this
        simp at this
      have hcol : conjunctiveCollapseV2 Y.flip (env.orderZ T) = .ok ((List.range Y.nMajor).map fun i =>
          decide (RowHas Y.flip (env.orderZ T) i)) := by
        have := collapse_int_ok (wf_flip Y) hne (by
          intro x hx
          rw [flip_nMajor]
          exact hTr x (((he.ints T).2 x).mp hx))
        rwa [flip_nMinor] at this
      have hrow : ∀ k, RowHas Y.flip (env.orderZ T) k ↔ RowContains Y k T := fun k =>
        (rowContains_iff_rowHas hY.toWF (he.ints T).2).symm
      have hyy : ((List.range Y.nMajor).map fun i => decide (RowHas Y.flip (env.orderZ T) i)) =
          (List.range Y.nMajor).map fun i => decide (RowContains Y i T) :=
        List.map_congr_left fun k _ => decide_eq_decide.mpr (hrow k)
      change (orRaise (conjunctiveCollapseV2 Y.flip (env.orderZ T)) h _).Outcome x at hx
      rw [hcol, hyy] at hx
      set y := (List.range Y.nMajor).map fun i => decide (RowContains Y i T) with hy
      change (orRaise (headFit env.toHeadEnv h X (labels01 y)) h _).Outcome x at hx
      have hylen : (labels01 y).length = X.nMajor := by simp [labels01, hy, hD.rows]
      have hyget : ∀ k, (labels01 y)[k]? = some 1 → RowContains Y k T := by
        intro k hk
        rw [labels01_getElem?, hy] at hk
        by_cases hkl : k < Y.nMajor
        · simp only [List.getElem?_map, List.getElem?_range hkl, Option.map_some, Option.some.injEq,
            decide_eq_true_eq] at hk
          by_contra hc
          simp [hc] at hk
        · rw [List.getElem?_eq_none (by simp; omega)] at hk
          simp at hk
      obtain ⟨c1, c2, -⟩ := C58_fit env.toHeadEnv he.heads X hX hD.depthX h hh (labels01 y)
      rw [outcome_orRaise] at hx
      rcases hx with ⟨h1, hf, hx⟩ | ⟨e, hf, hx⟩
      · rw [RandR.bind_eq, RandR.outcome_bind] at hx
        rcases hx with ⟨q, hq, hx⟩ | ⟨e, ht, -⟩
        swap
        · rw [outcome_attempt] at ht
          obtain ⟨r, -, hr⟩ := ht
          cases hr
        rw [outcome_attempt] at hq
        obtain ⟨r, hq, e⟩ := hq
        cases e
        have h1r : HeadReach env.toHeadEnv X h1 := .fit _ _ _ hh hf
        obtain ⟨hs', rfl, hlen, hall⟩ := headSample_outcome he.heads hX hD.depthX hh hf nHeads q hq
        change (orRaise (addHeads X.flip Y.flip (env.orderZ T) (hs'.map (Option.map env.orderZ)) rules) h1
          _).Outcome x at hx
        have hbind : ∀ o ∈ hs'.map (Option.map env.orderZ), o = none ∨ ∃ hd, o = some hd ∧
            ∃ b, bindDataset (Rule.new hd (env.orderZ T)) X.flip Y.flip = .ok b ∧ Supported X Y b := by
          intro o ho
          obtain ⟨o', ho', rfl⟩ := List.mem_map.mp ho
          rcases hall o' ho' with rfl | ⟨H, rfl, k, j, hk, -, hHk, hHj⟩
          · exact Or.inl rfl
          · right
            refine ⟨_, rfl, ?_⟩
            exact bind_supported hX hY hD.rows he.ints hTne hTr (hyget k hk) hHk hHj
        rw [outcome_orRaise] at hx
        rcases addHeads_cases (Xc := X.flip) (Yc := Y.flip) (tail := env.orderZ T)
          (hs'.map (Option.map env.orderZ)) rules (fun o ho => by
            rcases hbind o ho with h | ⟨hd, h1, b, h2, -⟩
            · exact Or.inl h
            · exact Or.inr ⟨hd, h1, b, h2⟩) with ⟨out, hout⟩ | ⟨-, herr⟩
        · rw [hout] at hx
          rcases hx with ⟨a, e, hx⟩ | ⟨e, e', -⟩
          swap
          · cases e'
          cases e
          obtain ⟨-, -, a3, a4, a5⟩ := addHeads_ok hout
          have hout' : ∀ b ∈ out, Supported X Y b := by
            intro b hb
            rcases a4 b hb with hb | ⟨hd, hm, hbd⟩
            · exact hr b hb
            · rcases hbind _ hm with h | ⟨hd', e, b', hb', hsup⟩
              · cases h
              · cases e
                rw [hb'] at hbd
                cases hbd
                exact hsup
          obtain ⟨g, h', e, hr', hg⟩ := learnGen_outcome he hD hs nHeads todo h1 out x h1r hout' hx
          refine ⟨g, h', e, hr', ?_⟩
          rcases hg with ⟨out', e1, e2, e3⟩ | hg
          · left
            refine ⟨out', e1, e2, ?_⟩
            intro hor
            apply e3
            left
            rcases hor with hor | ⟨-, hn⟩
            · obtain ⟨b, hb⟩ := List.exists_mem_of_ne_nil _ hor
              exact List.ne_nil_of_mem (a3 b hb)
            · have : hs' ≠ [] := by intro h; rw [h] at hlen; simp at hlen; omega
              obtain ⟨o, ho⟩ := List.exists_mem_of_ne_nil _ this
              obtain ⟨hd, -, b, hb, -⟩ := a5 (o.map env.orderZ) (List.mem_map_of_mem ho)
              exact List.ne_nil_of_mem hb
          · exact Or.inr hg
        · rw [herr] at hx
          rcases hx with ⟨a, e, -⟩ | ⟨e, e', rfl⟩
          · cases e
          · cases e'
            exact ⟨_, _, rfl, h1r, Or.inr (Or.inr (Or.inl rfl))⟩
      · subst hx
        refine ⟨_, _, rfl, hh, Or.inr (Or.inr (Or.inr ?_))⟩
        have hnot : (labels01 y).toFinset ≠ {0, 1} := by
          intro hc
          obtain ⟨s', h'⟩ := c1.mpr ⟨hc, hylen.le, hD.colsX⟩
          rw [h'] at hf
          cases hf
        rw [c2 hnot] at hf
        cases hf
        refine ⟨rfl, T, hTs, ?_⟩
        by_contra hcon
        push Not at hcon
        obtain ⟨k, hk, hkT⟩ := hcon
        apply hnot
        have hget : ∀ m < Y.nMajor, (if RowContains Y m T then (1 : ℤ) else 0) ∈ labels01 y := by
          intro m hm
          simp only [labels01, hy, List.map_map, List.mem_map, List.mem_range, Function.comp,
            decide_eq_true_eq]
          exact ⟨m, hm, rfl⟩
        ext z
        simp only [List.mem_toFinset, Finset.mem_insert, Finset.mem_singleton]
        constructor
        · intro hz
          simp only [labels01, List.mem_map] at hz
          obtain ⟨b, -, rfl⟩ := hz
          cases b <;> simp
        · rintro (rfl | rfl)
          · simpa [hkT] using hget k hk
          · simpa [hTi] using hget i hi

/-! ### The loop -/

/-- The measures a learner needs are defined on supported rules. -/
structure LearnerTotal (X Y : Cmp) (lr : Learner) : Prop where
  objective : ∀ sel b, (∀ c ∈ sel, Supported X Y c) → Supported X Y b → ∃ v, lr.objective sel b = .ok v
  stop : ∀ sel b, (∀ c ∈ sel, Supported X Y c) → Supported X Y b → ∃ v, lr.stop sel b = .ok v

/-- What holds of the learner's state in the loop. -/
structure LearnInv (env : LearnEnv) (p : ℚ) (X Y : Cmp) (held : List BRule) (st : LearnState) : Prop where
  tails : ∃ new, st.selected = held ++ new ∧
    TailAfter env.toHeadEnv p true Y (new.map (updateOf env)) st.sampler.1
  heads : HeadReach env.toHeadEnv X st.sampler.2
  selected : ∀ b ∈ st.selected, Supported X Y b
  pool : ∀ b ∈ st.pool, Supported X Y b

theorem tailAfter_space {env : HeadEnv} (he : env.Good) {p : ℚ} {prune : Bool} {Y : Cmp} (hY : Y.Binary)
    (hd : Y.nMinor < env.depth) {us : List (List ℕ × List ℤ)} {s : UState}
    (hs : TailAfter env p prune Y us s) :
    ∃ g, buildGraph Y.flip = .ok g ∧ s = stateAfter s.space (naiveNewRows Y s.space) us ∧
      s.newRows = naiveNewRows Y s.space ∧
      s.space.Nodup ∧ ∀ T, T ∈ s.space ↔ ∃ U, g.Probable p U ∧ T = intSet U := by
  obtain ⟨s0, h0, hu⟩ := hs
  obtain ⟨g, space, hg, hf, hnd, hmem⟩ := tailFit_ok he p prune [] hY (columns_of_tailFit hY h0) hd
  rw [hf] at h0
  cases h0
  obtain ⟨-, rfl⟩ := fresh_applyUpdates_inv hu
  exact ⟨g, hg, rfl, rfl, hnd, hmem⟩

/-- Adding a bound rule never fails. -/
theorem tailAfter_update {env : LearnEnv} (he : env.Good) {X Y : Cmp} (hD : LearnData env X Y) {p : ℚ}
    {us : List (List ℕ × List ℤ)} {s : UState} (hs : TailAfter env.toHeadEnv p true Y us s) {b : BRule}
    (hb : BoundTo X Y b) :
    ∃ s', updateRowWeights s (env.order b.support) (env.orderZ b.tail.toFinset) = .ok s' ∧
      TailAfter env.toHeadEnv p true Y (us ++ [updateOf env b]) s' := by
  obtain ⟨s0, h0, hu⟩ := hs
  obtain ⟨g, space, hg, hf, hnd, hmem⟩ := tailFit_ok he.heads p true [] hD.labels hD.colsY hD.depthY
  have h0' := h0
  rw [hf] at h0
  cases h0
  obtain ⟨hus, rfl⟩ := fresh_applyUpdates_inv hu
  have hok : UpdateOk (naiveNewRows Y space) (updateOf env b) := by
    right
    intro r hr
    have hr' : r ∈ b.support := ((he.heads.1 b.support).2 r).mp hr
    have hsp := hb.spec hD.features.toWF hD.labels.toWF hD.rows
    obtain ⟨-, hl⟩ := (hsp.2.2.2.2.1 r).mp hr'
    obtain ⟨l, hlm⟩ := List.exists_mem_of_ne_nil _ hsp.2.1
    rw [naiveNewRows_length]
    exact Stored.major_lt hD.labels.toWF (hl l hlm).2
  refine ⟨_, update_closed space _ us (updateOf env b) hok, _, h0', ?_⟩
  apply applyUpdates_closed
  intro u hu
  rcases List.mem_append.mp hu with h | h
  · exact hus u h
  · rw [List.mem_singleton] at h; subst h; exact hok

/-- When no uncovered area is left, every label occurrence is covered. -/
theorem area_zero_covers {env : LearnEnv} (he : env.Good) {X Y : Cmp} (hD : LearnData env X Y) {q : ℚ}
    {new : List BRule} {s : UState} (hs : TailAfter env.toHeadEnv q true Y (new.map (updateOf env)) s)
    (h0 : totalArea s.space s.newRows (new.map (updateOf env)) = 0) : labelCells Y ⊆ covered new := by
  obtain ⟨g, hg, -, hrows, -, hmem⟩ := tailAfter_space he.heads hD.labels hD.depthY hs
  rintro ⟨i, l⟩ hc
  simp only [labelCells, Finset.mem_biUnion, Finset.mem_range, Finset.mem_image, List.mem_toFinset,
    Prod.mk.injEq, mem_segIdx] at hc
  obtain ⟨i', hi, j, hj, rfl, rfl⟩ := hc
  have hjlt := Stored.minor_lt hD.labels.toWF hj
  obtain ⟨g', hg', hwf, -, hn, -⟩ := C48_build_graph Y.flip (Cmp.flip_binary hD.labels)
  rw [hg] at hg'
  cases hg'
  have hprob : g.Probable q {j} := by
    refine ⟨by simp, ?_, Or.inl (by simp)⟩
    refine ⟨?_, ?_⟩
    · intro x hx
      rw [Finset.mem_singleton] at hx
      subst hx
      rw [hn]; simpa using hjlt
    · simp
  have hin : intSet {j} ∈ s.space := (hmem _).mpr ⟨_, hprob, rfl⟩
  obtain ⟨id, hid, hidT⟩ := List.getElem_of_mem hin
  have hget : s.space.getD id ∅ = {(j : ℤ)} := by rw [getD_lt hid, hidT]; simp [intSet]
  have hmemrow : id ∈ s.newRows.getD i' [] := by
    have : id ∈ recordAt (naiveNewRows Y s.space) i' := by
      rw [recordAt_naive Y s.space hi]
      refine ⟨hid, ?_⟩
      rw [hget]
      intro x hx
      rw [Finset.mem_singleton] at hx
      exact ⟨j, hx, hj⟩
    rw [hrows]
    simpa [recordAt] using this
  have hlen : s.newRows.length = Y.nMajor := by rw [hrows, naiveNewRows_length]
  have hz := (totalArea_eq_zero_iff s.space s.newRows _).mp h0 i' (by rw [hlen]; exact hi)
  have hcov := (rowArea_eq_zero_iff s.space s.newRows _ i').mp hz id hmemrow (j : ℤ) (by rw [hget]; simp)
  obtain ⟨u, hu, h1, h2⟩ := hcov
  obtain ⟨b, hb, rfl⟩ := List.mem_map.mp hu
  rw [mem_covered]
  refine ⟨b, hb, Finset.mem_product.mpr ⟨((he.heads.1 b.support).2 i').mp h1, ?_⟩⟩
  exact ((he.ints b.tail.toFinset).2 _).mp h2

/-- Everything one iteration can do. -/
theorem learnIter_outcome {env : LearnEnv} (he : env.Good) {X Y : Cmp} (hD : LearnData env X Y) {q : ℚ}
    {p : Params} {lr : Learner} (hlr : LearnerTotal X Y lr) {held : List BRule} {st : LearnState}
    (hst : LearnInv env q X Y held st) {x : Py (IterResult (UState × HeadSampler))}
    (hx : (learnIter env p lr X X.flip Y.flip st).Outcome x) :
    (∃ st', x = .ok (.done st') ∧ LearnInv env q X Y held st' ∧ st'.selected = st.selected ∧
      ((∃ new, st.selected = held ++ new ∧ labelCells Y ⊆ covered new) ∨
        ∃ b, (∃ c ∈ st'.pool, c.toRule = b.toRule) ∧ Supported X Y b ∧ lr.stop st.selected b = .ok true ∧
          (held = [] → BestCandidate env p lr q X Y st.selected b))) ∨
    (∃ st' b, x = .ok (.next st') ∧ LearnInv env q X Y held st' ∧ st'.selected = st.selected ++ [b]) ∨
    x = .error .typeError ∨
    (x = .error .assertionError ∧ UniversalLabel Y) ∨
    (x = .error .valueError ∧ (p.nTails = 0 ∨ p.nHeads = 0)) := by
  obtain ⟨⟨new, hnew, hta⟩, hhr, hsel, hpool⟩ := hst
  unfold learnIter at hx
  rw [RandR.bind_eq, RandR.outcome_bind] at hx
  rcases hx with ⟨g, hg, hx⟩ | ⟨e, hg, -⟩
  swap
  · obtain ⟨g, h', e, -⟩ := learnGen_outcome he hD hta p.nHeads p.nTails _ [] _ hhr (by simp) hg
    cases e
  obtain ⟨g1, h', e, hr', hcase⟩ := learnGen_outcome he hD hta p.nHeads p.nTails _ [] _ hhr (by simp) hg
  cases e
  rcases hcase with ⟨cands, rfl, hsup, hne⟩ | ⟨rfl, h0⟩ | rfl | ⟨rfl, hT⟩
  · change x = learnChoose env lr st h' cands at hx
    by_cases hc : cands = []
    · have hz : p.nTails = 0 ∨ p.nHeads = 0 := by
        by_contra hcon
        push Not at hcon
        exact hne (Or.inr ⟨Nat.pos_of_ne_zero hcon.1, Nat.pos_of_ne_zero hcon.2⟩) hc
      right; right; right; right
      refine ⟨?_, hz⟩
      rw [hx]
      unfold learnChoose
      have : env.setOrder cands = [] := by
        rw [hc]; exact (env.setOrder_perm []).eq_nil
      rw [this]
      rfl
    · have hp := env.setOrder_perm cands
      obtain ⟨best, hbest⟩ := pyMax_ok (key := lr.objective st.selected) (xs := env.setOrder cands)
        (by intro h; rw [h] at hp; exact hc hp.symm.eq_nil)
        (fun c hc' => hlr.objective _ _ hsel (hsup c (hp.mem_iff.mp hc')))
      have hbs := hsup best (hp.mem_iff.mp (pyMax_spec hbest).1)
      obtain ⟨v, hv⟩ := hlr.stop st.selected best hsel hbs
      have hpu : ∀ b ∈ poolUnion st.pool cands, Supported X Y b := by
        intro b hb
        rcases (mem_poolUnion (pool := st.pool) (cands := cands)).1 b hb with h | h
        · exact hpool b h
        · exact hsup b h
      unfold learnChoose at hx
      rw [hbest] at hx
      simp only [bind, Except.bind] at hx
      rw [hv] at hx
      cases v with
      | true =>
        left
        refine ⟨_, hx, ⟨⟨new, hnew, hta⟩, hr', hsel, hpu⟩, rfl, Or.inr ⟨best, ?_, hbs, hv, ?_⟩⟩
        · exact (mem_poolUnion (pool := st.pool) (cands := cands)).2.2 best
            (hp.mem_iff.mp (pyMax_spec hbest).1)
        · rintro rfl
          rw [List.nil_append] at hnew
          rw [← hnew] at hta
          obtain ⟨h1, v, h2, h3⟩ := pyMax_spec hbest
          exact ⟨_, _, cands, h', hta, hhr, hg, hp.mem_iff.mp h1, v, h2,
            fun c hc => h3 c (hp.mem_iff.mpr hc)⟩
      | false =>
        right; left
        obtain ⟨s', hs', hta'⟩ := tailAfter_update he hD hta hbs.1
        simp only [Bool.false_eq_true, if_false] at hx
        rw [hs'] at hx
        refine ⟨_, best, hx, ⟨⟨new ++ [best], by simp [hnew], ?_⟩, hr', ?_, hpu⟩, rfl⟩
        · rw [List.map_append]; exact hta'
        · intro b hb
          rcases List.mem_append.mp hb with h | h
          · exact hsel b h
          · rw [List.mem_singleton] at h; subst h; exact hbs
  · left
    exact ⟨_, hx, ⟨⟨new, hnew, hta⟩, hr', hsel, hpool⟩, rfl,
      Or.inl ⟨new, hnew, area_zero_covers he hD hta h0⟩⟩
  · right; right; left
    exact hx
  · right; right; right; left
    obtain ⟨g, hg, -, -, -, hmem⟩ := tailAfter_space he.heads hD.labels hD.depthY hta
    obtain ⟨T, hT1, hT2⟩ := hT
    obtain ⟨U, hU, rfl⟩ := (hmem T).mp hT1
    obtain ⟨j, hj⟩ := Finset.nonempty_iff_ne_empty.mpr hU.1
    refine ⟨hx, j, fun i hi => ?_⟩
    obtain ⟨j', e, hj'⟩ := hT2 i hi j (Finset.mem_image_of_mem _ hj)
    rw [show j = j' by exact_mod_cast e]
    exact hj'

/-- Everything the loop can do. -/
theorem learnLoop_outcome {env : LearnEnv} (he : env.Good) {X Y : Cmp} (hD : LearnData env X Y) {q : ℚ}
    {p : Params} {lr : Learner} (hlr : LearnerTotal X Y lr) {held : List BRule} :
    ∀ (fuel : ℕ) (st : LearnState) (x : Py (Option LearnState)), LearnInv env q X Y held st →
      (learnLoop env p lr X X.flip Y.flip fuel st).Outcome x →
      (x = .ok none) ∨
      (∃ st', x = .ok (some st') ∧ LearnInv env q X Y held st' ∧ st.selected <+: st'.selected ∧
        ((∃ new, st'.selected = held ++ new ∧ labelCells Y ⊆ covered new) ∨
          ∃ b, (∃ c ∈ st'.pool, c.toRule = b.toRule) ∧ Supported X Y b ∧
            lr.stop st'.selected b = .ok true ∧
            (held = [] → BestCandidate env p lr q X Y st'.selected b))) ∨
      x = .error .typeError ∨ (x = .error .assertionError ∧ UniversalLabel Y) ∨
      (x = .error .valueError ∧ (p.nTails = 0 ∨ p.nHeads = 0))
  | 0, st, x, hst, hx => Or.inl hx
  | fuel + 1, st, x, hst, hx => by
    rw [learnLoop, RandR.bind_eq, RandR.outcome_bind] at hx
    rcases hx with ⟨r, hr, hx⟩ | ⟨e, hr, rfl⟩
    · rcases learnIter_outcome he hD hlr hst hr with ⟨st', e, hi, hs, hwhy⟩ | ⟨st', b, e, hi, hs⟩ | e |
        ⟨e, -⟩ | ⟨e, -⟩
      · cases e
        right; left
        exact ⟨st', hx, hi, hs ▸ List.prefix_refl _, hs ▸ hwhy⟩
      · cases e
        rcases learnLoop_outcome he hD hlr fuel st' x hi hx with h | ⟨st'', h1, h2, h3, h4⟩ | h
        · exact Or.inl h
        · right; left
          exact ⟨st'', h1, h2, (List.prefix_append _ [b]).trans (hs ▸ h3), h4⟩
        · exact Or.inr (Or.inr h)
      · cases e
      · cases e
      · cases e
    · right; right
      rcases learnIter_outcome he hD hlr hst hr with ⟨st', e, hi, hs, hwhy⟩ | ⟨st', b, e, hi, hs⟩ | e |
        ⟨e, hT⟩ | ⟨e, hz⟩
      · cases e
      · cases e
      · cases e; exact Or.inl rfl
      · cases e; exact Or.inr (Or.inl ⟨rfl, hT⟩)
      · cases e; exact Or.inr (Or.inr ⟨rfl, hz⟩)

/-- With a rule budget the fuel does not run out. -/
theorem learnLoop_budget {env : LearnEnv} (he : env.Good) {X Y : Cmp} (hD : LearnData env X Y) {q : ℚ}
    {p : Params} {lr : Learner} (hlr : LearnerTotal X Y lr) {held : List BRule} {k : ℕ}
    (hstop : ∀ sel b, lr.stop sel b = .ok (decide (sel.length ≥ k))) :
    ∀ (fuel : ℕ) (st : LearnState) (x : Py (Option LearnState)), LearnInv env q X Y held st →
      k - st.selected.length < fuel → (learnLoop env p lr X X.flip Y.flip fuel st).Outcome x →
      x ≠ .ok none ∧ ∀ st', x = .ok (some st') → st'.selected.length ≤ max k st.selected.length
  | 0, st, x, hst, hf, hx => by omega
  | fuel + 1, st, x, hst, hf, hx => by
    have hx0 := hx
    rw [learnLoop, RandR.bind_eq, RandR.outcome_bind] at hx
    rcases hx with ⟨r, hr, hx⟩ | ⟨e, hr, rfl⟩
    swap
    · exact ⟨by simp, by simp⟩
    rcases learnIter_outcome he hD hlr hst hr with ⟨st', e, hi, hs, hwhy⟩ | ⟨st', b, e, hi, hs⟩ | e |
      ⟨e, -⟩ | ⟨e, -⟩
    · cases e
      cases hx
      refine ⟨by simp, ?_⟩
      intro st'' e
      cases e
      rw [hs]; exact le_max_right _ _
    · cases e
      have hlt : st.selected.length < k := by
        unfold learnIter at hr
        rw [RandR.bind_eq, RandR.outcome_bind] at hr
        rcases hr with ⟨⟨g, h'⟩, -, hr⟩ | ⟨e, -, e'⟩
        swap
        · cases e'
        dsimp only at hr
        cases g with
        | error e =>
          exfalso
          cases e <;> cases hr
        | ok cands =>
          change Except.ok (IterResult.next st') = learnChoose env lr st h' cands at hr
          unfold learnChoose at hr
          simp only [bind, Except.bind, hstop] at hr
          split at hr
          · cases hr
          · by_contra hcon
            rw [if_pos (by simpa using hcon)] at hr
            cases hr
      obtain ⟨h1, h2⟩ := learnLoop_budget he hD hlr hstop fuel st' x hi (by
        rw [hs, List.length_append, List.length_singleton]; omega) hx
      refine ⟨h1, fun st'' e => ?_⟩
      have := h2 st'' e
      rw [hs, List.length_append, List.length_singleton] at this
      omega
    · cases e
    · cases e
    · cases e

/-! ### The learners -/

theorem objective_total {X Y : Cmp} (hX : X.WF) (hY : Y.WF) (hn : X.nMajor = Y.nMajor)
    {quality : List BRule → BRule → Py ℝ}
    (hq : ∀ sel b, BoundTo X Y b → ∃ v, quality sel b = .ok v) (lambd : ℝ) (sel : List BRule) (b : BRule)
    (hsel : ∀ c ∈ sel, Supported X Y c) (hb : Supported X Y b) :
    ∃ v, objectiveOfRule quality lambd sel b = .ok v := by
  obtain ⟨v, hv⟩ := hq sel b hb.1
  have hd : diversityOfRule sel b = .ok (sel.map (areaDist b)).sum := by
    apply pySum_ok
    intro c hc
    apply distReal_eq hb.1.2.2 (hsel c hc).1.2.2
    obtain ⟨z, hz⟩ := hb.area_nonempty hX hY hn
    exact ⟨z, by simp [hz]⟩
  unfold objectiveOfRule
  rw [hv, hd]
  exact ⟨_, rfl⟩

theorem quality_total {X Y : Cmp} (hn : X.nMajor = Y.nMajor) (sel : List BRule) (b : BRule)
    (hb : BoundTo X Y b) :
    (∃ v, qualityOfRule sel b = .ok v) ∧ ∃ v, qualityOfRuleV3 sel b = .ok v := by
  obtain ⟨k, hk, -⟩ := klReal_bound hn hb
  unfold qualityOfRule qualityOfRuleV3
  rw [hk]
  exact ⟨⟨_, rfl⟩, ⟨_, rfl⟩⟩

theorem objectiveOf_total {X Y : Cmp} (hX : X.WF) (hY : Y.WF) (hn : X.nMajor = Y.nMajor)
    {quality : List BRule → BRule → Py ℝ}
    (hq : ∀ sel b, BoundTo X Y b → ∃ v, quality sel b = .ok v) (lambd : ℝ) (sel rules : List BRule)
    (hr : ∀ c ∈ rules, Supported X Y c) : ∃ v, objectiveOf quality lambd sel rules = .ok v := by
  classical
  have hq' : pySum (quality sel) rules = .ok (rules.map fun b =>
      if h : ∃ v, quality sel b = .ok v then h.choose else 0).sum := by
    apply pySum_ok
    intro b hb
    have h := hq sel b (hr b hb).1
    rw [dif_pos h]
    exact h.choose_spec
  have hd : pySum (fun pr : BRule × BRule => distReal pr.1 pr.2) (pairs rules) =
      .ok ((pairs rules).map fun pr => areaDist pr.1 pr.2).sum := by
    apply pySum_ok
    intro pr hpr
    have hm := mem_pairs hpr
    apply distReal_eq (hr _ hm.1).1.2.2 (hr _ hm.2).1.2.2
    obtain ⟨z, hz⟩ := (hr _ hm.1).area_nonempty hX hY hn
    exact ⟨z, by simp [hz]⟩
  unfold objectiveOf
  rw [hq', hd]
  exact ⟨_, rfl⟩

theorem total_V2 {X Y : Cmp} (hX : X.WF) (hY : Y.WF) (hn : X.nMajor = Y.nMajor) {p : Params} {k : ℕ}
    (hp : p.nMaxRules = some k) : LearnerTotal X Y (learnerV2 p) :=
  ⟨fun sel b hs hb => objective_total hX hY hn (fun sel b hb => (quality_total hn sel b hb).1) _ sel b hs hb,
   fun sel b _ _ => ⟨_, by simp only [learnerV2, shouldStopV2, hp]; rfl⟩⟩

theorem total_V3 {X Y : Cmp} (hX : X.WF) (hY : Y.WF) (hn : X.nMajor = Y.nMajor) {p : Params} {k : ℕ}
    (hp : p.nMaxRules = some k) : LearnerTotal X Y (learnerV3 p) :=
  ⟨fun sel b hs hb => objective_total hX hY hn (fun sel b hb => (quality_total hn sel b hb).2) _ sel b hs hb,
   fun sel b _ _ => ⟨_, by simp only [learnerV3, shouldStopV2, hp]; rfl⟩⟩

theorem total_DivMax {X Y : Cmp} (hX : X.WF) (hY : Y.Binary) (hn : X.nMajor = Y.nMajor) (p : Params) :
    LearnerTotal X Y (learnerDivMax p Y) := by
  refine ⟨fun sel b hs hb =>
    objective_total hX hY.toWF hn (fun sel b hb => (quality_total hn sel b hb).1) _ sel b hs hb, ?_⟩
  intro sel b _ hb
  simp only [learnerDivMax, shouldStopDivMax]
  split
  · exact ⟨_, rfl⟩
  · obtain ⟨z, hz⟩ := hb.area_nonempty hX hY.toWF hn
    have hpos : 0 < Y.nnz := by
      rw [← card_labelCells hY]
      exact Finset.card_pos.mpr ⟨z, hb.1.area_subset hX hY.toWF hn hz⟩
    unfold marginalCoverageRatio pyDiv
    rw [if_neg (by exact_mod_cast hpos.ne')]
    exact ⟨_, rfl⟩

/-! ### Which rules are chosen -/

theorem learnIter_next {env : LearnEnv} {p : Params} {lr : Learner} {X Xc Yc : Cmp} {st st' : LearnState}
    (hr : (learnIter env p lr X Xc Yc st).Outcome (.ok (.next st'))) :
    ∃ h' cands best, (learnGen env X Xc Yc p.nHeads st.sampler.1 p.nTails st.sampler.2 []).Outcome
        (.ok (.ok cands, h')) ∧ GreedyChoice lr.objective st.selected cands best ∧
      lr.stop st.selected best = .ok false ∧ st'.selected = st.selected ++ [best] ∧
      updateRowWeights st.sampler.1 (env.order best.support) (env.orderZ best.tail.toFinset) =
        .ok st'.sampler.1 ∧ st'.sampler.2 = h' := by
  unfold learnIter at hr
  rw [RandR.bind_eq, RandR.outcome_bind] at hr
  rcases hr with ⟨⟨g, h'⟩, hg, hr⟩ | ⟨e, -, e'⟩
  swap
  · cases e'
  dsimp only at hr
  cases g with
  | error e => cases e <;> cases hr
  | ok cands =>
    change Except.ok (IterResult.next st') = learnChoose env lr st h' cands at hr
    unfold learnChoose at hr
    rcases hb : pyMax (lr.objective st.selected) (env.setOrder cands) with e | best
    · rw [hb] at hr; cases hr
    rw [hb] at hr
    simp only [bind, Except.bind] at hr
    rcases hst : lr.stop st.selected best with e | stop
    · rw [hst] at hr; cases hr
    rw [hst] at hr
    cases stop
    · simp only [Bool.false_eq_true, if_false] at hr
      rcases hu : updateRowWeights st.sampler.1 (env.order best.support) (env.orderZ best.tail.toFinset)
        with e | s'
      · rw [hu] at hr; cases hr
      · rw [hu] at hr
        cases hr
        obtain ⟨h1, v, h2, h3⟩ := pyMax_spec hb
        have hp := env.setOrder_perm cands
        exact ⟨h', cands, best, hg, ⟨hp.mem_iff.mp h1, v, h2, fun c hc => h3 c (hp.mem_iff.mpr hc)⟩, hst,
          rfl, hu, rfl⟩
    · cases hr

theorem learnLoop_trace {env : LearnEnv} (he : env.Good) {X Y : Cmp} (hD : LearnData env X Y) {q : ℚ}
    {p : Params} {lr : Learner} (hlr : LearnerTotal X Y lr) :
    ∀ (fuel : ℕ) (st st' : LearnState), LearnInv env q X Y [] st →
      (learnLoop env p lr X X.flip Y.flip fuel st).Outcome (.ok (some st')) →
      ∀ i (hi : i < st'.selected.length), st.selected.length ≤ i →
        BestCandidate env p lr q X Y (st'.selected.take i) st'.selected[i] ∧
          lr.stop (st'.selected.take i) st'.selected[i] = .ok false
  | 0, st, st', hst, hx => by cases hx
  | fuel + 1, st, st', hst, hx => by
    rw [learnLoop, RandR.bind_eq, RandR.outcome_bind] at hx
    rcases hx with ⟨r, hr, hx⟩ | ⟨e, hr, e'⟩
    swap
    · cases e'
    cases r with
    | done st1 =>
      cases hx
      rcases learnIter_outcome he hD hlr hst hr with ⟨st', e, hi, hs, hwhy⟩ | ⟨st', b, e, hi, hs⟩ | e |
        ⟨e, -⟩ | ⟨e, -⟩ <;> cases e
      intro i hi hle
      rw [hs] at hi
      omega
    | next st1 =>
      rcases learnIter_outcome he hD hlr hst hr with ⟨st', e, hi, hs, hwhy⟩ | ⟨st2, b, e, hinv, hs⟩ | e |
        ⟨e, -⟩ | ⟨e, -⟩ <;> cases e
      intro i hi hle
      obtain ⟨h', cands, best, h1, h2, h3, h4, -⟩ := learnIter_next hr
      by_cases hlt : st.selected.length < i
      · exact learnLoop_trace he hD hlr fuel st1 st' hinv hx i hi (by rw [h4]; simp; omega)
      · have hii : i = st.selected.length := by omega
        have hpre : st1.selected <+: st'.selected := by
          rcases learnLoop_outcome he hD hlr fuel _ _ hinv hx with e | ⟨st2, e, -, h, -⟩ | e | ⟨e, -⟩ | ⟨e, -⟩
            <;> cases e
          exact h
        obtain ⟨rest, hrest⟩ := hpre
        have hst' : st'.selected = st.selected ++ best :: rest := by rw [← hrest, h4]; simp
        have htake : st'.selected.take i = st.selected := by rw [hst', hii, List.take_left]
        have hget : st'.selected[i] = best := by
          simp only [hst', hii]
          simp
        rw [htake, hget]
        obtain ⟨⟨new, hnew, hta⟩, hhr, -⟩ := hst
        rw [List.nil_append] at hnew
        rw [← hnew] at hta
        exact ⟨⟨_, _, cands, h', hta, hhr, h1, h2⟩, h3⟩

end Verif
