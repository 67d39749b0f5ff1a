/-
C101: the generator of synthetic data in which rules can cover the same examples.
-/
import Verif.Props.Synthetic

namespace Verif

namespace Synthetic

open Rand

theorem exists_outcome_of_proper {α : Type} : ∀ {m : Rand α}, m.Proper → ∃ x, m.Outcome x
  | .done r, _ => ⟨r, rfl⟩
  | .choice p k, h => by
    obtain ⟨h1, h2, h3⟩ := h
    have : ∃ i, ∃ hi : i < p.length, 0 < p[i] := by
      by_contra hc
      push_neg at hc
      have hz : ∀ q ∈ p, q = 0 := by
        intro q hq
        obtain ⟨i, hi, rfl⟩ := List.mem_iff_getElem.mp hq
        exact le_antisymm (hc i hi) (h1 _ hq)
      have := List.sum_eq_zero hz
      rw [h2] at this
      exact one_ne_zero this
    obtain ⟨i, hi, hp⟩ := this
    obtain ⟨x, hx⟩ := exists_outcome_of_proper (h3 i)
    exact ⟨x, i, hi, hp, hx⟩

theorem outcome_randint {lo hi : ℕ} (h : lo < hi) (x : Py ℕ) :
    (randint lo hi).Outcome x ↔ ∃ s, x = .ok s ∧ lo ≤ s ∧ s < hi := by
  simp only [randint, monad_bind, monad_pure]
  rw [outcome_bind]
  simp only [outcome_uniformIdx (show hi - lo ≠ 0 by omega), outcome_done]
  constructor
  · rintro (⟨a, ⟨i, h1, e⟩, rfl⟩ | ⟨e, ⟨i, _, h'⟩, -⟩)
    · cases e; exact ⟨lo + a, rfl, by omega, by omega⟩
    · cases h'
  · rintro ⟨s, rfl, h1, h2⟩
    exact Or.inl ⟨s - lo, ⟨s - lo, by omega, rfl⟩, by congr 1; omega⟩

theorem randint_proper (lo hi : ℕ) : (randint lo hi).Proper :=
  proper_bind _ _ (uniformIdx_proper _) fun _ => trivial

theorem outcome_sample_range {m k : ℕ} (hk : k ≤ m) (x : Py (List ℕ)) :
    (sample (List.range m) k).Outcome x ↔ ∃ l : List ℕ, x = .ok l ∧ l.length = k ∧ l.Nodup ∧ ∀ a ∈ l, a < m := by
  rw [outcome_sample k _ List.nodup_range (by simpa using hk)]
  simp only [List.mem_range]

theorem outcome_drawRule {nf nl : ℕ} (hf : 2 < nf) (hl : 1 < nl) (x : Py GenRule) :
    (drawRule nf nl).Outcome x ↔ ∃ rule, x = .ok rule ∧ Columns 2 nf rule.1 ∧ Columns 1 nl rule.2 := by
  simp only [drawRule, monad_bind, monad_pure]
  rw [outcome_bind]
  simp only [outcome_randint hf]
  constructor
  · rintro (⟨s, ⟨s', e, s1, s2⟩, h⟩ | ⟨e, ⟨i, h', -⟩, -⟩)
    swap
    · cases h'
    cases e
    rw [outcome_bind] at h
    simp only [outcome_randint hl] at h
    rcases h with ⟨u, ⟨u', e, u1, u2⟩, h⟩ | ⟨e, ⟨i, h', -⟩, -⟩
    swap
    · cases h'
    cases e
    rw [outcome_bind] at h
    simp only [outcome_sample_range s2.le] at h
    rcases h with ⟨hd, ⟨hd', e, h1, h2, h3⟩, h⟩ | ⟨e, ⟨i, h', -⟩, -⟩
    swap
    · cases h'
    cases e
    rw [outcome_bind] at h
    simp only [outcome_sample_range u2.le] at h
    rcases h with ⟨tl, ⟨tl', e, t1, t2, t3⟩, h⟩ | ⟨e, ⟨i, h', -⟩, -⟩
    swap
    · cases h'
    cases e
    rw [outcome_done] at h
    refine ⟨(hd, tl), h, ⟨h2, ?_, ?_, h3⟩, ⟨t2, ?_, ?_, t3⟩⟩ <;> simp only <;> omega
  · rintro ⟨⟨hd, tl⟩, rfl, ⟨h1, h2, h3, h4⟩, ⟨t1, t2, t3, t4⟩⟩
    refine Or.inl ⟨hd.length, ⟨_, rfl, h2, h3⟩, ?_⟩
    rw [outcome_bind]
    refine Or.inl ⟨tl.length, (outcome_randint hl _).mpr ⟨_, rfl, t2, t3⟩, ?_⟩
    rw [outcome_bind]
    refine Or.inl ⟨hd, (outcome_sample_range h3.le _).mpr ⟨_, rfl, rfl, h1, h4⟩, ?_⟩
    rw [outcome_bind]
    exact Or.inl ⟨tl, (outcome_sample_range t3.le _).mpr ⟨_, rfl, rfl, t1, t4⟩, rfl⟩

theorem drawRule_proper (nf nl : ℕ) : (drawRule nf nl).Proper :=
  proper_bind _ _ (randint_proper _ _) fun _ => proper_bind _ _ (randint_proper _ _) fun _ =>
    proper_bind _ _ (sample_proper _ _) fun _ => proper_bind _ _ (sample_proper _ _) fun _ => trivial

theorem exists_noise {n m : ℕ} (noise : ℚ) {M : Matrix} (hM : Shaped n m M) :
    ∃ M', Flipped n m ⌊((n * m : ℕ) : ℚ) * noise⌋₊ M M' := by
  obtain ⟨x, hx⟩ := exists_outcome_of_proper (addNoise_proper n m (swaps n m noise) M)
  obtain ⟨M', -, h⟩ := (outcome_noise noise hM x).mp hx
  exact ⟨M', h⟩

/-- Clean matrices are determined by the rules and what they cover. -/
theorem Clean.unique {n nf nl t s : ℕ} {rules : List GenRule} {C : List (List ℕ)} {F L F' L' : Matrix}
    (h : Clean n nf nl t s rules C F L) (h' : Clean n nf nl t s rules C F' L') : F = F' ∧ L = L' :=
  ⟨h.features.1.ext h'.features.1 fun r hr c hc => by rw [h.features.2 r hr c hc, h'.features.2 r hr c hc],
    h.labels.1.ext h'.labels.1 fun r hr c hc => by rw [h.labels.2 r hr c hc, h'.labels.2 r hr c hc]⟩

/-- The converse of `round`. -/
theorem round_of {n nf nl t s : ℕ} (ht : t ≤ n) {rules : List GenRule} {C : List (List ℕ)} {F L : Matrix}
    (h : Clean n nf nl t s rules C F L) {rule : GenRule} (h1 : ∀ c ∈ rule.1, c < nf) (h2 : ∀ c ∈ rule.2, c < nl)
    {rows : List ℕ} (g1 : rows.Nodup) (g2 : rows.length < s) (g3 : ∀ r ∈ rows, r < t) {pool : List ℕ}
    (hp : pool.Nodup) (hr : ∀ r ∈ rows, r ∈ pool) {β : Type} (k : Matrix → Matrix → List ℕ → Rand β) {x : Py β}
    (hx : ∀ F' L', Clean n nf nl t s (rules ++ [rule]) (C ++ [rows]) F' L' → (k F' L' rows).Outcome x) :
    ((uniformIdx s).bind fun size => (sample pool size).bind fun covered =>
      (Rand.done (mark F covered rule.1)).bind fun F => (Rand.done (mark L covered rule.2)).bind fun L =>
        k F L covered).Outcome x := by
  rw [outcome_bind]
  refine Or.inl ⟨rows.length, (outcome_uniformIdx (by omega) _).mpr ⟨_, g2, rfl⟩, ?_⟩
  rw [outcome_bind]
  refine Or.inl ⟨rows, (outcome_sample _ _ hp (g1.subperm hr).length_le _).mpr ⟨_, rfl, rfl, g1, hr⟩, ?_⟩
  obtain ⟨F', L', e1, e2, hc⟩ := h.snoc ht h1 h2 g1 g2 g3
  rw [e1, bind_done_ok, e2, bind_done_ok]
  exact hx F' L' hc

theorem outcome_plainLoop {n nf nl R : ℕ} (hf : 2 < nf) (hl : 1 < nl) (hR : 0 < n / R) (noise : ℚ) :
    ∀ (k : ℕ) (F L : Matrix) (prev : Option (Matrix × Matrix)) (rules : List GenRule) (C : List (List ℕ)),
    Clean n nf nl n (n / R) rules C F L → (k = 0 → ∃ F' L', prev = some (F', L') ∧
      Flipped n nf ⌊((n * nf : ℕ) : ℚ) * noise⌋₊ F F' ∧ Flipped n nl ⌊((n * nl : ℕ) : ℚ) * noise⌋₊ L L') →
    ∀ x, (plainLoop n nf nl R noise k F L prev rules).Outcome x ↔
    ∃ rest C' F1 L1 F' L', x = .ok (some (F', L'), rules ++ rest) ∧ rest.length = k ∧
      (∀ rule ∈ rest, Columns 2 nf rule.1 ∧ Columns 1 nl rule.2) ∧
      Clean n nf nl n (n / R) (rules ++ rest) (C ++ C') F1 L1 ∧
      (if k = 0 then prev = some (F', L') else
        Flipped n nf ⌊((n * nf : ℕ) : ℚ) * noise⌋₊ F1 F' ∧ Flipped n nl ⌊((n * nl : ℕ) : ℚ) * noise⌋₊ L1 L')
  | 0, F, L, prev, rules, C, hc, hprev, x => by
    obtain ⟨F', L', e, -⟩ := hprev rfl
    simp only [plainLoop, monad_pure, outcome_done]
    constructor
    · intro hx
      exact ⟨[], [], F, L, F', L', by rw [hx, e]; simp, rfl, by simp, by simpa using hc, by rw [if_pos trivial]; exact e⟩
    · rintro ⟨rest, C', F1, L1, F2, L2, rfl, h1, -, -, h2⟩
      rw [if_pos trivial] at h2
      rw [List.length_eq_zero_iff.mp h1, h2, List.append_nil]
  | k + 1, F, L, prev, rules, C, hc, hprev, x => by
    simp only [plainLoop, monad_bind, Rand.lift]
    rw [outcome_bind]
    constructor
    · rintro (⟨rule, hr, hx⟩ | ⟨e, he, -⟩)
      swap
      · obtain ⟨_, e, -⟩ := (outcome_drawRule hf hl _).mp he
        cases e
      obtain ⟨rule', e, r1, r2⟩ := (outcome_drawRule hf hl _).mp hr
      cases e
      obtain ⟨F1, L1, rows, hx, hc', g1, g2, g3⟩ := round (le_refl n) hR hc r1.2.2.2 r2.2.2.2
        List.nodup_range (by simp) (by rw [List.length_range]; have := Nat.div_le_self n R; omega)
        (fun F L _ => (addNoise n nf (swaps n nf noise) F).bind fun F' =>
          (addNoise n nl (swaps n nl noise) L).bind fun L' =>
            plainLoop n nf nl R noise k F L (some (F', L')) (rules ++ [rule])) hx
      obtain ⟨F2, L2, hx, n1, n2⟩ := outcome_noise2 noise hc'.features.1 hc'.labels.1
        (fun F' L' => plainLoop n nf nl R noise k F1 L1 (some (F', L')) (rules ++ [rule])) hx
      obtain ⟨rest, C', F3, L3, F4, L4, rfl, h1, h2, h3, h4⟩ :=
        (outcome_plainLoop hf hl hR noise k F1 L1 (some (F2, L2)) (rules ++ [rule]) (C ++ [rows]) hc'
          (fun _ => ⟨F2, L2, rfl, n1, n2⟩) x).mp hx
      refine ⟨rule :: rest, rows :: C', F3, L3, F4, L4, by simp, by simp [h1], ?_, by simpa using h3, ?_⟩
      · intro ρ hρ
        rcases List.mem_cons.mp hρ with rfl | hρ
        · exact ⟨r1, r2⟩
        · exact h2 ρ hρ
      · rw [if_neg (by omega)]
        by_cases hk : k = 0
        · rw [if_pos hk] at h4
          cases h4
          have hrest : rest = [] := List.length_eq_zero_iff.mp (by omega)
          have hC' : C' = [] := by
            have := h3.covers.1
            have h5 := hc'.covers.1
            rw [hrest] at this
            simp only [List.length_append, List.length_cons, List.length_nil] at this h5
            exact List.length_eq_zero_iff.mp (by omega)
          rw [hrest, hC', List.append_nil, List.append_nil] at h3
          obtain ⟨rfl, rfl⟩ := h3.unique hc'
          exact ⟨n1, n2⟩
        · rw [if_neg hk] at h4
          exact h4
    · rintro ⟨rest, C', F1, L1, F', L', rfl, h1, h2, h3, h4⟩
      rw [if_neg (by omega)] at h4
      cases rest with
      | nil => simp at h1
      | cons rule rest =>
        cases C' with
        | nil =>
          have := h3.covers.1
          have h5 := hc.covers.1
          simp only [List.length_append, List.length_cons, List.length_nil] at this
          omega
        | cons rows C' =>
          obtain ⟨r1, r2⟩ := h2 rule (by simp)
          obtain ⟨g1, g2, g3⟩ := h3.covers.2 rows (by simp)
          refine Or.inl ⟨rule, (outcome_drawRule hf hl _).mpr ⟨_, rfl, r1, r2⟩, ?_⟩
          refine round_of (le_refl n) hc r1.2.2.2 r2.2.2.2 g1 g2 g3
            List.nodup_range (by simpa using g3)
            (fun F L _ => (addNoise n nf (swaps n nf noise) F).bind fun F' =>
              (addNoise n nl (swaps n nl noise) L).bind fun L' =>
                plainLoop n nf nl R noise k F L (some (F', L')) (rules ++ [rule])) ?_
          intro F2 L2 hc'
          have hnoise : ∃ F3 L3, Flipped n nf ⌊((n * nf : ℕ) : ℚ) * noise⌋₊ F2 F3 ∧
              Flipped n nl ⌊((n * nl : ℕ) : ℚ) * noise⌋₊ L2 L3 ∧ (k = 0 → F3 = F' ∧ L3 = L') := by
            by_cases hk : k = 0
            · have hrest : rest = [] := by
                rw [List.length_cons] at h1
                exact List.length_eq_zero_iff.mp (by omega)
              subst hrest
              have hC' : C' = [] := by
                have := h3.covers.1
                have h5 := hc.covers.1
                simp only [List.length_append, List.length_cons, List.length_nil] at this
                exact List.length_eq_zero_iff.mp (by omega)
              subst hC'
              obtain ⟨rfl, rfl⟩ := h3.unique hc'
              exact ⟨F', L', h4.1, h4.2, fun _ => ⟨rfl, rfl⟩⟩
            · obtain ⟨F3, e1⟩ := exists_noise noise hc'.features.1
              obtain ⟨L3, e2⟩ := exists_noise noise hc'.labels.1
              exact ⟨F3, L3, e1, e2, fun h => absurd h hk⟩
          obtain ⟨F3, L3, n1, n2, hk⟩ := hnoise
          rw [outcome_bind]
          refine Or.inl ⟨F3, (outcome_noise noise hc'.features.1 _).mpr ⟨_, rfl, n1⟩, ?_⟩
          rw [outcome_bind]
          refine Or.inl ⟨L3, (outcome_noise noise hc'.labels.1 _).mpr ⟨_, rfl, n2⟩, ?_⟩
          refine (outcome_plainLoop hf hl hR noise k F2 L2 (some (F3, L3)) (rules ++ [rule]) (C ++ [rows]) hc'
            (fun _ => ⟨F3, L3, rfl, n1, n2⟩) _).mpr ⟨rest, C', F1, L1, F', L', by simp, by simpa using h1,
              fun ρ hρ => h2 ρ (by simp [hρ]), by simpa using h3, ?_⟩
          by_cases h0 : k = 0
          · rw [if_pos h0, (hk h0).1, (hk h0).2]
          · rw [if_neg h0]; exact h4

theorem outcome_plainTest {n nf nl t R : ℕ} (ht : t ≤ n) (hR : 0 < t / R) :
    ∀ (rest : List GenRule) (F L : Matrix) (rules : List GenRule) (C : List (List ℕ)),
    (∀ rule ∈ rest, (∀ c ∈ rule.1, c < nf) ∧ (∀ c ∈ rule.2, c < nl)) →
    Clean n nf nl t (t / R) rules C F L →
    ∀ x, (plainTest t R rest F L).Outcome x ↔
    ∃ F' L' C', x = .ok (F', L') ∧ Clean n nf nl t (t / R) (rules ++ rest) (C ++ C') F' L'
  | [], F, L, rules, C, hg, hc, x => by
    simp only [plainTest, monad_pure, outcome_done]
    constructor
    · rintro rfl
      exact ⟨F, L, [], rfl, by simpa using hc⟩
    · rintro ⟨F', L', C', rfl, h⟩
      have hC' : C' = [] := by
        have := h.covers.1
        have h5 := hc.covers.1
        simp only [List.length_append, List.length_nil] at this
        exact List.length_eq_zero_iff.mp (by omega)
      subst hC'
      rw [List.append_nil, List.append_nil] at h
      obtain ⟨rfl, rfl⟩ := h.unique hc
      rfl
  | rule :: rest, F, L, rules, C, hg, hc, x => by
    simp only [plainTest, monad_bind, Rand.lift]
    obtain ⟨r1, r2⟩ := hg rule (by simp)
    constructor
    · intro hx
      obtain ⟨F', L', rows, hx, hc', g1, g2, g3⟩ := round ht hR hc r1 r2
        List.nodup_range (by simp) (by rw [List.length_range]; have := Nat.div_le_self t R; omega)
        (fun F L _ => plainTest t R rest F L) hx
      obtain ⟨F2, L2, C2, e, h1⟩ := (outcome_plainTest ht hR rest F' L' (rules ++ [rule]) (C ++ [rows])
        (fun ρ hρ => hg ρ (by simp [hρ])) hc' x).mp hx
      exact ⟨F2, L2, rows :: C2, e, by simpa using h1⟩
    · rintro ⟨F', L', C', rfl, h⟩
      cases C' with
      | nil =>
        have := h.covers.1
        have h5 := hc.covers.1
        simp only [List.length_append, List.length_cons, List.length_nil] at this
        omega
      | cons rows C' =>
        obtain ⟨g1, g2, g3⟩ := h.covers.2 rows (by simp)
        refine round_of ht hc r1 r2 g1 g2 g3 List.nodup_range (by simpa using g3)
          (fun F L _ => plainTest t R rest F L) ?_
        intro F2 L2 hc'
        exact (outcome_plainTest ht hR rest F2 L2 (rules ++ [rule]) (C ++ [rows])
          (fun ρ hρ => hg ρ (by simp [hρ])) hc' _).mpr ⟨F', L', C', rfl, by simpa using h⟩

/-- **C101.** Exactly what `generate_synthetic_dataset_from_generating_rules` can return, for `n` examples, `nf`
features, `nl` labels and `R ≥ 1` rules: it never raises; there are `R` rules with at least two and fewer than
`nf` features and at least one and fewer than `nl` labels. Before noise, a cell is 1 if and only if some rule covers
its example and names its column; every rule covers fewer than `n / R` examples, and the same examples can be
covered by several rules. Although noise is drawn in every round, at most one share of the cells is flipped. The
test matrices have `n` rows as well, but the rules cover only rows among the first three tenths. -/
theorem C101_plain {n nf nl R : ℕ} (hR0 : 0 < R) (hf : 2 < nf) (hl : 1 < nl) (hR : 10 * R ≤ 3 * n) (noise : ℚ)
    (x : Py Generated) : (plain n nf nl R noise).Outcome x ↔
    ∃ out F L F' L' C C', x = .ok out ∧ out.rules.length = R ∧
      (∀ rule ∈ out.rules, Columns 2 nf rule.1 ∧ Columns 1 nl rule.2) ∧
      Clean n nf nl n (n / R) out.rules C F L ∧
      Flipped n nf ⌊((n * nf : ℕ) : ℚ) * noise⌋₊ F out.F ∧ Flipped n nl ⌊((n * nl : ℕ) : ℚ) * noise⌋₊ L out.L ∧
      Clean n nf nl (3 * n / 10) (3 * n / 10 / R) out.rules C' F' L' ∧
      Flipped n nf ⌊((n * nf : ℕ) : ℚ) * noise⌋₊ F' out.Ftest ∧
      Flipped n nl ⌊((n * nl : ℕ) : ℚ) * noise⌋₊ L' out.Ltest := by
  have hloop := outcome_plainLoop hf hl (Nat.div_pos (show R ≤ n by omega) hR0) noise R (zeros n nf) (zeros n nl) none
    [] [] (Clean.nil n nf nl n _) (fun h => absurd h hR0.ne')
  have hdiv : 0 < 3 * n / 10 / R := Nat.div_pos (by omega) hR0
  simp only [plain, monad_bind, monad_pure]
  rw [outcome_bind, tenths]
  simp only [hloop, if_neg hR0.ne', List.nil_append]
  constructor
  · rintro (⟨⟨noisy, rules⟩, ⟨rules', C, F, L, F1, L1, e, h1, h2, h3, h4⟩, hx⟩ | ⟨e, ⟨_, _, _, _, _, _, h, -⟩, -⟩)
    swap
    · cases h
    cases e
    simp only at hx
    rw [outcome_bind] at hx
    simp only [outcome_plainTest (n := n) (nf := nf) (nl := nl) (t := 3 * n / 10) (by omega) hdiv rules _ _ [] []
      (fun rule hr => ⟨(h2 rule hr).1.2.2.2, (h2 rule hr).2.2.2.2⟩) (Clean.nil n nf nl _ _), List.nil_append] at hx
    rcases hx with ⟨⟨F2, L2⟩, ⟨F2', L2', C', e, h5⟩, hx⟩ | ⟨e, ⟨_, _, _, h, -⟩, -⟩
    swap
    · cases h
    cases e
    obtain ⟨F3, L3, hx, n3, n4⟩ := outcome_noise2 noise h5.features.1 h5.labels.1 _ hx
    rw [outcome_done] at hx
    exact ⟨_, F, L, F2, L2, C, C', hx, h1, h2, h3, h4.1, h4.2, h5, n3, n4⟩
  · rintro ⟨⟨F1, L1, F3, L3, rules⟩, F, L, F2, L2, C, C', rfl, h1, h2, h3, h4, h4', h5, n3, n4⟩
    refine Or.inl ⟨(some (F1, L1), rules), ⟨rules, C, F, L, F1, L1, rfl, h1, h2, h3, h4, h4'⟩, ?_⟩
    simp only
    rw [outcome_bind]
    refine Or.inl ⟨(F2, L2), (outcome_plainTest (n := n) (nf := nf) (nl := nl) (t := 3 * n / 10) (by omega) hdiv rules
      _ _ [] [] (fun rule hr => ⟨(h2 rule hr).1.2.2.2, (h2 rule hr).2.2.2.2⟩) (Clean.nil n nf nl _ _) _).mpr
        ⟨F2, L2, C', rfl, by simpa using h5⟩, ?_⟩
    simp only
    rw [outcome_bind]
    refine Or.inl ⟨F3, (outcome_noise noise h5.features.1 _).mpr ⟨_, rfl, n3⟩, ?_⟩
    rw [outcome_bind]
    exact Or.inl ⟨L3, (outcome_noise noise h5.labels.1 _).mpr ⟨_, rfl, n4⟩, rfl⟩

/-! ### Exceptions -/

theorem randint_small {lo hi : ℕ} (h : hi ≤ lo) : randint lo hi = Rand.raise .valueError := by
  rw [randint, Nat.sub_eq_zero_of_le h, uniformIdx_zero]
  rfl

/-- **C101.** Without rules the noisy matrices are never made: `UnboundLocalError`. -/
theorem C101_no_rules (n nf nl : ℕ) (noise : ℚ) {x : Py Generated} (hx : (plain n nf nl 0 noise).Outcome x) :
    x = .error .unboundLocalError := by
  simp only [plain, plainLoop, plainTest, monad_bind, monad_pure, bind_done_ok] at hx
  obtain ⟨F3, L3, hx, -⟩ := outcome_noise2 noise (shaped_zeros n nf) (shaped_zeros n nl) _ hx
  exact hx

/-- **C101.** With at most two features, at most one label, or fewer than `R` examples among the first three
tenths: `ValueError`. -/
theorem C101_raises {n nf nl R : ℕ} (hR0 : 0 < R) (h : nf ≤ 2 ∨ nl ≤ 1 ∨ 3 * n < 10 * R) (noise : ℚ)
    {x : Py Generated} (hx : (plain n nf nl R noise).Outcome x) : x = .error .valueError := by
  have first : ∀ {β : Type} (f : GenRule → Rand β) {y : Py β}, (nf ≤ 2 ∨ nl ≤ 1) →
      ((drawRule nf nl).bind f).Outcome y → y = .error .valueError := by
    intro β f y h hy
    refine outcome_bind_error hy fun z hz => Or.inl ?_
    by_cases hf : nf ≤ 2
    · rw [drawRule, randint_small hf] at hz
      exact hz
    · refine outcome_bind_error hz fun w hw => Or.inr ?_
      obtain ⟨s, rfl, -⟩ := (outcome_randint (by omega) w).mp hw
      refine ⟨s, rfl, fun v hv => ?_⟩
      rw [randint_small (by omega : nl ≤ 1)] at hv
      exact hv
  refine outcome_bind_error hx fun x hx => ?_
  obtain ⟨R', hR'⟩ : ∃ R', R = R' + 1 := ⟨R - 1, by omega⟩
  by_cases hcols : nf ≤ 2 ∨ nl ≤ 1
  · left
    subst hR'
    exact first _ hcols hx
  · have hf : 2 < nf := by omega
    have hl : 1 < nl := by omega
    by_cases hn : n < R
    · left
      subst hR'
      refine outcome_bind_error hx fun y hy => Or.inr ?_
      obtain ⟨rule, rfl, -⟩ := (outcome_drawRule hf hl y).mp hy
      refine ⟨rule, rfl, fun z hz => ?_⟩
      rw [Nat.div_eq_of_lt hn, uniformIdx_zero] at hz
      exact hz
    · right
      obtain ⟨rules, C, F, L, F1, L1, rfl, h1, -⟩ := (outcome_plainLoop hf hl (Nat.div_pos (show R ≤ n by omega) hR0)
        noise R (zeros n nf) (zeros n nl) none [] [] (Clean.nil n nf nl n _) (fun h => absurd h hR0.ne') x).mp hx
      refine ⟨_, rfl, fun y hy => ?_⟩
      refine outcome_bind_error hy fun z hz => Or.inl ?_
      rw [tenths, List.nil_append] at hz
      cases rules with
      | nil => simp at h1; omega
      | cons rule rules =>
        simp only [plainTest, monad_bind] at hz
        rw [Nat.div_eq_of_lt (show 3 * n / 10 < R by omega), uniformIdx_zero] at hz
        exact hz

/-! ### Every cover of the diverse generator -/

theorem Disjoint.of_append {C C' : List (List ℕ)} {rows : List ℕ} (h : Disjoint (C ++ rows :: C')) :
    ∀ a ∈ C, ∀ r ∈ a, r ∉ rows := by
  intro a ha r hr
  unfold Disjoint at h
  rw [List.pairwise_append] at h
  exact h.2.2 a ha rows (by simp) r hr

theorem left_step {t : ℕ} {C : List (List ℕ)} {left rows : List ℕ}
    (hl : ∀ r, r ∈ left ↔ r < t ∧ ∀ a ∈ C, r ∉ a) (r : ℕ) :
    r ∈ left.filter (· ∉ rows) ↔ r < t ∧ ∀ a ∈ C ++ [rows], r ∉ a := by
  rw [List.mem_filter, decide_eq_true_eq, hl]
  constructor
  · rintro ⟨⟨h1, h2⟩, h3⟩
    refine ⟨h1, fun a ha => ?_⟩
    rcases List.mem_append.mp ha with ha | ha
    · exact h2 a ha
    · rw [List.mem_singleton.mp ha]; exact h3
  · rintro ⟨h1, h2⟩
    exact ⟨⟨h1, fun a ha => h2 a (by simp [ha])⟩, h2 rows (by simp)⟩

theorem diverseLoop_of {n nf nl R : ℕ} (hf : 2 < nf) (hl : 2 < nl) : ∀ (rest : List GenRule) (F L : Matrix)
    (left : List ℕ) (rules : List GenRule) (C C' : List (List ℕ)) (F1 L1 : Matrix),
    Clean n nf nl n (n / R) rules C F L → left.Nodup → (∀ r, r ∈ left ↔ r < n ∧ ∀ a ∈ C, r ∉ a) →
    (∀ rule ∈ rest, (drawDiverseRule nf nl).Outcome (.ok rule)) →
    Clean n nf nl n (n / R) (rules ++ rest) (C ++ C') F1 L1 → Disjoint (C ++ C') →
    (diverseLoop n nf nl R rest.length F L left rules).Outcome (.ok (F1, L1, rules ++ rest))
  | [], F, L, left, rules, C, C', F1, L1, hc, _, _, _, h, _ => by
    have hC' : C' = [] := by
      have := h.covers.1
      have h5 := hc.covers.1
      simp only [List.length_append, List.length_nil] at this
      exact List.length_eq_zero_iff.mp (by omega)
    subst hC'
    rw [List.append_nil, List.append_nil] at h
    obtain ⟨rfl, rfl⟩ := h.unique hc
    rw [List.append_nil]
    rfl
  | rule :: rest, F, L, left, rules, C, C', F1, L1, hc, hn, hleft, hrules, h, hd => by
    cases C' with
    | nil =>
      have := h.covers.1
      have h5 := hc.covers.1
      simp only [List.length_append, List.length_cons, List.length_nil] at this
      omega
    | cons rows C' =>
      simp only [List.length_cons, diverseLoop, monad_bind, Rand.lift]
      rw [outcome_bind]
      obtain ⟨_, e, r1, r2⟩ := outcome_drawDiverseRule hf hl (hrules rule (by simp))
      cases e
      obtain ⟨g1, g2, g3⟩ := h.covers.2 rows (by simp)
      refine Or.inl ⟨rule, hrules rule (by simp), ?_⟩
      refine round_of (le_refl n) hc r1.2.2.2 r2.2.2.2 g1 g2 g3 hn
        (fun r hr => (hleft r).mpr ⟨g3 r hr, fun a ha hra => hd.of_append a ha r hra hr⟩)
        (fun F L covered => diverseLoop n nf nl R rest.length F L (left.filter (· ∉ covered)) (rules ++ [rule])) ?_
      intro F2 L2 hc'
      have := diverseLoop_of hf hl rest F2 L2 (left.filter (· ∉ rows)) (rules ++ [rule]) (C ++ [rows]) C' F1 L1 hc'
        (hn.filter _) (left_step hleft) (fun ρ hρ => hrules ρ (by simp [hρ])) (by simpa using h) (by simpa using hd)
      simpa using this

theorem diverseTest_of {n nf nl t R : ℕ} (ht : t ≤ n) : ∀ (rest : List GenRule) (F L : Matrix)
    (left : List ℕ) (rules : List GenRule) (C C' : List (List ℕ)) (F1 L1 : Matrix),
    Clean n nf nl t (t / R) rules C F L → left.Nodup → (∀ r, r ∈ left ↔ r < t ∧ ∀ a ∈ C, r ∉ a) →
    (∀ rule ∈ rest, (∀ c ∈ rule.1, c < nf) ∧ (∀ c ∈ rule.2, c < nl)) →
    Clean n nf nl t (t / R) (rules ++ rest) (C ++ C') F1 L1 → Disjoint (C ++ C') →
    (diverseTest t R rest F L left).Outcome (.ok (F1, L1))
  | [], F, L, left, rules, C, C', F1, L1, hc, _, _, _, h, _ => by
    have hC' : C' = [] := by
      have := h.covers.1
      have h5 := hc.covers.1
      simp only [List.length_append, List.length_nil] at this
      exact List.length_eq_zero_iff.mp (by omega)
    subst hC'
    rw [List.append_nil, List.append_nil] at h
    obtain ⟨rfl, rfl⟩ := h.unique hc
    rfl
  | rule :: rest, F, L, left, rules, C, C', F1, L1, hc, hn, hleft, hrules, h, hd => by
    cases C' with
    | nil =>
      have := h.covers.1
      have h5 := hc.covers.1
      simp only [List.length_append, List.length_cons, List.length_nil] at this
      omega
    | cons rows C' =>
      simp only [diverseTest, monad_bind, Rand.lift]
      obtain ⟨r1, r2⟩ := hrules rule (by simp)
      obtain ⟨g1, g2, g3⟩ := h.covers.2 rows (by simp)
      refine round_of ht hc r1 r2 g1 g2 g3 hn
        (fun r hr => (hleft r).mpr ⟨g3 r hr, fun a ha hra => hd.of_append a ha r hra hr⟩)
        (fun F L covered => diverseTest t R rest F L (left.filter (· ∉ covered))) ?_
      intro F2 L2 hc'
      exact diverseTest_of ht rest F2 L2 (left.filter (· ∉ rows)) (rules ++ [rule]) (C ++ [rows]) C' F1 L1 hc'
        (hn.filter _) (left_step hleft) (fun ρ hρ => hrules ρ (by simp [hρ])) (by simpa using h) (by simpa using hd)

/-- **C100.** Conversely, everything described in `C100_diverse` can be returned: any possible rules, any rows for
them without overlap, any set of flipped cells. -/
theorem C100_everything {n nf nl : ℕ} (hf : 2 < nf) (hl : 2 < nl) (noise : ℚ) (out : Generated)
    (hrules : ∀ rule ∈ out.rules, (drawDiverseRule nf nl).Outcome (.ok rule)) {F L F' L' : Matrix} {C C' : List (List ℕ)}
    (h : Clean n nf nl n (n / out.rules.length) out.rules C F L) (hd : Disjoint C)
    (h1 : Flipped n nf ⌊((n * nf : ℕ) : ℚ) * noise⌋₊ F out.F) (h2 : Flipped n nl ⌊((n * nl : ℕ) : ℚ) * noise⌋₊ L out.L)
    (h' : Clean n nf nl (2 * n / 5) (2 * n / 5 / out.rules.length) out.rules C' F' L') (hd' : Disjoint C')
    (h3 : Flipped n nf ⌊((n * nf : ℕ) : ℚ) * noise⌋₊ F' out.Ftest)
    (h4 : Flipped n nl ⌊((n * nl : ℕ) : ℚ) * noise⌋₊ L' out.Ltest) :
    (diverse n nf nl out.rules.length noise).Outcome (.ok out) := by
  simp only [diverse, monad_bind, monad_pure]
  rw [outcome_bind, fifths]
  refine Or.inl ⟨(F, L, out.rules), ?_, ?_⟩
  · exact diverseLoop_of hf hl out.rules _ _ _ [] [] C F L (Clean.nil n nf nl n _) List.nodup_range (by simp) hrules
      (by simpa using h) (by simpa using hd)
  simp only
  rw [outcome_bind]
  refine Or.inl ⟨out.F, (outcome_noise noise h.features.1 _).mpr ⟨_, rfl, h1⟩, ?_⟩
  rw [outcome_bind]
  refine Or.inl ⟨out.L, (outcome_noise noise h.labels.1 _).mpr ⟨_, rfl, h2⟩, ?_⟩
  rw [outcome_bind]
  refine Or.inl ⟨(F', L'), ?_, ?_⟩
  · refine diverseTest_of (nf := nf) (nl := nl) (show 2 * n / 5 ≤ n by omega) out.rules _ _ _ [] [] C' F' L'
      (Clean.nil n nf nl _ _) List.nodup_range (by simp) ?_ (by simpa using h') (by simpa using hd')
    intro rule hr
    obtain ⟨_, e, r1, r2⟩ := outcome_drawDiverseRule hf hl (hrules rule hr)
    cases e
    exact ⟨r1.2.2.2, r2.2.2.2⟩
  simp only
  rw [outcome_bind]
  refine Or.inl ⟨out.Ftest, (outcome_noise noise h'.features.1 _).mpr ⟨_, rfl, h3⟩, ?_⟩
  rw [outcome_bind]
  exact Or.inl ⟨out.Ltest, (outcome_noise noise h'.labels.1 _).mpr ⟨_, rfl, h4⟩, rfl⟩

/-! ### The law of the rules -/

theorem expect_sample_mem {a : ℕ} : ∀ (k : ℕ) (xs : List ℕ), xs.Nodup → a ∈ xs → k ≤ xs.length →
    (sample xs k).expect (okVal fun l => if a ∈ l then 1 else 0) = (k : ℚ) / xs.length
  | 0, xs, _, _, _ => by simp [sample, okVal]
  | k + 1, xs, hn, ha, hk => by
    have h0 : xs.length ≠ 0 := by omega
    obtain ⟨j, hj, hja⟩ := List.mem_iff_getElem.mp ha
    simp only [sample, monad_bind, monad_pure, Rand.lift]
    rw [expect_bind, expect_uniformIdx h0]
    have hterm : ∀ i ∈ Finset.range xs.length, cont (okVal fun l => if a ∈ l then (1 : ℚ) else 0)
        (fun i : ℕ => (Rand.done (pyGet xs (i : ℤ))).bind fun x => (sample (xs.eraseIdx i) k).bind fun rest =>
          .done (.ok (x :: rest))) (.ok i) = if i = j then 1 else (k : ℚ) / ((xs.length - 1 : ℕ) : ℚ) := by
      intro i hi
      rw [Finset.mem_range] at hi
      have hlen : (xs.eraseIdx i).length = xs.length - 1 := List.length_eraseIdx_of_lt hi
      simp only [cont]
      rw [pyGet_nat xs i hi, bind_done_ok, expect_bind]
      by_cases e : i = j
      · subst e
        rw [if_pos rfl]
        refine expect_eq_of_outcomes (sample_proper _ _) fun x hx => ?_
        obtain ⟨l, rfl, -⟩ := (outcome_sample k _ (hn.eraseIdx i) (by omega) x).mp hx
        simp [cont, okVal, hja]
      · have hne : a ≠ xs[i] := by
          rintro rfl
          exact e (hn.getElem_inj_iff.mp hja.symm)
        have hmem : a ∈ xs.eraseIdx i := by
          rw [List.mem_eraseIdx_iff_getElem]
          exact ⟨j, hj, fun h => e h.symm, hja⟩
        rw [if_neg e, ← hlen, ← expect_sample_mem k (xs.eraseIdx i) (hn.eraseIdx i) hmem (by omega)]
        refine expect_congr (fun x hx => ?_) (sample_proper _ _)
        obtain ⟨l, rfl, -⟩ := (outcome_sample k _ (hn.eraseIdx i) (by omega) x).mp hx
        simp [cont, okVal, hne]
    rw [Finset.sum_congr rfl hterm, Finset.sum_ite, Finset.filter_eq', if_pos (Finset.mem_range.mpr hj),
      Finset.sum_singleton, Finset.sum_const, Finset.filter_ne', Finset.card_erase_of_mem (Finset.mem_range.mpr hj),
      Finset.card_range, nsmul_eq_mul]
    congr 1
    by_cases h1 : xs.length - 1 = 0
    · have : k = 0 := by omega
      rw [h1, this]; simp
    · have h1' : ((xs.length - 1 : ℕ) : ℚ) ≠ 0 := by exact_mod_cast h1
      field_simp
      push_cast
      ring

theorem sum_range_shift (lo : ℚ) : ∀ m : ℕ, ∑ i ∈ Finset.range m, (lo + (i : ℚ)) = m * (lo + ((m : ℚ) - 1) / 2)
  | 0 => by simp
  | m + 1 => by
    rw [Finset.sum_range_succ, sum_range_shift lo m]
    push_cast
    ring

/-- The probability that a column is among those drawn, `lo` to `m - 1` of them without replacement. -/
theorem expect_has_plain {lo m : ℕ} (hm : lo < m) (ask : Prop) [Decidable ask] {a : ℕ} (ha : ask → a < m) :
    (randint lo m).expect (okVal fun s => (sample (List.range m) s).expect (okVal fun l => has ask a l)) =
      if ask then ((lo : ℚ) + m - 1) / (2 * m) else 1 := by
  by_cases h : ask
  · rw [if_pos h]
    have hsz : m - lo ≠ 0 := by omega
    simp only [randint, monad_bind, monad_pure]
    rw [expect_bind, expect_uniformIdx hsz]
    have hterm : ∀ i ∈ Finset.range (m - lo), cont (okVal fun s => (sample (List.range m) s).expect (okVal fun l => has ask a l))
        (fun i => Rand.done (.ok (lo + i))) (.ok i) = ((lo : ℚ) + i) / m := by
      intro i hi
      rw [Finset.mem_range] at hi
      have := expect_sample_mem (a := a) (lo + i) (List.range m) List.nodup_range (List.mem_range.mpr (ha h))
        (by rw [List.length_range]; omega)
      rw [List.length_range] at this
      simp only [cont, expect_done, okVal]
      push_cast at this
      rw [← this]
      congr 1
      funext x
      cases x with
      | ok l => simp [okVal, has, h]
      | error e => rfl
    rw [Finset.sum_congr rfl hterm, ← Finset.sum_div, sum_range_shift, Nat.cast_sub hm.le]
    have h1 : (m : ℚ) ≠ 0 := by exact_mod_cast (show m ≠ 0 by omega)
    have h2 : (m : ℚ) - lo ≠ 0 := by
      have : (lo : ℚ) < m := by exact_mod_cast hm
      linarith
    field_simp
    ring
  · rw [if_neg h]
    refine expect_eq_of_outcomes (randint_proper _ _) fun x hx => ?_
    obtain ⟨s, rfl, -, hs⟩ := (outcome_randint hm x).mp hx
    refine expect_eq_of_outcomes (sample_proper _ _) fun y hy => ?_
    obtain ⟨l, rfl, -⟩ := (outcome_sample_range hs.le y).mp hy
    simp [okVal, has, h]

theorem expect_rule_plain {nf nl : ℕ} (hf : 2 < nf) (hl : 1 < nl) (g1 g2 : List ℕ → ℚ) :
    (drawRule nf nl).expect (okVal fun rule => g1 rule.1 * g2 rule.2) =
      (randint 2 nf).expect (okVal fun s => (sample (List.range nf) s).expect (okVal g1)) *
      (randint 1 nl).expect (okVal fun s => (sample (List.range nl) s).expect (okVal g2)) := by
  simp only [drawRule, monad_bind, monad_pure]
  rw [expect_bind, mul_comm, ← expect_smul]
  refine expect_congr (fun x hx => ?_) (randint_proper _ _)
  obtain ⟨s, rfl, -, hs⟩ := (outcome_randint hf x).mp hx
  simp only [cont, okVal]
  rw [expect_bind, mul_comm, ← expect_smul]
  refine expect_congr (fun x hx => ?_) (randint_proper _ _)
  obtain ⟨u, rfl, -, hu⟩ := (outcome_randint hl x).mp hx
  simp only [cont, okVal]
  rw [expect_bind, mul_comm, ← expect_smul]
  refine expect_congr (fun x hx => ?_) (sample_proper _ _)
  obtain ⟨hd, rfl, -⟩ := (outcome_sample_range hs.le x).mp hx
  simp only [cont, okVal]
  rw [expect_bind, mul_comm, ← expect_smul]
  refine expect_congr (fun x hx => ?_) (sample_proper _ _)
  obtain ⟨tl, rfl, -⟩ := (outcome_sample_range hu.le x).mp hx
  simp only [cont, okVal, expect_done]

theorem expect_plainLoop {n nf nl R : ℕ} (hf : 2 < nf) (hl : 1 < nl) (hR : 0 < n / R) (noise : ℚ)
    (g : ℕ → GenRule → ℚ) : ∀ (k : ℕ) (F L : Matrix) (prev : Option (Matrix × Matrix)) (rules : List GenRule)
      (C : List (List ℕ)), rules.length + k = R → Clean n nf nl n (n / R) rules C F L →
    (plainLoop n nf nl R noise k F L prev rules).expect
        (okVal fun r => ∏ j ∈ Finset.range R, g j (r.2.getD j ([], []))) =
      (∏ j ∈ Finset.range rules.length, g j (rules.getD j ([], []))) *
        ∏ j ∈ Finset.Ico rules.length R, (drawRule nf nl).expect (okVal (g j))
  | 0, F, L, prev, rules, C, hk, hc => by
    rw [Nat.add_zero] at hk
    simp only [plainLoop, monad_pure, expect_done, okVal]
    rw [hk]
    simp
  | k + 1, F, L, prev, rules, C, hk, hc => by
    simp only [plainLoop, monad_bind, Rand.lift]
    have hsplit : ∏ j ∈ Finset.Ico rules.length R, (drawRule nf nl).expect (okVal (g j)) =
        (drawRule nf nl).expect (okVal (g rules.length)) *
          ∏ j ∈ Finset.Ico (rules.length + 1) R, (drawRule nf nl).expect (okVal (g j)) :=
      Finset.prod_eq_prod_Ico_succ_bot (by omega) _
    rw [expect_bind, hsplit, mul_comm ((drawRule nf nl).expect _), ← mul_assoc, ← expect_smul]
    refine expect_congr (fun x hx => ?_) (drawRule_proper _ _)
    obtain ⟨rule, rfl, r1, r2⟩ := (outcome_drawRule hf hl x).mp hx
    simp only [cont, okVal]
    refine expect_round (le_refl n) hR hc r1.2.2.2 r2.2.2.2 List.nodup_range (by simp)
      (by rw [List.length_range]; have := Nat.div_le_self n R; omega)
      (fun F L _ => (addNoise n nf (swaps n nf noise) F).bind fun F' =>
        (addNoise n nl (swaps n nl noise) L).bind fun L' =>
          plainLoop n nf nl R noise k F L (some (F', L')) (rules ++ [rule])) _ _ ?_
    intro F' L' rows hc' g1 g2 g3
    rw [expect_bind]
    refine expect_eq_of_outcomes (addNoise_proper _ _ _ _) fun x hx => ?_
    obtain ⟨F1, rfl, -⟩ := (outcome_noise noise hc'.features.1 x).mp hx
    simp only [cont]
    rw [expect_bind]
    refine expect_eq_of_outcomes (addNoise_proper _ _ _ _) fun x hx => ?_
    obtain ⟨L1, rfl, -⟩ := (outcome_noise noise hc'.labels.1 x).mp hx
    simp only [cont]
    refine (expect_plainLoop hf hl hR noise g k F' L' _ (rules ++ [rule]) (C ++ [rows]) (by simp; omega) hc').trans ?_
    rw [List.length_append, List.length_singleton, Finset.prod_range_succ,
      List.getD_append_right _ _ _ _ (le_refl _)]
    have : ∏ j ∈ Finset.range rules.length, g j ((rules ++ [rule]).getD j ([], [])) =
        ∏ j ∈ Finset.range rules.length, g j (rules.getD j ([], [])) :=
      Finset.prod_congr rfl fun j hj => by rw [List.getD_append _ _ _ _ (Finset.mem_range.mp hj)]
    rw [this]
    simp only [Nat.sub_self, List.getD_cons_zero]
    ring

theorem plainTest_proper (t R : ℕ) : ∀ rules F L, (plainTest t R rules F L).Proper
  | [], _, _ => trivial
  | _ :: rules, _, _ => proper_bind _ _ (uniformIdx_proper _) fun _ => proper_bind _ _ (sample_proper _ _) fun _ =>
      proper_bind _ _ trivial fun _ => proper_bind _ _ trivial fun _ => plainTest_proper t R rules _ _

theorem plainLoop_proper (n nf nl R : ℕ) (noise : ℚ) : ∀ k F L prev rules,
    (plainLoop n nf nl R noise k F L prev rules).Proper
  | 0, _, _, _, _ => trivial
  | k + 1, _, _, _, _ => proper_bind _ _ (drawRule_proper _ _) fun _ =>
      proper_bind _ _ (uniformIdx_proper _) fun _ => proper_bind _ _ (sample_proper _ _) fun _ =>
      proper_bind _ _ trivial fun _ => proper_bind _ _ trivial fun _ =>
      proper_bind _ _ (addNoise_proper _ _ _ _) fun _ => proper_bind _ _ (addNoise_proper _ _ _ _) fun _ =>
      plainLoop_proper n nf nl R noise k _ _ _ _

/-- The indicator of an event about the rules, as a product over the rules. -/
theorem indicator_prod {R : ℕ} {J K : Finset ℕ} (hJ : J ⊆ Finset.range R) (hK : K ⊆ Finset.range R) (a b : ℕ → ℕ)
    (rules : List GenRule) :
    ∏ j ∈ Finset.range R, (has (j ∈ J) (a j) (rules.getD j ([], [])).1 * has (j ∈ K) (b j) (rules.getD j ([], [])).2) =
      if (∀ j ∈ J, a j ∈ (rules.getD j ([], [])).1) ∧ (∀ j ∈ K, b j ∈ (rules.getD j ([], [])).2) then 1 else 0 := by
  by_cases hall : (∀ j ∈ J, a j ∈ (rules.getD j ([], [])).1) ∧ (∀ j ∈ K, b j ∈ (rules.getD j ([], [])).2)
  · rw [if_pos hall]
    refine Finset.prod_eq_one fun j _ => ?_
    rw [has, has, if_pos (hall.1 j), if_pos (hall.2 j), one_mul]
  · rw [if_neg hall]
    rw [not_and_or] at hall
    push_neg at hall
    rcases hall with ⟨j, hj, hn⟩ | ⟨j, hj, hn⟩
    · refine Finset.prod_eq_zero (hJ hj) ?_
      rw [has, if_neg (fun h => hn (h hj)), zero_mul]
    · refine Finset.prod_eq_zero (hK hj) ?_
      rw [has.eq_def (j ∈ K), if_neg (fun h => hn (h hj)), mul_zero]

/-- **C101.** The rules are independent and alike: a given feature is in the head of a rule with probability
`(nf + 1) / (2 nf)`, a given label in its tail with probability one half. -/
theorem C101_law {n nf nl R : ℕ} (hf : 2 < nf) (hl : 1 < nl) (hR0 : 0 < R) (hR : 10 * R ≤ 3 * n) (noise : ℚ)
    (J K : Finset ℕ) (hJ : J ⊆ Finset.range R) (hK : K ⊆ Finset.range R) (a b : ℕ → ℕ) (ha : ∀ j ∈ J, a j < nf)
    (hb : ∀ j ∈ K, b j < nl) :
    (plain n nf nl R noise).expect (fun x => match x with
      | .ok out => if (∀ j ∈ J, a j ∈ (out.rules.getD j ([], [])).1) ∧ (∀ j ∈ K, b j ∈ (out.rules.getD j ([], [])).2)
          then 1 else 0
      | .error _ => 0) = (((nf : ℚ) + 1) / (2 * nf)) ^ J.card * (1 / 2) ^ K.card := by
  have hRn : 0 < n / R := Nat.div_pos (by omega) hR0
  have hdiv : 0 < 3 * n / 10 / R := Nat.div_pos (by omega) hR0
  have key := expect_plainLoop hf hl hRn noise
    (fun j rule => has (j ∈ J) (a j) rule.1 * has (j ∈ K) (b j) rule.2) R _ _ none [] [] (by simp)
    (Clean.nil n nf nl n _)
  have each : ∀ j, (drawRule nf nl).expect
        (okVal fun rule => has (j ∈ J) (a j) rule.1 * has (j ∈ K) (b j) rule.2) =
      (if j ∈ J then ((nf : ℚ) + 1) / (2 * nf) else 1) * (if j ∈ K then 1 / 2 else 1) := by
    intro j
    rw [expect_rule_plain hf hl (fun l => has (j ∈ J) (a j) l) (fun l => has (j ∈ K) (b j) l),
      expect_has_plain hf (j ∈ J) (ha j), expect_has_plain hl (j ∈ K) (hb j)]
    have h1 : (nl : ℚ) ≠ 0 := by exact_mod_cast (show nl ≠ 0 by omega)
    have e1 : (((2 : ℕ) : ℚ) + nf - 1) / (2 * nf) = ((nf : ℚ) + 1) / (2 * nf) := by push_cast; ring
    have e2 : (((1 : ℕ) : ℚ) + nl - 1) / (2 * nl) = 1 / 2 := by push_cast; field_simp; ring
    rw [e1, e2]
  simp only [each, List.length_nil, Finset.range_zero, Finset.prod_empty, one_mul] at key
  have hpow : ∀ (S : Finset ℕ) (q : ℚ), S ⊆ Finset.range R →
      ∏ j ∈ Finset.Ico 0 R, (if j ∈ S then q else 1) = q ^ S.card := by
    intro S q hS
    rw [Finset.prod_ite, Finset.prod_const_one, mul_one, Finset.prod_const]
    congr 2
    ext j
    rw [Finset.mem_filter]
    constructor
    · exact fun h => h.2
    · intro h
      have := Finset.mem_range.mp (hS h)
      exact ⟨by simp; omega, h⟩
  rw [Finset.prod_mul_distrib, hpow J _ hJ, hpow K _ hK] at key
  rw [← key]
  simp only [plain, monad_bind, monad_pure]
  rw [expect_bind]
  refine expect_congr (fun x hx => ?_) (plainLoop_proper _ _ _ _ _ _ _ _ _ _)
  obtain ⟨rules, C, F, L, F1, L1, rfl, hlen, hcols, hclean, -⟩ := (outcome_plainLoop hf hl hRn noise R (zeros n nf)
    (zeros n nl) none [] [] (Clean.nil n nf nl n _) (fun h => absurd h hR0.ne') x).mp hx
  rw [List.nil_append] at hclean ⊢
  simp only [cont, okVal]
  rw [indicator_prod hJ hK a b rules, expect_bind, tenths]
  refine expect_eq_of_outcomes (plainTest_proper _ _ _ _ _) fun x hx => ?_
  obtain ⟨F2, L2, C', rfl, hclean'⟩ := (outcome_plainTest (n := n) (nf := nf) (nl := nl) (t := 3 * n / 10) (by omega)
    hdiv rules _ _ [] [] (fun rule hr => ⟨(hcols rule hr).1.2.2.2, (hcols rule hr).2.2.2.2⟩)
    (Clean.nil n nf nl _ _) x).mp hx
  simp only [cont]
  rw [expect_bind]
  refine expect_eq_of_outcomes (addNoise_proper _ _ _ _) fun x hx => ?_
  obtain ⟨F3, rfl, -⟩ := (outcome_noise noise hclean'.features.1 x).mp hx
  simp only [cont]
  rw [expect_bind]
  refine expect_eq_of_outcomes (addNoise_proper _ _ _ _) fun x hx => ?_
  obtain ⟨L3, rfl, -⟩ := (outcome_noise noise hclean'.labels.1 x).mp hx
  simp only [cont, expect_done]

/-! ### Examples -/

/-- Ten examples, four features, three labels, two rules: both generators return something. -/
example : (∃ out, (diverse 10 4 3 2 (1 / 10)).Outcome (.ok out) ∧ out.rules.length = 2) ∧
    ∃ out, (plain 10 4 3 2 (1 / 10)).Outcome (.ok out) ∧ out.rules.length = 2 := by
  have p1 : (diverse 10 4 3 2 (1 / 10)).Proper := proper_bind _ _ (diverseLoop_proper _ _ _ _ _ _ _ _ _) fun _ =>
    proper_bind _ _ (addNoise_proper _ _ _ _) fun _ => proper_bind _ _ (addNoise_proper _ _ _ _) fun _ =>
    proper_bind _ _ (diverseTest_proper _ _ _ _ _ _) fun _ =>
    proper_bind _ _ (addNoise_proper _ _ _ _) fun _ => proper_bind _ _ (addNoise_proper _ _ _ _) fun _ => trivial
  have p2 : (plain 10 4 3 2 (1 / 10)).Proper := by
    refine proper_bind _ _ (plainLoop_proper _ _ _ _ _ _ _ _ _ _) fun r =>
      proper_bind _ _ (plainTest_proper _ _ _ _ _) fun _ =>
      proper_bind _ _ (addNoise_proper _ _ _ _) fun _ => proper_bind _ _ (addNoise_proper _ _ _ _) fun _ => ?_
    rcases r with ⟨_ | _, _⟩ <;> trivial
  obtain ⟨x, hx⟩ := exists_outcome_of_proper p1
  obtain ⟨y, hy⟩ := exists_outcome_of_proper p2
  obtain ⟨out, _, _, _, _, _, _, rfl, h, -⟩ := C100_diverse (Or.inr ⟨by omega, by omega, by omega⟩) _ hx
  obtain ⟨out', _, _, _, _, _, _, rfl, h', -⟩ := (C101_plain (by omega) (by omega) (by omega) (by omega) _ y).mp hy
  exact ⟨⟨out, hx, h⟩, ⟨out', hy, h'⟩⟩

/-- With four features the probability of a feature is not zero. -/
example : columnProb 4 = 79 / 160 := by
  norm_num [columnProb, Finset.sum_Ico_succ_top]

end Synthetic

end Verif
