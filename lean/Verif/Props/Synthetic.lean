/-
C100, C101: the generators of synthetic data.
-/
import Verif.Lemmas.Synthetic
import Mathlib.Algebra.BigOperators.Fin
import Mathlib.Tactic.Ring
import Mathlib.Algebra.Order.Floor.Semifield

namespace Verif

namespace Synthetic

open Rand

theorem expect_eq_of_outcomes {α : Type} {m : Rand α} (hm : m.Proper) {f : Py α → ℚ} {c : ℚ}
    (h : ∀ x, m.Outcome x → f x = c) : m.expect f = c := by
  rw [expect_congr h hm, expect_const m hm]

/-! ### One rule -/

theorem replicate_weights {n : ℕ} (hn : 0 < n) :
    (List.replicate n (1 : ℚ)) ≠ [] ∧ ∀ q ∈ List.replicate n (1 : ℚ), 0 < q := by
  constructor
  · intro h
    have := congrArg List.length h
    simp at this; omega
  · intro q h
    rw [(List.mem_replicate.mp h).2]; norm_num

theorem dedup_columns {m s : ℕ} {l : List ℕ} (h1 : l.length = s) (hs : 2 ≤ s) (hm : s < m) (h2 : ∀ a ∈ l, a < m) :
    Columns 1 m l.dedup := by
  refine ⟨l.nodup_dedup, ?_, ?_, ?_⟩
  · rcases l with _ | ⟨a, l⟩
    · simp at h1; omega
    · exact List.length_pos_of_mem (List.mem_dedup.mpr (List.mem_cons_self))
  · have := l.dedup_sublist.length_le
    omega
  · intro c hc
    exact h2 c (List.mem_dedup.mp hc)

theorem outcome_drawDiverseRule {nf nl : ℕ} (hf : 2 < nf) (hl : 2 < nl) {x : Py GenRule}
    (h : (drawDiverseRule nf nl).Outcome x) : ∃ rule, x = .ok rule ∧ Columns 1 nf rule.1 ∧ Columns 1 nl rule.2 := by
  obtain ⟨f1, f2⟩ := replicate_weights (n := nf) (by omega)
  obtain ⟨l1, l2⟩ := replicate_weights (n := nl) (by omega)
  simp only [drawDiverseRule, monad_bind, monad_pure, outcome_bind, outcome_drawSize hf, outcome_drawSize hl,
    outcome_choices f1 f2, outcome_choices l1 l2, outcome_done] at h
  rcases h with ⟨s, ⟨s', e, s1, s2⟩, h⟩ | ⟨e, ⟨s, h, -⟩, -⟩
  swap
  · cases h
  cases e
  rcases h with ⟨u, ⟨u', e, u1, u2⟩, h⟩ | ⟨e, ⟨s, h, -⟩, -⟩
  swap
  · cases h
  cases e
  rcases h with ⟨hd, ⟨hd', e, h1, h2⟩, h⟩ | ⟨e, ⟨s, h, -⟩, -⟩
  swap
  · cases h
  cases e
  rcases h with ⟨tl, ⟨tl', e, t1, t2⟩, rfl⟩ | ⟨e, ⟨s, h, -⟩, -⟩
  swap
  · cases h
  cases e
  refine ⟨_, rfl, dedup_columns h1 s1 s2 (by simpa using h2), dedup_columns t1 u1 u2 (by simpa using t2)⟩

/-- A non-empty set of columns is the set of a list of draws of any length not below its size. -/
theorem exists_draws {m : ℕ} (H : Finset ℕ) (hne : H.Nonempty) (hH : ∀ c ∈ H, c < m) (hc : H.card < m) (hm : 2 < m) :
    ∃ s, 2 ≤ s ∧ s < m ∧ ∃ l : List ℕ, l.length = s ∧ (∀ a ∈ l, a < m) ∧ l.dedup.toFinset = H := by
  obtain ⟨a, ha⟩ := hne
  have hpos : 0 < H.card := Finset.card_pos.mpr ⟨a, ha⟩
  by_cases h2 : 2 ≤ H.card
  · refine ⟨H.card, h2, hc, H.toList, by simp, by simpa using hH, ?_⟩
    ext c; simp
  · refine ⟨2, le_refl _, hm, [a, a], rfl, by simpa using hH a ha, ?_⟩
    have : H.card = 1 := by omega
    obtain ⟨b, rfl⟩ := Finset.card_eq_one.mp this
    rw [Finset.mem_singleton] at ha
    subst ha
    simp

theorem drawDiverseRule_all {nf nl : ℕ} (hf : 2 < nf) (hl : 2 < nl) (H T : Finset ℕ) (hH : H.Nonempty)
    (hH' : ∀ c ∈ H, c < nf) (hHc : H.card < nf) (hT : T.Nonempty) (hT' : ∀ c ∈ T, c < nl) (hTc : T.card < nl) :
    ∃ rule, (drawDiverseRule nf nl).Outcome (.ok rule) ∧ rule.1.toFinset = H ∧ rule.2.toFinset = T := by
  obtain ⟨f1, f2⟩ := replicate_weights (n := nf) (by omega)
  obtain ⟨l1, l2⟩ := replicate_weights (n := nl) (by omega)
  obtain ⟨s, s1, s2, hd, h1, h2, h3⟩ := exists_draws H hH hH' hHc hf
  obtain ⟨u, u1, u2, tl, t1, t2, t3⟩ := exists_draws T hT hT' hTc hl
  refine ⟨(hd.dedup, tl.dedup), ?_, h3, t3⟩
  simp only [drawDiverseRule, monad_bind, monad_pure, outcome_bind, outcome_drawSize hf, outcome_drawSize hl,
    outcome_choices f1 f2, outcome_choices l1 l2, outcome_done]
  exact Or.inl ⟨s, ⟨s, rfl, s1, s2⟩, Or.inl ⟨u, ⟨u, rfl, u1, u2⟩, Or.inl ⟨hd, ⟨hd, rfl, h1, by simpa using h2⟩,
    Or.inl ⟨tl, ⟨tl, rfl, t1, by simpa using t2⟩, rfl⟩⟩⟩⟩

theorem drawDiverseRule_proper (nf nl : ℕ) : (drawDiverseRule nf nl).Proper :=
  proper_bind _ _ (drawSize_proper _) fun _ => proper_bind _ _ (drawSize_proper _) fun _ =>
    proper_bind _ _ (choices_proper _ _) fun _ => proper_bind _ _ (choices_proper _ _) fun _ => trivial

/-! ### The loops -/

theorem Clean.nil (n nf nl t s : ℕ) : Clean n nf nl t s [] [] (zeros n nf) (zeros n nl) where
  covers := ⟨rfl, by simp⟩
  features := ⟨shaped_zeros _ _, fun r _ c _ => by rw [cell_zeros]; simp⟩
  labels := ⟨shaped_zeros _ _, fun r _ c _ => by rw [cell_zeros]; simp⟩

theorem Clean.snoc {n nf nl t s : ℕ} (ht : t ≤ n) {rules : List GenRule} {C : List (List ℕ)} {F L : Matrix}
    (h : Clean n nf nl t s rules C F L) {rule : GenRule} (h1 : ∀ c ∈ rule.1, c < nf) (h2 : ∀ c ∈ rule.2, c < nl)
    {rows : List ℕ} (g1 : rows.Nodup) (g2 : rows.length < s) (g3 : ∀ r ∈ rows, r < t) :
    ∃ F' L', mark F rows rule.1 = .ok F' ∧ mark L rows rule.2 = .ok L' ∧
      Clean n nf nl t s (rules ++ [rule]) (C ++ [rows]) F' L' := by
  obtain ⟨F', e1, s1, v1⟩ := mark_ok h1 rows F h.features.1 (fun r hr => lt_of_lt_of_le (g3 r hr) ht)
  obtain ⟨L', e2, s2, v2⟩ := mark_ok h2 rows L h.labels.1 (fun r hr => lt_of_lt_of_le (g3 r hr) ht)
  refine ⟨F', L', e1, e2, ⟨⟨by simp [h.covers.1], ?_⟩, ?_, ?_⟩⟩
  · intro r hr
    rcases List.mem_append.mp hr with hr | hr
    · exact h.covers.2 r hr
    · rw [List.mem_singleton.mp hr]; exact ⟨g1, g2, g3⟩
  · rw [List.map_append]
    exact h.features.snoc (by simp [h.covers.1]) s1 v1
  · rw [List.map_append]
    exact h.labels.snoc (by simp [h.covers.1]) s2 v2

/-- The examples still to be covered. -/
structure Left (t s : ℕ) (C : List (List ℕ)) (left : List ℕ) : Prop where
  nodup : left.Nodup
  lt : ∀ r ∈ left, r < t
  free : ∀ rows ∈ C, ∀ r ∈ rows, r ∉ left
  many : t ≤ left.length + C.length * (s - 1)
  disjoint : Disjoint C

theorem Left.start (t s : ℕ) : Left t s [] (List.range t) where
  nodup := List.nodup_range
  lt := by simp
  free := by simp
  many := by simp
  disjoint := List.Pairwise.nil

theorem Left.snoc {t s : ℕ} {C : List (List ℕ)} {left : List ℕ} (h : Left t s C left) {rows : List ℕ}
    (g1 : rows.Nodup) (g2 : rows.length < s) (g3 : ∀ r ∈ rows, r ∈ left) :
    Left t s (C ++ [rows]) (left.filter (· ∉ rows)) where
  nodup := h.nodup.filter _
  lt := fun r hr => h.lt r (List.mem_of_mem_filter hr)
  free := by
    intro rows' hr' r hr hm
    rw [List.mem_filter, decide_eq_true_eq] at hm
    rcases List.mem_append.mp hr' with h' | h'
    · exact h.free _ h' r hr hm.1
    · rw [List.mem_singleton.mp h'] at hr
      exact hm.2 hr
  many := by
    have hle : left.length ≤ (left.filter (· ∉ rows)).length + rows.length := by
      have h1 : left.length = (left.filter (· ∉ rows)).length + (left.filter (· ∈ rows)).length := by
        have := List.length_eq_length_filter_add (l := left) (fun r => decide (r ∉ rows))
        rw [this]
        congr 3
        funext r
        simp
      have h2 : (left.filter (· ∈ rows)).length ≤ rows.length := by
        apply ((h.nodup.filter _).subperm _).length_le
        intro r hr
        simpa using (List.mem_filter.mp hr).2
      omega
    have := h.many
    rw [List.length_append, List.length_singleton, Nat.add_mul, Nat.one_mul]
    omega
  disjoint := by
    unfold Disjoint
    rw [List.pairwise_append]
    refine ⟨h.disjoint, List.pairwise_singleton _ _, ?_⟩
    intro a ha b hb r hr
    rw [List.mem_singleton.mp hb]
    exact fun hm => h.free a ha r hr (g3 r hm)

/-- There are always enough examples left. -/
theorem Left.enough {t s R : ℕ} {C : List (List ℕ)} {left : List ℕ} (h : Left t s C left) (hC : C.length < R)
    (hs : s * R ≤ t) : s - 1 ≤ left.length := by
  have h1 := h.many
  have h2 : (C.length + 1) * (s - 1) ≤ R * s := Nat.mul_le_mul hC (Nat.sub_le _ _)
  rw [Nat.mul_comm s R] at hs
  rw [Nat.add_mul, Nat.one_mul] at h2
  omega

/-- One round of a loop that draws from the examples left. -/
theorem round {n nf nl t s : ℕ} (ht : t ≤ n) (hs : 0 < s) {rules : List GenRule} {C : List (List ℕ)} {F L : Matrix}
    (h : Clean n nf nl t s rules C F L) {rule : GenRule} (h1 : ∀ c ∈ rule.1, c < nf) (h2 : ∀ c ∈ rule.2, c < nl)
    {pool : List ℕ} (hp : pool.Nodup) (hp' : ∀ r ∈ pool, r < t) (hp2 : s - 1 ≤ pool.length) {β : Type}
    (k : Matrix → Matrix → List ℕ → Rand β) {x : Py β}
    (hx : ((uniformIdx s).bind fun size => (sample pool size).bind fun covered =>
      (Rand.done (mark F covered rule.1)).bind fun F => (Rand.done (mark L covered rule.2)).bind fun L =>
        k F L covered).Outcome x) :
    ∃ F' L' rows, (k F' L' rows).Outcome x ∧ Clean n nf nl t s (rules ++ [rule]) (C ++ [rows]) F' L' ∧
      rows.Nodup ∧ rows.length < s ∧ ∀ r ∈ rows, r ∈ pool := by
  rw [outcome_bind] at hx
  simp only [outcome_uniformIdx hs.ne'] at hx
  rcases hx with ⟨size, ⟨size', hlt, e⟩, hx⟩ | ⟨e, ⟨i, _, hh⟩, -⟩
  swap
  · cases hh
  cases e
  rw [outcome_bind] at hx
  simp only [outcome_sample size pool hp (by omega)] at hx
  rcases hx with ⟨rows, ⟨rows', e, r1, r2, r3⟩, hx⟩ | ⟨e, ⟨i, hh, -⟩, -⟩
  swap
  · cases hh
  cases e
  obtain ⟨F', L', e1, e2, hc⟩ := h.snoc ht h1 h2 r2 (by omega) (fun r hr => hp' r (r3 r hr))
  rw [e1, bind_done_ok, e2, bind_done_ok] at hx
  exact ⟨F', L', rows, hx, hc, r2, by omega, r3⟩

theorem outcome_diverseLoop {n nf nl R : ℕ} (hf : 2 < nf) (hl : 2 < nl) (hR : 0 < n / R) :
    ∀ (k : ℕ) (F L : Matrix) (left : List ℕ) (rules : List GenRule) (C : List (List ℕ)),
    rules.length + k = R → (∀ rule ∈ rules, Columns 1 nf rule.1 ∧ Columns 1 nl rule.2) →
    Clean n nf nl n (n / R) rules C F L → Left n (n / R) C left →
    ∀ x, (diverseLoop n nf nl R k F L left rules).Outcome x →
    ∃ F' L' rules' C', x = .ok (F', L', rules') ∧ rules'.length = R ∧
      (∀ rule ∈ rules', Columns 1 nf rule.1 ∧ Columns 1 nl rule.2) ∧
      Clean n nf nl n (n / R) rules' C' F' L' ∧ Disjoint C'
  | 0, F, L, left, rules, C, hk, hg, hc, hleft, x, hx => by
    simp only [diverseLoop, monad_pure, outcome_done] at hx
    exact ⟨F, L, rules, C, hx, hk, hg, hc, hleft.disjoint⟩
  | k + 1, F, L, left, rules, C, hk, hg, hc, hleft, x, hx => by
    simp only [diverseLoop, monad_bind, Rand.lift] at hx
    rw [outcome_bind] at hx
    rcases hx with ⟨rule, hr, hx⟩ | ⟨e, he, -⟩
    · obtain ⟨rule', e, r1, r2⟩ := outcome_drawDiverseRule hf hl hr
      cases e
      obtain ⟨F', L', rows, hx, hc', g1, g2, g3⟩ := round (le_refl n) hR hc r1.2.2.2 r2.2.2.2 hleft.nodup hleft.lt
        (hleft.enough (R := R) (by rw [hc.covers.1]; omega) (Nat.div_mul_le_self n R))
        (fun F L covered => diverseLoop n nf nl R k F L (left.filter (· ∉ covered)) (rules ++ [rule])) hx
      refine outcome_diverseLoop hf hl hR k F' L' _ (rules ++ [rule]) (C ++ [rows]) (by simp; omega) ?_ hc'
        (hleft.snoc g1 g2 g3) x hx
      intro ρ hρ
      rcases List.mem_append.mp hρ with h | h
      · exact hg ρ h
      · rw [List.mem_singleton.mp h]; exact ⟨r1, r2⟩
    · obtain ⟨rule', e, -⟩ := outcome_drawDiverseRule hf hl he
      cases e

theorem outcome_diverseTest {n nf nl t R : ℕ} (ht : t ≤ n) :
    ∀ (rest : List GenRule) (F L : Matrix) (left : List ℕ) (rules : List GenRule) (C : List (List ℕ)),
    rules.length + rest.length = R → (rest ≠ [] → 0 < t / R) →
    (∀ rule ∈ rest, (∀ c ∈ rule.1, c < nf) ∧ (∀ c ∈ rule.2, c < nl)) →
    Clean n nf nl t (t / R) rules C F L → Left t (t / R) C left →
    ∀ x, (diverseTest t R rest F L left).Outcome x →
    ∃ F' L' C', x = .ok (F', L') ∧ Clean n nf nl t (t / R) (rules ++ rest) C' F' L' ∧ Disjoint C'
  | [], F, L, left, rules, C, hk, _, hg, hc, hleft, x, hx => by
    simp only [diverseTest, monad_pure, outcome_done] at hx
    exact ⟨F, L, C, hx, by simpa using hc, hleft.disjoint⟩
  | rule :: rest, F, L, left, rules, C, hk, hR, hg, hc, hleft, x, hx => by
    simp only [diverseTest, monad_bind, Rand.lift] at hx
    obtain ⟨r1, r2⟩ := hg rule (by simp)
    rw [List.length_cons] at hk
    obtain ⟨F', L', rows, hx, hc', g1, g2, g3⟩ := round ht (hR (by simp)) hc r1 r2 hleft.nodup hleft.lt
      (hleft.enough (R := R) (by rw [hc.covers.1]; omega) (Nat.div_mul_le_self t R))
      (fun F L covered => diverseTest t R rest F L (left.filter (· ∉ covered))) hx
    obtain ⟨F2, L2, C2, e, h1, h2⟩ := outcome_diverseTest ht rest F' L' _ (rules ++ [rule]) (C ++ [rows])
      (by simp; omega) (fun _ => hR (by simp)) (fun ρ hρ => hg ρ (by simp [hρ])) hc' (hleft.snoc g1 g2 g3) x hx
    exact ⟨F2, L2, C2, e, by simpa using h1, h2⟩

theorem swaps_eq (n m : ℕ) (noise : ℚ) : swaps n m noise = ⌊((n * m : ℕ) : ℚ) * noise⌋₊ := by
  unfold swaps pyInt
  split
  · rw [Int.floor_toNat]
  · rename_i h
    rw [Nat.floor_of_nonpos (le_of_lt (not_le.mp h))]
    rw [Int.toNat_eq_zero]
    exact Int.ceil_le.mpr (by exact_mod_cast (not_le.mp h).le)

theorem outcome_noise {n m : ℕ} (noise : ℚ) {M : Matrix} (hM : Shaped n m M) (x : Py Matrix) :
    (addNoise n m (swaps n m noise) M).Outcome x ↔
      ∃ M', x = .ok M' ∧ Flipped n m ⌊((n * m : ℕ) : ℚ) * noise⌋₊ M M' := by
  rw [swaps_eq]
  by_cases h : 0 < n ∧ 0 < m
  · exact outcome_addNoise h.1 h.2 _ M hM x
  · have h0 : n * m = 0 := by
      rw [Nat.mul_eq_zero]; omega
    rw [h0]
    simp only [Nat.cast_zero, zero_mul, Nat.floor_zero, addNoise, monad_pure, outcome_done, Flipped.zero_iff hM]
    constructor
    · rintro rfl; exact ⟨M, rfl, rfl⟩
    · rintro ⟨M', rfl, rfl⟩; rfl

/-- Two rounds of noise. -/
theorem outcome_noise2 {n nf nl : ℕ} (noise : ℚ) {F L : Matrix} (hF : Shaped n nf F) (hL : Shaped n nl L) {β : Type}
    (k : Matrix → Matrix → Rand β) {x : Py β}
    (hx : ((addNoise n nf (swaps n nf noise) F).bind fun F => (addNoise n nl (swaps n nl noise) L).bind fun L =>
      k F L).Outcome x) :
    ∃ F' L', (k F' L').Outcome x ∧ Flipped n nf ⌊((n * nf : ℕ) : ℚ) * noise⌋₊ F F' ∧
      Flipped n nl ⌊((n * nl : ℕ) : ℚ) * noise⌋₊ L L' := by
  rw [outcome_bind] at hx
  simp only [outcome_noise noise hF] at hx
  rcases hx with ⟨F', ⟨F'', e, h1⟩, hx⟩ | ⟨e, ⟨i, hh, -⟩, -⟩
  swap
  · cases hh
  cases e
  rw [outcome_bind] at hx
  simp only [outcome_noise noise hL] at hx
  rcases hx with ⟨L', ⟨L'', e, h2⟩, hx⟩ | ⟨e, ⟨i, hh, -⟩, -⟩
  swap
  · cases hh
  cases e
  exact ⟨F', L', hx, h1, h2⟩

theorem fifths (n : ℕ) : (pyInt ((n : ℚ) * (2 / 5 : ℚ))).toNat = 2 * n / 5 := by
  have h : (0 : ℚ) ≤ (n : ℚ) * (2 / 5) := by positivity
  rw [pyInt, if_pos h, Int.floor_toNat]
  have : (n : ℚ) * (2 / 5) = ((2 * n : ℕ) : ℚ) / ((5 : ℕ) : ℚ) := by push_cast; ring
  rw [this, Nat.floor_div_eq_div]

theorem tenths (n : ℕ) : (pyInt ((n : ℚ) * (3 / 10 : ℚ))).toNat = 3 * n / 10 := by
  have h : (0 : ℚ) ≤ (n : ℚ) * (3 / 10) := by positivity
  rw [pyInt, if_pos h, Int.floor_toNat]
  have : (n : ℚ) * (3 / 10) = ((3 * n : ℕ) : ℚ) / ((10 : ℕ) : ℚ) := by push_cast; ring
  rw [this, Nat.floor_div_eq_div]

/-- **C100.** What `generate_synthetic_dataset_from_diverse_generating_rules` can return, for `n` examples, `nf`
features, `nl` labels, `R` rules: it never raises; there are `R` rules whose heads and tails are non-empty,
proper sets of features and labels. Before noise a cell is 1 if and only if a rule covers its example and names
its column, every rule covers fewer than `n / R` examples and no example is covered twice. At most the given
share of the cells is flipped. The test matrices have `n` rows as well, but the rules cover only rows among
the first two fifths. -/
theorem C100_diverse {n nf nl R : ℕ} (h : R = 0 ∨ (2 < nf ∧ 2 < nl ∧ 5 * R ≤ 2 * n)) (noise : ℚ)
    {x : Py Generated} (hx : (diverse n nf nl R noise).Outcome x) :
    ∃ out F L F' L' C C', x = .ok out ∧ out.rules.length = R ∧
      (∀ rule ∈ out.rules, Columns 1 nf rule.1 ∧ Columns 1 nl rule.2) ∧
      Clean n nf nl n (n / R) out.rules C F L ∧ Disjoint C ∧
      Flipped n nf ⌊((n * nf : ℕ) : ℚ) * noise⌋₊ F out.F ∧ Flipped n nl ⌊((n * nl : ℕ) : ℚ) * noise⌋₊ L out.L ∧
      Clean n nf nl (2 * n / 5) (2 * n / 5 / R) out.rules C' F' L' ∧ Disjoint C' ∧
      Flipped n nf ⌊((n * nf : ℕ) : ℚ) * noise⌋₊ F' out.Ftest ∧
      Flipped n nl ⌊((n * nl : ℕ) : ℚ) * noise⌋₊ L' out.Ltest := by
  simp only [diverse, monad_bind, monad_pure] at hx
  rw [outcome_bind] at hx
  have hloop : ∀ y, (diverseLoop n nf nl R R (zeros n nf) (zeros n nl) (List.range n) []).Outcome y →
      ∃ F' L' rules' C', y = .ok (F', L', rules') ∧ rules'.length = R ∧
      (∀ rule ∈ rules', Columns 1 nf rule.1 ∧ Columns 1 nl rule.2) ∧
      Clean n nf nl n (n / R) rules' C' F' L' ∧ Disjoint C' := by
    intro y hy
    rcases h with rfl | ⟨hf, hl, hR⟩
    · simp only [diverseLoop, monad_pure, outcome_done] at hy
      exact ⟨_, _, [], [], hy, rfl, by simp, Clean.nil n nf nl n _, List.Pairwise.nil⟩
    · by_cases hR0 : R = 0
      · subst hR0
        simp only [diverseLoop, monad_pure, outcome_done] at hy
        exact ⟨_, _, [], [], hy, rfl, by simp, Clean.nil n nf nl n _, List.Pairwise.nil⟩
      · exact outcome_diverseLoop hf hl (Nat.div_pos (by omega) (by omega)) R _ _ _ [] [] (by simp) (by simp)
          (Clean.nil n nf nl n _) (Left.start n _) y hy
  rcases hx with ⟨⟨F, L, rules⟩, hy, hx⟩ | ⟨e, hy, -⟩
  swap
  · obtain ⟨_, _, _, _, e, -⟩ := hloop _ hy
    cases e
  obtain ⟨F', L', rules', C, e, hlen, hcols, hclean, hdis⟩ := hloop _ hy
  cases e
  obtain ⟨F1, L1, hx, n1, n2⟩ := outcome_noise2 noise hclean.features.1 hclean.labels.1 _ hx
  rw [fifths, outcome_bind] at hx
  have htest : ∀ y, (diverseTest (2 * n / 5) R rules (zeros n nf) (zeros n nl)
        (List.range (2 * n / 5))).Outcome y →
      ∃ F' L' C', y = .ok (F', L') ∧ Clean n nf nl (2 * n / 5) (2 * n / 5 / R) rules C' F' L' ∧ Disjoint C' := by
    intro y hy
    have := outcome_diverseTest (n := n) (t := 2 * n / 5) (by omega) rules _ _ _ [] [] (by simpa using hlen) ?_
      (fun rule hr => ⟨(hcols rule hr).1.2.2.2, (hcols rule hr).2.2.2.2⟩)
      (Clean.nil n nf nl _ _) (Left.start _ _) y hy
    · simpa using this
    · intro hne
      have hR0 : 0 < R := by rw [← hlen]; exact List.length_pos_iff.mpr hne
      rcases h with rfl | ⟨-, -, hR⟩
      · omega
      · exact Nat.div_pos (by omega) hR0
  rcases hx with ⟨⟨F2, L2⟩, hy, hx⟩ | ⟨e, hy, -⟩
  swap
  · obtain ⟨_, _, _, e, -⟩ := htest _ hy
    cases e
  obtain ⟨F2', L2', C', e, hclean', hdis'⟩ := htest _ hy
  cases e
  obtain ⟨F3, L3, hx, n3, n4⟩ := outcome_noise2 noise hclean'.features.1 hclean'.labels.1 _ hx
  rw [outcome_done] at hx
  exact ⟨_, F, L, F2, L2, C, C', hx, hlen, hcols, hclean, hdis, n1, n2, hclean', hdis', n3, n4⟩

/-- **C100.** Every pair of non-empty proper sets of features and labels can be a rule, whatever rules were
drawn before: heads and tails are drawn independently of the state of the loop. -/
theorem C100_every_rule {nf nl : ℕ} (hf : 2 < nf) (hl : 2 < nl) (H T : Finset ℕ) (hH : H.Nonempty)
    (hH' : ∀ c ∈ H, c < nf) (hHc : H.card < nf) (hT : T.Nonempty) (hT' : ∀ c ∈ T, c < nl) (hTc : T.card < nl) :
    ∃ rule, (drawDiverseRule nf nl).Outcome (.ok rule) ∧ rule.1.toFinset = H ∧ rule.2.toFinset = T :=
  drawDiverseRule_all hf hl H T hH hH' hHc hT hT' hTc

/-! ### Exceptions of the diverse generator -/

theorem outcome_bind_error {α β : Type} {m : Rand α} {f : α → Rand β} {e : PyErr} {y : Py β}
    (hy : (m.bind f).Outcome y)
    (h : ∀ x, m.Outcome x → x = .error e ∨ ∃ a, x = .ok a ∧ ∀ y, (f a).Outcome y → y = .error e) :
    y = .error e := by
  rw [outcome_bind] at hy
  rcases hy with ⟨a, ha, hy⟩ | ⟨e', he, rfl⟩
  · rcases h _ ha with h | ⟨a', h1, h2⟩
    · cases h
    · cases h1; exact h2 y hy
  · rcases h _ he with h | ⟨a', h1, -⟩
    · cases h; rfl
    · cases h1

theorem drawDiverseRule_small {nf nl : ℕ} (h : nf ≤ 2 ∨ nl ≤ 2) {x : Py GenRule}
    (hx : (drawDiverseRule nf nl).Outcome x) : x = .error .indexError := by
  by_cases hf : nf ≤ 2
  · rw [drawDiverseRule, drawSize_small hf] at hx
    exact hx
  · have hl : nl ≤ 2 := by omega
    refine outcome_bind_error hx fun x hx => Or.inr ?_
    obtain ⟨s, rfl, -⟩ := (outcome_drawSize (by omega) x).mp hx
    refine ⟨s, rfl, ?_⟩
    intro y hy
    rw [drawSize_small hl] at hy
    exact hy

/-- **C100.** With at most two features or at most two labels there is no size to draw: `IndexError`. -/
theorem C100_too_few_columns {n nf nl R : ℕ} (hR : 0 < R) (h : nf ≤ 2 ∨ nl ≤ 2) (noise : ℚ) {x : Py Generated}
    (hx : (diverse n nf nl R noise).Outcome x) : x = .error .indexError := by
  obtain ⟨R', rfl⟩ : ∃ R', R = R' + 1 := ⟨R - 1, by omega⟩
  refine outcome_bind_error hx fun x hx => Or.inl ?_
  refine outcome_bind_error hx fun x hx => Or.inl ?_
  exact drawDiverseRule_small h hx

theorem uniformIdx_zero : uniformIdx 0 = Rand.raise .valueError := by
  rw [uniformIdx, if_pos rfl]

/-- **C100.** With fewer examples than rules, or so few that two fifths of them are fewer than the rules, some
rule has to cover a random number of examples below 0: `ValueError`. -/
theorem C100_too_few_examples {n nf nl R : ℕ} (hf : 2 < nf) (hl : 2 < nl) (h : 2 * n < 5 * R) (noise : ℚ)
    {x : Py Generated} (hx : (diverse n nf nl R noise).Outcome x) : x = .error .valueError := by
  obtain ⟨R', hR'⟩ : ∃ R', R = R' + 1 := ⟨R - 1, by omega⟩
  refine outcome_bind_error hx fun x hx => ?_
  by_cases hn : n < R
  · left
    subst hR'
    refine outcome_bind_error hx fun x hx => Or.inr ?_
    obtain ⟨rule, rfl, -⟩ := outcome_drawDiverseRule hf hl hx
    refine ⟨rule, rfl, ?_⟩
    intro y hy
    rw [Nat.div_eq_of_lt hn, uniformIdx_zero] at hy
    exact hy
  · right
    obtain ⟨F, L, rules, C, rfl, hlen, hcols, hclean, hdis⟩ := outcome_diverseLoop hf hl
      (Nat.div_pos (by omega) (by omega)) R _ _ _ [] [] (by simp) (by simp) (Clean.nil n nf nl n _)
      (Left.start n _) x hx
    refine ⟨_, rfl, fun y hy => ?_⟩
    refine outcome_bind_error hy fun x hx => Or.inr ?_
    obtain ⟨F', rfl, -⟩ := (outcome_noise noise hclean.features.1 x).mp hx
    refine ⟨F', rfl, fun y hy => ?_⟩
    refine outcome_bind_error hy fun x hx => Or.inr ?_
    obtain ⟨L', rfl, -⟩ := (outcome_noise noise hclean.labels.1 x).mp hx
    refine ⟨L', rfl, fun y hy => ?_⟩
    refine outcome_bind_error hy fun x hx => Or.inl ?_
    rw [fifths] at hx
    cases rules with
    | nil => simp at hlen; omega
    | cons rule rules =>
      simp only [diverseTest, monad_bind] at hx
      rw [Nat.div_eq_of_lt (show 2 * n / 5 < R by omega), uniformIdx_zero] at hx
      exact hx

/-! ### The law of the rules -/

/-- The probability that a given one of `m` columns is among those of a rule: the number `s` of draws is between
2 and `m - 1` with weight `1 / s`, the draws are uniform with replacement. -/
def columnProb (m : ℕ) : ℚ :=
  (∑ s ∈ Finset.Ico 2 m, 1 / (s : ℚ) * (1 - (1 - 1 / (m : ℚ)) ^ s)) / ∑ s ∈ Finset.Ico 2 m, 1 / (s : ℚ)

theorem expect_choices_notMem {m : ℕ} (hm : 0 < m) {a : ℕ} (ha : a < m) : ∀ s : ℕ,
    (choices (List.replicate m 1) s).expect (fun x => match x with
      | .ok l => if a ∈ l then 0 else 1
      | .error _ => 0) = (1 - 1 / (m : ℚ)) ^ s
  | 0 => by
    rw [choices, if_neg (replicate_weights hm).1]
    simp
  | s + 1 => by
    obtain ⟨w1, w2⟩ := replicate_weights hm
    have hsum : (List.replicate m (1 : ℚ)).sum = m := by simp
    have hs : 0 < (List.replicate m (1 : ℚ)).sum := List.sum_pos _ w2 w1
    have hm' : (m : ℚ) ≠ 0 := by exact_mod_cast hm.ne'
    rw [choices, if_neg w1]
    simp only [monad_bind, monad_pure]
    rw [expect_bind, expect_normalised (fun q h => (w2 q h).le) hs, hsum, List.length_replicate]
    have hterm : ∀ i ∈ Finset.range m, (List.replicate m (1 : ℚ)).getD i 0 *
        cont (fun x : Py (List ℕ) => match x with
          | .ok l => if a ∈ l then (0 : ℚ) else 1
          | .error _ => 0) (fun i => (choices (List.replicate m 1) s).bind fun l => .done (.ok (i :: l))) (.ok i) =
        if i = a then 0 else (1 - 1 / (m : ℚ)) ^ s := by
      intro i hi
      rw [Finset.mem_range] at hi
      rw [getD_lt (by simpa using hi), List.getElem_replicate, one_mul]
      simp only [cont]
      rw [expect_bind]
      by_cases e : i = a
      · rw [if_pos e]
        refine expect_eq_of_outcomes (choices_proper _ _) fun x hx => ?_
        obtain ⟨l, rfl, -⟩ := (outcome_choices w1 w2 s x).mp hx
        simp [cont, e]
      · rw [if_neg e, ← expect_choices_notMem hm ha s]
        refine expect_congr (fun x hx => ?_) (choices_proper _ _)
        obtain ⟨l, rfl, -⟩ := (outcome_choices w1 w2 s x).mp hx
        simp [cont, Ne.symm e]
    rw [Finset.sum_congr rfl hterm, Finset.sum_ite, Finset.sum_const_zero, zero_add, Finset.sum_const,
      Finset.filter_ne', Finset.card_erase_of_mem (Finset.mem_range.mpr ha), Finset.card_range, nsmul_eq_mul,
      Nat.cast_sub hm, pow_succ]
    field_simp
    push_cast
    ring

theorem expect_choices_mem {m : ℕ} (hm : 0 < m) {a : ℕ} (ha : a < m) (s : ℕ) :
    (choices (List.replicate m 1) s).expect (fun x => match x with
      | .ok l => if a ∈ l then 1 else 0
      | .error _ => 0) = 1 - (1 - 1 / (m : ℚ)) ^ s := by
  obtain ⟨w1, w2⟩ := replicate_weights hm
  have h1 := expect_add (choices (List.replicate m 1) s)
    (fun x => match x with
      | .ok l => if a ∈ l then (1 : ℚ) else 0
      | .error _ => 0)
    (fun x => match x with
      | .ok l => if a ∈ l then (0 : ℚ) else 1
      | .error _ => 0)
  rw [expect_choices_notMem hm ha s] at h1
  have h2 : (choices (List.replicate m 1) s).expect (fun x =>
      (match x with
      | .ok l => if a ∈ l then (1 : ℚ) else 0
      | .error _ => 0) +
      (match x with
      | .ok l => if a ∈ l then (0 : ℚ) else 1
      | .error _ => 0)) = 1 := by
    refine expect_eq_of_outcomes (choices_proper _ _) fun x hx => ?_
    obtain ⟨l, rfl, -⟩ := (outcome_choices w1 w2 s x).mp hx
    by_cases h : a ∈ l
    · simp [h]
    · simp [h]
  linarith

theorem sizeWeights_sum (m : ℕ) : (sizeWeights m).sum = ∑ s ∈ Finset.Ico 2 m, 1 / (s : ℚ) := by
  rw [Finset.sum_Ico_eq_sum_range, sizeWeights]
  induction m - 2 with
  | zero => simp
  | succ k ih =>
    rw [List.range_succ, List.map_append, List.sum_append, ih, Finset.sum_range_succ]
    simp only [List.map_cons, List.map_nil, List.sum_cons, List.sum_nil, add_zero]
    push_cast
    rw [add_comm (k : ℚ) 2]

theorem expect_drawSize {m : ℕ} (hm : 2 < m) (f : Py ℕ → ℚ) :
    (drawSize m).expect f =
      (∑ s ∈ Finset.Ico 2 m, 1 / (s : ℚ) * f (.ok s)) / ∑ s ∈ Finset.Ico 2 m, 1 / (s : ℚ) := by
  have hs : 0 < (sizeWeights m).sum := List.sum_pos _ (sizeWeights_pos m) (sizeWeights_ne hm)
  have hlen : (sizeWeights m).length = m - 2 := by simp
  have e : choices (sizeWeights m) 1 = (npChoice ((sizeWeights m).map (· / (sizeWeights m).sum))).bind
      fun i => .done (.ok [i]) := by
    rw [choices, if_neg (sizeWeights_ne hm), choices, if_neg (sizeWeights_ne hm)]
    rfl
  simp only [drawSize, monad_bind, monad_pure, Rand.lift]
  rw [expect_bind, e, expect_bind, expect_normalised (fun q h => (sizeWeights_pos m q h).le) hs, hlen,
    sizeWeights_sum]
  congr 1
  rw [Finset.sum_Ico_eq_sum_range]
  refine Finset.sum_congr rfl fun i hi => ?_
  rw [Finset.mem_range] at hi
  have e1 : pyGet [i] 0 = .ok i := pyGet_nat [i] 0 (by simp)
  rw [getD_lt (by rw [hlen]; exact hi), List.getElem_map, List.getElem_range]
  simp only [cont, expect_done, e1, bind_done_ok]
  rw [Nat.add_comm i 2]
  push_cast
  rw [add_comm (i : ℚ) 2]

/-- The value of a quantity of the result, 0 for an exception. -/
def okVal {α : Type} (g : α → ℚ) : Py α → ℚ
  | .ok a => g a
  | .error _ => 0

/-- A rule contains column `a`, if asked for. -/
def has (ask : Prop) [Decidable ask] (a : ℕ) (cols : List ℕ) : ℚ := if ask → a ∈ cols then 1 else 0

theorem expect_has {m : ℕ} (hm : 2 < m) (ask : Prop) [Decidable ask] {a : ℕ} (ha : ask → a < m) :
    (drawSize m).expect (okVal fun s => (choices (List.replicate m 1) s).expect (okVal fun l => has ask a l)) =
      if ask then columnProb m else 1 := by
  by_cases h : ask
  · rw [if_pos h, expect_drawSize hm, columnProb]
    congr 1
    refine Finset.sum_congr rfl fun s _ => ?_
    congr 1
    rw [← expect_choices_mem (by omega) (ha h) s]
    simp only [okVal]
    congr 1
    funext x
    cases x with
    | ok l => simp [okVal, has, h]
    | error e => rfl
  · rw [if_neg h]
    obtain ⟨w1, w2⟩ := replicate_weights (n := m) (by omega)
    refine expect_eq_of_outcomes (drawSize_proper _) fun x hx => ?_
    obtain ⟨s, rfl, -⟩ := (outcome_drawSize hm x).mp hx
    refine expect_eq_of_outcomes (choices_proper _ _) fun y hy => ?_
    obtain ⟨l, rfl, -⟩ := (outcome_choices w1 w2 s y).mp hy
    simp [okVal, has, h]

/-- Head and tail of one rule are independent. -/
theorem expect_rule {nf nl : ℕ} (hf : 2 < nf) (hl : 2 < nl) (g1 g2 : List ℕ → ℚ) :
    (drawDiverseRule nf nl).expect (okVal fun rule => g1 rule.1 * g2 rule.2) =
      (drawSize nf).expect (okVal fun s => (choices (List.replicate nf 1) s).expect (okVal fun l => g1 l.dedup)) *
      (drawSize nl).expect (okVal fun s => (choices (List.replicate nl 1) s).expect (okVal fun l => g2 l.dedup)) := by
  obtain ⟨f1, f2⟩ := replicate_weights (n := nf) (by omega)
  obtain ⟨l1, l2⟩ := replicate_weights (n := nl) (by omega)
  simp only [drawDiverseRule, monad_bind, monad_pure]
  rw [expect_bind, mul_comm, ← expect_smul]
  refine expect_congr (fun x hx => ?_) (drawSize_proper _)
  obtain ⟨s, rfl, -⟩ := (outcome_drawSize hf x).mp hx
  simp only [cont, okVal]
  rw [expect_bind, mul_comm, ← expect_smul]
  refine expect_congr (fun x hx => ?_) (drawSize_proper _)
  obtain ⟨u, rfl, -⟩ := (outcome_drawSize hl x).mp hx
  simp only [cont, okVal]
  rw [expect_bind, mul_comm, ← expect_smul]
  refine expect_congr (fun x hx => ?_) (choices_proper _ _)
  obtain ⟨hd, rfl, -⟩ := (outcome_choices f1 f2 s x).mp hx
  simp only [cont, okVal]
  rw [expect_bind, mul_comm, ← expect_smul]
  refine expect_congr (fun x hx => ?_) (choices_proper _ _)
  obtain ⟨tl, rfl, -⟩ := (outcome_choices l1 l2 u x).mp hx
  simp only [cont, okVal, expect_done]

theorem expect_round {n nf nl t s : ℕ} (ht : t ≤ n) (hs : 0 < s) {rules : List GenRule} {C : List (List ℕ)} {F L : Matrix}
    (h : Clean n nf nl t s rules C F L) {rule : GenRule} (h1 : ∀ c ∈ rule.1, c < nf) (h2 : ∀ c ∈ rule.2, c < nl)
    {pool : List ℕ} (hp : pool.Nodup) (hp' : ∀ r ∈ pool, r < t) (hp2 : s - 1 ≤ pool.length) {β : Type}
    (k : Matrix → Matrix → List ℕ → Rand β) (f : Py β → ℚ) (c : ℚ)
    (hk : ∀ F' L' rows, Clean n nf nl t s (rules ++ [rule]) (C ++ [rows]) F' L' → rows.Nodup → rows.length < s →
      (∀ r ∈ rows, r ∈ pool) → (k F' L' rows).expect f = c) :
    ((uniformIdx s).bind fun size => (sample pool size).bind fun covered =>
      (Rand.done (mark F covered rule.1)).bind fun F => (Rand.done (mark L covered rule.2)).bind fun L =>
        k F L covered).expect f = c := by
  rw [expect_bind]
  refine expect_eq_of_outcomes (uniformIdx_proper _) fun x hx => ?_
  obtain ⟨size, hlt, rfl⟩ := (outcome_uniformIdx hs.ne' x).mp hx
  simp only [cont]
  rw [expect_bind]
  refine expect_eq_of_outcomes (sample_proper _ _) fun x hx => ?_
  obtain ⟨rows, rfl, r1, r2, r3⟩ := (outcome_sample size pool hp (by omega) x).mp hx
  simp only [cont]
  obtain ⟨F', L', e1, e2, hc⟩ := h.snoc ht h1 h2 r2 (by omega) (fun r hr => hp' r (r3 r hr))
  rw [e1, bind_done_ok, e2, bind_done_ok]
  exact hk F' L' rows hc r2 (by omega) r3

/-- The rules of the loop are independent and all drawn alike. -/
theorem expect_diverseLoop {n nf nl R : ℕ} (hf : 2 < nf) (hl : 2 < nl) (hR : 0 < n / R) (g : ℕ → GenRule → ℚ) :
    ∀ (k : ℕ) (F L : Matrix) (left : List ℕ) (rules : List GenRule) (C : List (List ℕ)),
    rules.length + k = R → Clean n nf nl n (n / R) rules C F L → Left n (n / R) C left →
    (diverseLoop n nf nl R k F L left rules).expect (okVal fun r => ∏ j ∈ Finset.range R, g j (r.2.2.getD j ([], []))) =
      (∏ j ∈ Finset.range rules.length, g j (rules.getD j ([], []))) *
        ∏ j ∈ Finset.Ico rules.length R, (drawDiverseRule nf nl).expect (okVal (g j))
  | 0, F, L, left, rules, C, hk, hc, hleft => by
    rw [Nat.add_zero] at hk
    simp only [diverseLoop, monad_pure, expect_done, okVal]
    rw [hk]
    simp
  | k + 1, F, L, left, rules, C, hk, hc, hleft => by
    simp only [diverseLoop, monad_bind, Rand.lift]
    have hsplit : ∏ j ∈ Finset.Ico rules.length R, (drawDiverseRule nf nl).expect (okVal (g j)) =
        (drawDiverseRule nf nl).expect (okVal (g rules.length)) *
          ∏ j ∈ Finset.Ico (rules.length + 1) R, (drawDiverseRule nf nl).expect (okVal (g j)) :=
      Finset.prod_eq_prod_Ico_succ_bot (by omega) _
    rw [expect_bind, hsplit, mul_comm ((drawDiverseRule nf nl).expect _), ← mul_assoc, ← expect_smul]
    refine expect_congr (fun x hx => ?_) (drawDiverseRule_proper _ _)
    obtain ⟨rule, rfl, r1, r2⟩ := outcome_drawDiverseRule hf hl hx
    simp only [cont, okVal]
    refine expect_round (le_refl n) hR hc r1.2.2.2 r2.2.2.2 hleft.nodup hleft.lt
      (hleft.enough (R := R) (by rw [hc.covers.1]; omega) (Nat.div_mul_le_self n R))
      (fun F L covered => diverseLoop n nf nl R k F L (left.filter (· ∉ covered)) (rules ++ [rule])) _ _ ?_
    intro F' L' rows hc' g1 g2 g3
    refine (expect_diverseLoop hf hl hR g k F' L' _ (rules ++ [rule]) (C ++ [rows]) (by simp; omega) hc'
      (hleft.snoc g1 g2 g3)).trans ?_
    rw [List.length_append, List.length_singleton, Finset.prod_range_succ,
      List.getD_append_right _ _ _ _ (le_refl _)]
    have : ∏ j ∈ Finset.range rules.length, g j ((rules ++ [rule]).getD j ([], [])) =
        ∏ j ∈ Finset.range rules.length, g j (rules.getD j ([], [])) :=
      Finset.prod_congr rfl fun j hj => by rw [List.getD_append _ _ _ _ (Finset.mem_range.mp hj)]
    rw [this]
    simp only [Nat.sub_self, List.getD_cons_zero]
    ring

theorem diverseTest_proper (t R : ℕ) : ∀ rules F L left, (diverseTest t R rules F L left).Proper
  | [], _, _, _ => trivial
  | _ :: rules, _, _, _ => proper_bind _ _ (uniformIdx_proper _) fun _ => proper_bind _ _ (sample_proper _ _) fun _ =>
      proper_bind _ _ trivial fun _ => proper_bind _ _ trivial fun _ => diverseTest_proper t R rules _ _ _

theorem diverseLoop_proper (n nf nl R : ℕ) : ∀ k F L left rules, (diverseLoop n nf nl R k F L left rules).Proper
  | 0, _, _, _, _ => trivial
  | k + 1, _, _, _, _ => proper_bind _ _ (drawDiverseRule_proper _ _) fun _ =>
      proper_bind _ _ (uniformIdx_proper _) fun _ => proper_bind _ _ (sample_proper _ _) fun _ =>
      proper_bind _ _ trivial fun _ => proper_bind _ _ trivial fun _ => diverseLoop_proper n nf nl R k _ _ _ _

/-- **C100.** The halving of weights has no effect: the rules are independent and alike, however often a column
was used by earlier rules. For columns `a j` asked of the heads of the rules in `J`, and `b j` asked of the tails of
the rules in `K`, the probability that all of them are there is a power that does not depend on which columns
are asked for; asking the same column of all rules is as likely to succeed as asking different ones. -/
theorem C100_law {n nf nl R : ℕ} (hf : 2 < nf) (hl : 2 < nl) (hR0 : 0 < R) (hR : 5 * R ≤ 2 * n) (noise : ℚ)
    (J K : Finset ℕ) (hJ : J ⊆ Finset.range R) (hK : K ⊆ Finset.range R) (a b : ℕ → ℕ) (ha : ∀ j ∈ J, a j < nf)
    (hb : ∀ j ∈ K, b j < nl) :
    (diverse n nf nl R noise).expect (fun x => match x with
      | .ok out => if (∀ j ∈ J, a j ∈ (out.rules.getD j ([], [])).1) ∧ (∀ j ∈ K, b j ∈ (out.rules.getD j ([], [])).2)
          then 1 else 0
      | .error _ => 0) = columnProb nf ^ J.card * columnProb nl ^ K.card := by
  have hRn : 0 < n / R := Nat.div_pos (by omega) hR0
  have key := expect_diverseLoop hf hl hRn
    (fun j rule => has (j ∈ J) (a j) rule.1 * has (j ∈ K) (b j) rule.2) R _ _ _ [] [] (by simp)
    (Clean.nil n nf nl n _) (Left.start n _)
  have each : ∀ j, (drawDiverseRule nf nl).expect
        (okVal fun rule => has (j ∈ J) (a j) rule.1 * has (j ∈ K) (b j) rule.2) =
      (if j ∈ J then columnProb nf else 1) * (if j ∈ K then columnProb nl else 1) := by
    intro j
    rw [expect_rule hf hl (fun l => has (j ∈ J) (a j) l) (fun l => has (j ∈ K) (b j) l),
      ← expect_has hf (j ∈ J) (ha j), ← expect_has hl (j ∈ K) (hb j)]
    simp only [has, List.mem_dedup]
  simp only [each, List.length_nil, Finset.range_zero, Finset.prod_empty, one_mul] at key
  have hpow : ∀ (S : Finset ℕ) (q : ℚ), S ⊆ Finset.range R →
      ∏ j ∈ Finset.Ico 0 R, (if j ∈ S then q else 1) = q ^ S.card := by
    intro S q hS
    rw [Finset.prod_ite, Finset.prod_const_one, mul_one, Finset.prod_const]
    congr 2
    ext j
    rw [Finset.mem_filter]
    constructor
    · exact fun h => h.2
    · intro h
      have := Finset.mem_range.mp (hS h)
      exact ⟨by simp; omega, h⟩
  rw [Finset.prod_mul_distrib, hpow J _ hJ, hpow K _ hK] at key
  rw [← key]
  simp only [diverse, monad_bind, monad_pure]
  rw [expect_bind]
  refine expect_congr (fun x hx => ?_) (diverseLoop_proper _ _ _ _ _ _ _ _ _)
  obtain ⟨F, L, rules, C, rfl, hlen, hcols, hclean, hdis⟩ := outcome_diverseLoop hf hl hRn R _ _ _ [] []
      (by simp) (by simp) (Clean.nil n nf nl n _) (Left.start n _) x hx
  simp only [cont]
  have hind : okVal (fun r : Matrix × Matrix × List GenRule => ∏ j ∈ Finset.range R,
        (has (j ∈ J) (a j) (r.2.2.getD j ([], [])).1 * has (j ∈ K) (b j) (r.2.2.getD j ([], [])).2)) (.ok (F, L, rules)) =
      if (∀ j ∈ J, a j ∈ (rules.getD j ([], [])).1) ∧ (∀ j ∈ K, b j ∈ (rules.getD j ([], [])).2) then 1 else 0 := by
    simp only [okVal]
    by_cases hall : (∀ j ∈ J, a j ∈ (rules.getD j ([], [])).1) ∧ (∀ j ∈ K, b j ∈ (rules.getD j ([], [])).2)
    · rw [if_pos hall]
      refine Finset.prod_eq_one fun j _ => ?_
      rw [has, has, if_pos (hall.1 j), if_pos (hall.2 j), one_mul]
    · rw [if_neg hall]
      rw [not_and_or] at hall
      push_neg at hall
      rcases hall with ⟨j, hj, hn⟩ | ⟨j, hj, hn⟩
      · refine Finset.prod_eq_zero (hJ hj) ?_
        rw [has, if_neg (fun h => hn (h hj)), zero_mul]
      · refine Finset.prod_eq_zero (hK hj) ?_
        rw [has.eq_def (j ∈ K), if_neg (fun h => hn (h hj)), mul_zero]
  rw [hind]
  rw [expect_bind]
  refine expect_eq_of_outcomes (addNoise_proper _ _ _ _) fun x hx => ?_
  obtain ⟨F1, rfl, -⟩ := (outcome_noise noise hclean.features.1 x).mp hx
  simp only [cont]
  rw [expect_bind]
  refine expect_eq_of_outcomes (addNoise_proper _ _ _ _) fun x hx => ?_
  obtain ⟨L1, rfl, -⟩ := (outcome_noise noise hclean.labels.1 x).mp hx
  simp only [cont]
  rw [expect_bind, fifths]
  refine expect_eq_of_outcomes (diverseTest_proper _ _ _ _ _ _) fun x hx => ?_
  obtain ⟨F2, L2, C', rfl, hclean', -⟩ := outcome_diverseTest (n := n) (nf := nf) (nl := nl) (t := 2 * n / 5) (by omega)
    rules _ _ _ [] [] (by simpa using hlen) (fun _ => Nat.div_pos (by omega) hR0)
    (fun rule hr => ⟨(hcols rule hr).1.2.2.2, (hcols rule hr).2.2.2.2⟩)
    (Clean.nil n nf nl _ _) (Left.start _ _) x hx
  simp only [cont]
  rw [expect_bind]
  refine expect_eq_of_outcomes (addNoise_proper _ _ _ _) fun x hx => ?_
  obtain ⟨F3, rfl, -⟩ := (outcome_noise noise hclean'.features.1 x).mp hx
  simp only [cont]
  rw [expect_bind]
  refine expect_eq_of_outcomes (addNoise_proper _ _ _ _) fun x hx => ?_
  obtain ⟨L3, rfl, -⟩ := (outcome_noise noise hclean'.labels.1 x).mp hx
  simp only [cont, expect_done]

end Synthetic

end Verif
