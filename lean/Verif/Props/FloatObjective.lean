/-
C131: the objectives of the learners in double precision.
-/
import Verif.Lemmas.FloatObjective
import Verif.Lemmas.Coverage
import Verif.Props.Greedy

namespace Verif
open Cmp

local notation "u" => (1 / 2 ^ 53 : ℝ)

/-- The distance of two rules in doubles. -/
theorem distF_error {a b : BRule} (ha : a.tail.Nodup) (hb : b.tail.Nodup) :
    (distReal a b = .error .zeroDivisionError ∧ distF a b = .error .zeroDivisionError) ∨
    ∃ d, distReal a b = .ok (areaDist a b) ∧ distF a b = .ok d ∧ 0 ≤ d ∧ d ≤ 1 ∧ |d - areaDist a b| ≤ 2 * u := by
  have hint : ((a.support ∩ b.support).card * (a.tail.toFinset ∩ b.tail.toFinset).card : ℤ)
      = ((area a ∩ area b).card : ℤ) := by
    rw [area_inter, Finset.card_product]; push_cast; rfl
  have hun : (a.support.card * a.tail.length + b.support.card * b.tail.length : ℤ)
      - ((area a ∩ area b).card : ℤ) = ((area a ∪ area b).card : ℤ) := by
    have := Finset.card_union_add_card_inter (area a) (area b)
    rw [card_area a ha, card_area b hb] at this
    have : ((area a ∪ area b).card : ℤ) + ((area a ∩ area b).card : ℤ) =
      a.support.card * a.tail.length + b.support.card * b.tail.length := by exact_mod_cast this
    omega
  by_cases h0 : area a ∪ area b = ∅
  · left
    constructor
    · unfold distReal
      rw [jaccardDistance_eq a b ha hb, if_pos h0]
      rfl
    · unfold distF
      simp only [hint, hun, pyDivF, h0, Finset.card_empty, Nat.cast_zero, if_true]
      rfl
  · right
    have hne : ((area a ∪ area b).card : ℤ) ≠ 0 := by
      simpa [Finset.card_eq_zero] using h0
    have hF : distF a b = .ok (fl (1 - fl (((area a ∩ area b).card : ℝ) / ((area a ∪ area b).card : ℝ)))) := by
      unfold distF
      simp only [hint, hun, pyDivF, if_neg hne]
      rfl
    have hle : ((area a ∩ area b).card : ℝ) / ((area a ∪ area b).card : ℝ) ≤ 1 :=
      div_le_one_of_le₀ (by exact_mod_cast Finset.card_le_card Finset.inter_subset_union) (by positivity)
    have h0' : 0 ≤ ((area a ∩ area b).card : ℝ) / ((area a ∪ area b).card : ℝ) := by positivity
    refine ⟨_, distReal_eq ha hb (Finset.nonempty_iff_ne_empty.mpr h0), hF, ?_⟩
    unfold areaDist
    generalize ((area a ∩ area b).card : ℝ) / ((area a ∪ area b).card : ℝ) = r at *
    have f1 := fl_unit ⟨h0', hle⟩
    have e1 := fl_error r
    have e2 := fl_error (1 - fl r)
    have f2 := fl_unit (x := 1 - fl r) ⟨by linarith [f1.2], by linarith [f1.1]⟩
    refine ⟨f2.1, f2.2, ?_⟩
    rw [abs_of_nonneg h0'] at e1
    rw [abs_of_nonneg (show 0 ≤ 1 - fl r by linarith [f1.2])] at e2
    have k1 : u * r ≤ u := mul_le_of_le_one_right (by positivity) hle
    have k2 : u * (1 - fl r) ≤ u := mul_le_of_le_one_right (by positivity) (by linarith [f1.1])
    rw [abs_le] at e1 e2 ⊢
    constructor <;> linarith [e1.1, e1.2, e2.1, e2.2]

/-- The running sum of distances in doubles. -/
theorem diversityF_aux (r : BRule) (hr : r.tail.Nodup) : ∀ (l : List BRule) (_ : ∀ b ∈ l, b.tail.Nodup)
    (acc accF : ℝ) (n : ℕ), n + l.length < 2 ^ 53 → 0 ≤ accF → accF ≤ n → |accF - acc| ≤ u * (n * (n + 3)) →
    ((∃ e, l.foldlM (fun acc x => do let y ← distReal r x; return acc + y) acc = .error e ∧
        l.foldlM (fun acc x => do let y ← distF r x; return fl (acc + y)) accF = .error e) ∨
      ∃ v vF, l.foldlM (fun acc x => do let y ← distReal r x; return acc + y) acc = Except.ok (ε := PyErr) v ∧
        l.foldlM (fun acc x => do let y ← distF r x; return fl (acc + y)) accF = Except.ok (ε := PyErr) vF ∧
        0 ≤ vF ∧ vF ≤ (n + l.length : ℕ) ∧
        |vF - v| ≤ u * ((n + l.length : ℕ) * ((n + l.length : ℕ) + 3)))
  | [], _, acc, accF, n, _, h0, h1, h2 => by
    right
    exact ⟨acc, accF, rfl, rfl, h0, by simpa using h1, by simpa using h2⟩
  | x :: l, hl, acc, accF, n, hn, h0, h1, h2 => by
    rw [List.length_cons] at hn
    rw [List.foldlM_cons, List.foldlM_cons]
    rcases distF_error hr (hl x (by simp)) with ⟨e1, e2⟩ | ⟨d, e1, e2, d0, d1, de⟩
    · left
      refine ⟨.zeroDivisionError, ?_, ?_⟩
      · rw [e1]; rfl
      · rw [e2]; rfl
    · have hs0 : 0 ≤ accF + d := by linarith
      have hsn : accF + d ≤ ((n + 1 : ℕ) : ℝ) := by push_cast; linarith
      have g1 : fl (accF + d) ≤ ((n + 1 : ℕ) : ℝ) := by
        have := fl_mono hs0 hsn
        rwa [fl_nat (by omega)] at this
      have g2 : |fl (accF + d) - (acc + areaDist r x)| ≤ u * (((n + 1 : ℕ) : ℝ) * (((n + 1 : ℕ) : ℝ) + 3)) := by
        have e := fl_error (accF + d)
        rw [abs_of_nonneg hs0] at e
        have hu : (0 : ℝ) < u := by positivity
        generalize u = v at *
        have e' : v * (accF + d) ≤ v * (n + 1) := mul_le_mul_of_nonneg_left (by push_cast at hsn; exact hsn) hu.le
        rw [abs_le] at e h2 de ⊢
        push_cast
        have hv : 0 ≤ v * (n : ℝ) := by positivity
        constructor <;> nlinarith [e.1, e.2, h2.1, h2.2, de.1, de.2]
      have ih := diversityF_aux r hr l (fun b hb => hl b (by simp [hb])) (acc + areaDist r x) (fl (accF + d)) (n + 1)
        (by omega) (fl_nonneg hs0) g1 g2
      have e3 : n + 1 + l.length = n + (x :: l).length := by rw [List.length_cons]; omega
      rw [e3] at ih
      rw [e1, e2]
      exact ih

theorem diversityF_error {r : BRule} (hr : r.tail.Nodup) {sel : List BRule} (hs : ∀ b ∈ sel, b.tail.Nodup)
    (hn : sel.length < 2 ^ 53) :
    (∃ e, diversityOfRule sel r = .error e ∧ diversityF sel r = .error e) ∨
    ∃ v vF, diversityOfRule sel r = .ok v ∧ diversityF sel r = .ok vF ∧ 0 ≤ vF ∧ vF ≤ sel.length ∧
      |vF - v| ≤ u * (sel.length * (sel.length + 3)) := by
  have := diversityF_aux r hr sel hs 0 0 0 (by omega) le_rfl (by simp) (by simp)
  rw [Nat.zero_add] at this
  exact this

/-- The coefficient of the number of newly covered cells. -/
theorem coef_bound {v L T : ℝ} (hu : 0 ≤ v) (hu1 : v ≤ 1 / 1024) (hT0 : 0 ≤ T) (hvL : v * L ≤ T / 8) :
    v * ((1 + v) * ((1 + v) * (2 * L + 3 * T))) + ((1 + v) * (3 * T) + v * (2 * L) +
      v * ((1 + v) * (2 * L + 3 * T))) ≤ 4 * T := by
  have e : v * ((1 + v) * ((1 + v) * (2 * L + 3 * T))) + ((1 + v) * (3 * T) + v * (2 * L) +
    v * ((1 + v) * (2 * L + 3 * T))) =
    (v * L) * (2 * (1 + v) ^ 2 + 2 + 2 * (1 + v)) + 3 * T * (1 + v) ^ 3 := by ring
  rw [e]
  have s1 : 2 * (1 + v) ^ 2 + 2 + 2 * (1 + v) ≤ 7 := by nlinarith
  have s2 : (1 + v) ^ 3 ≤ 101 / 100 := by
    calc (1 + v) ^ 3 ≤ (1 + 1 / 1024) ^ 3 := pow_le_pow_left₀ (by linarith) (by linarith) 3
      _ ≤ 101 / 100 := by norm_num
  have s3 : (v * L) * (2 * (1 + v) ^ 2 + 2 + 2 * (1 + v)) ≤ T / 8 * 7 :=
    mul_le_mul hvL s1 (by positivity) (by positivity)
  have s4 : 3 * T * (1 + v) ^ 3 ≤ 3 * T * (101 / 100) := mul_le_mul_of_nonneg_left s2 (by positivity)
  linarith

/-- Adding a weighted divergence and a weighted count in doubles. -/
theorem combine_error {w w' c k kF lambd d dF δ D T L : ℝ} (hw : 0 ≤ w) (hwc : w ≤ c) (hw' : |w' - w| ≤ u * w)
    (hT : 8 * u * (L + 5) ≤ T) (hL : 0 ≤ L) (hk : |k| ≤ 2 * L) (hkF : |kF - k| ≤ 3 * T) (hd0 : 0 ≤ dF) (hdD : dF ≤ D)
    (hd : |dF - d| ≤ δ) :
    |fl (fl (w' * kF) + fl (lambd * dF)) - (w * k + lambd * d)| ≤ 4 * c * T + |lambd| * (δ + 3 * u * D) := by
  have hu : (0 : ℝ) < u := by positivity
  have hu1 : u ≤ 1 / 1024 := by norm_num
  have eA := fl_error (w' * kF)
  have eB := fl_error (lambd * dF)
  have eC := fl_error (fl (w' * kF) + fl (lambd * dF))
  generalize fl (w' * kF) = A at *
  generalize fl (lambd * dF) = B at *
  generalize fl (A + B) = C at *
  generalize u = v at *
  have hT0 : 0 ≤ T := by nlinarith
  have hw'1 : |w'| ≤ (1 + v) * w := by
    have := abs_add_le (w' - w) w
    rw [sub_add_cancel, abs_of_nonneg hw] at this
    linarith
  have hkF1 : |kF| ≤ 2 * L + 3 * T := by
    have := abs_add_le (kF - k) k
    rw [sub_add_cancel] at this
    linarith
  have hprod : |w' * kF| ≤ (1 + v) * w * (2 * L + 3 * T) := by
    rw [abs_mul]
    exact mul_le_mul hw'1 hkF1 (abs_nonneg _) (by positivity)
  have hdiff : |w' * kF - w * k| ≤ (1 + v) * w * (3 * T) + v * w * (2 * L) := by
    have : w' * kF - w * k = w' * (kF - k) + (w' - w) * k := by ring
    rw [this]
    refine (abs_add_le _ _).trans ?_
    rw [abs_mul, abs_mul]
    exact add_le_add (mul_le_mul hw'1 hkF (abs_nonneg _) (by positivity))
      (mul_le_mul hw' hk (abs_nonneg _) (by positivity))
  have hA : |A - w * k| ≤ (1 + v) * w * (3 * T) + v * w * (2 * L) + v * ((1 + v) * w * (2 * L + 3 * T)) := by
    have := abs_add_le (A - w' * kF) (w' * kF - w * k)
    rw [sub_add_sub_cancel] at this
    have k2 := mul_le_mul_of_nonneg_left hprod hu.le
    linarith
  have hAs : |A| ≤ (1 + v) * ((1 + v) * w * (2 * L + 3 * T)) := by
    have := abs_add_le (A - w' * kF) (w' * kF)
    rw [sub_add_cancel] at this
    have k2 := mul_le_mul_of_nonneg_left hprod hu.le
    linarith
  have hD : 0 ≤ D := hd0.trans hdD
  have hld : |lambd * dF| ≤ |lambd| * D := by
    rw [abs_mul, abs_of_nonneg hd0]
    exact mul_le_mul_of_nonneg_left hdD (abs_nonneg _)
  have hB : |B - lambd * d| ≤ |lambd| * δ + v * (|lambd| * D) := by
    have := abs_add_le (B - lambd * dF) (lambd * dF - lambd * d)
    rw [sub_add_sub_cancel, ← mul_sub, abs_mul lambd (dF - d)] at this
    have k1 := mul_le_mul_of_nonneg_left hd (abs_nonneg lambd)
    have k2 := mul_le_mul_of_nonneg_left hld hu.le
    linarith
  have hBs : |B| ≤ (1 + v) * (|lambd| * D) := by
    have := abs_add_le (B - lambd * dF) (lambd * dF)
    rw [sub_add_cancel] at this
    have k2 := mul_le_mul_of_nonneg_left hld hu.le
    linarith
  have hC : |C - (w * k + lambd * d)| ≤ v * (|A| + |B|) + |A - w * k| + |B - lambd * d| := by
    have h1 := abs_add_le (C - (A + B)) ((A - w * k) + (B - lambd * d))
    have h2 := abs_add_le (A - w * k) (B - lambd * d)
    have h3 := mul_le_mul_of_nonneg_left (abs_add_le A B) hu.le
    have e : C - (A + B) + ((A - w * k) + (B - lambd * d)) = C - (w * k + lambd * d) := by ring
    rw [e] at h1
    linarith
  have hlD : 0 ≤ |lambd| * D := by positivity
  have k1 := mul_le_mul_of_nonneg_left hAs hu.le
  have k2 := mul_le_mul_of_nonneg_left hBs hu.le
  have hvL : v * L ≤ T / 8 := by nlinarith
  have hcoef := coef_bound hu.le hu1 hT0 hvL
  have hw4 := mul_le_mul_of_nonneg_left hcoef hw
  have hwT : w * (4 * T) ≤ 4 * c * T := by nlinarith
  have hvD : v * ((1 + v) * (|lambd| * D)) ≤ 2 * v * (|lambd| * D) := by
    have e : v * ((1 + v) * (|lambd| * D)) = (1 + v) * (v * (|lambd| * D)) := by ring
    rw [e, mul_assoc]
    exact mul_le_mul_of_nonneg_right (by linarith) (mul_nonneg hu.le hlD)
  have e1 : w * (v * ((1 + v) * ((1 + v) * (2 * L + 3 * T))) + ((1 + v) * (3 * T) + v * (2 * L) +
      v * ((1 + v) * (2 * L + 3 * T)))) = v * ((1 + v) * ((1 + v) * w * (2 * L + 3 * T))) +
      ((1 + v) * w * (3 * T) + v * w * (2 * L) + v * ((1 + v) * w * (2 * L + 3 * T))) := by ring
  rw [e1] at hw4
  have e2 : |lambd| * (δ + 3 * v * D) = |lambd| * δ + v * (|lambd| * D) + 2 * v * (|lambd| * D) := by ring
  rw [e2]
  linarith

theorem slack_base {ε : ℝ} (hε : 0 ≤ ε) (N : ℕ) :
    8 * u * (Real.log N + 5) ≤ (ε + ((N : ℝ) + 8) / 2 ^ 53) * (Real.log N + 5) := by
  have hL : 0 ≤ Real.log N := Real.log_natCast_nonneg N
  refine mul_le_mul_of_nonneg_right ?_ (by linarith)
  have : (0 : ℝ) ≤ N := Nat.cast_nonneg N
  have e : ε + ((N : ℝ) + 8) / 2 ^ 53 = ε + N * u + 8 * u := by ring
  rw [e]
  have : 0 ≤ (N : ℝ) * u := by positivity
  linarith

theorem objectiveSlack_mono {ε lambd : ℝ} (hε : 0 ≤ ε) (N : ℕ) {c c' k k' : ℕ} (h : c ≤ c') (hk : k ≤ k') :
    objectiveSlack ε lambd N c k ≤ objectiveSlack ε lambd N c' k' := by
  have hL : 0 ≤ Real.log N := Real.log_natCast_nonneg N
  have hc : (c : ℝ) ≤ c' := by exact_mod_cast h
  have hkr : (k : ℝ) ≤ k' := by exact_mod_cast hk
  unfold objectiveSlack
  gcongr

theorem submodSlack_mono {ε lambd : ℝ} (N : ℕ) {c c' : ℕ} (h : c ≤ c') :
    submodSlack ε lambd N c ≤ submodSlack ε lambd N c' := by
  have hc : (c : ℝ) ≤ c' := by exact_mod_cast h
  unfold submodSlack
  gcongr

/-- **C131** The divergence of a bound rule, computed in doubles, is close to the exact one. -/
theorem C131_divergence {ε : ℝ} {rel : ℝ → ℝ → ℝ} (hrel : RelEntrAccurate ε rel) (hε : 0 ≤ ε) (X Y : Cmp)
    (hn : X.nMajor = Y.nMajor) (hN : X.nMajor < 2 ^ 26) (b : BRule) (hb : BoundTo X Y b) :
    ∃ k kF : ℝ, b.KL = .ok (k : EReal) ∧ b.klF rel = .ok kF ∧ |kF - k| ≤ klSlack ε X.nMajor := by
  obtain ⟨k, kF, -, h2, h3, h4, -⟩ := klF_error hrel hε hn hN hb
  exact ⟨k, kF, h2, h3, h4⟩

/-- **C131** The objectives of the learners in doubles: they raise an exception exactly when the exact
objective does, and otherwise are close to it. -/
theorem C131_objective {ε : ℝ} {rel : ℝ → ℝ → ℝ} (hrel : RelEntrAccurate ε rel) (hε : 0 ≤ ε) (X Y : Cmp)
    (hn : X.nMajor = Y.nMajor) (hN : X.nMajor < 2 ^ 26) (lambd : ℝ) (sel : List BRule)
    (hs : ∀ s ∈ sel, BoundTo X Y s) (hlen : sel.length < 2 ^ 53) (b : BRule) (hb : BoundTo X Y b) :
    Within (objectiveSlack ε lambd X.nMajor (area b \ covered sel).card sel.length)
      (objectiveOfRule qualityOfRule lambd sel b) (objectiveF (qualityF rel) lambd sel b) ∧
    Within (objectiveSlack ε lambd X.nMajor (area b \ covered sel).card sel.length)
      (objectiveOfRule qualityOfRuleV3 lambd sel b) (objectiveF (qualityV3F rel) lambd sel b) ∧
    Within (submodSlack ε lambd X.nMajor (area b \ covered sel).card)
      (objectiveSubmod lambd sel b) (objectiveSubmodF rel lambd sel b) := by
  obtain ⟨k, kF, h1, -, h3, h4, h5⟩ := klF_error hrel hε hn hN hb
  have hL : 0 ≤ Real.log X.nMajor := Real.log_natCast_nonneg _
  have hT := slack_base hε X.nMajor
  have hkF : |kF - k| ≤ 3 * ((ε + ((X.nMajor : ℝ) + 8) / 2 ^ 53) * (Real.log X.nMajor + 5)) := by
    rw [← mul_assoc]; exact h4
  rw [← marginalCoverage_eq]
  generalize hc : b.marginalCoverage sel = c
  have hqe : (4 * (c : ℝ) * (ε + ((X.nMajor : ℝ) + 8) / 2 ^ 53) * (Real.log X.nMajor + 5)) =
    4 * c * ((ε + ((X.nMajor : ℝ) + 8) / 2 ^ 53) * (Real.log X.nMajor + 5)) := by ring
  have main : ∀ (quality qualityR : List BRule → BRule → Py ℝ) (w w' : ℝ), 0 ≤ w → w ≤ c → |w' - w| ≤ u * w →
      quality sel b = .ok (w * k) → qualityR sel b = .ok (fl (w' * kF)) →
      Within (objectiveSlack ε lambd X.nMajor c sel.length)
        (objectiveOfRule quality lambd sel b) (objectiveF qualityR lambd sel b) := by
    intro quality qualityR w w' hw hwc hw' hq hqR
    unfold objectiveOfRule objectiveF
    rw [hq, hqR]
    rcases diversityF_error hb.2.2 (fun s h => (hs s h).2.2) hlen with ⟨e, e1, e2⟩ | ⟨v, vF, e1, e2, e3, e4, e5⟩
    · left
      rw [e1, e2]
      exact ⟨e, rfl, rfl⟩
    · right
      rw [e1, e2]
      refine ⟨_, _, rfl, rfl, ?_⟩
      have := combine_error (lambd := lambd) hw hwc hw' hT hL h5 hkF e3 e4 e5
      unfold objectiveSlack
      rw [hqe]
      refine this.trans (le_of_eq ?_)
      ring
  have hc0 : (0 : ℝ) ≤ c := Nat.cast_nonneg c
  refine ⟨main _ _ c c hc0 le_rfl (by rw [sub_self, abs_zero]; positivity) ?_ ?_,
    main _ _ (Real.sqrt c) (fl (Real.sqrt c)) (Real.sqrt_nonneg _) ?_ ?_ ?_ ?_, ?_⟩
  · unfold qualityOfRule; rw [h1, hc]; rfl
  · unfold qualityF; rw [h3, hc]; rfl
  · rcases Nat.eq_zero_or_pos c with h | h
    · rw [h]; simp
    · rw [Real.sqrt_le_left hc0]
      have : (1 : ℝ) ≤ c := by exact_mod_cast h
      nlinarith
  · have := fl_error (Real.sqrt c)
    rwa [abs_of_nonneg (Real.sqrt_nonneg _)] at this
  · unfold qualityOfRuleV3; rw [h1, hc]; rfl
  · unfold qualityV3F; rw [h3, hc]; rfl
  · right
    unfold objectiveSubmod objectiveSubmodF
    rw [h1, h3, hc]
    refine ⟨_, _, rfl, rfl, ?_⟩
    generalize hw : (if c > 0 then (1 : ℝ) else 0) = w
    have hw0 : 0 ≤ w := by rw [← hw]; split <;> norm_num
    have hw1 : w ≤ 1 := by rw [← hw]; split <;> norm_num
    have := combine_error (lambd := lambd) (w' := w) (d := c) (dF := c) (δ := 0) (D := c) hw0 hw1
      (by rw [sub_self, abs_zero]; positivity) hT hL h5 hkF hc0 le_rfl (by simp)
    unfold submodSlack
    refine this.trans (le_of_eq ?_)
    ring

/-- A greedy choice for an approximate objective is nearly a greedy choice for the exact one. -/
theorem near_of_within {δ : ℝ} {obj objR : List BRule → BRule → Py ℝ} {sel batch : List BRule} {best : BRule}
    (h : GreedyChoice objR sel batch best) (hw : ∀ c ∈ batch, Within δ (obj sel c) (objR sel c)) :
    NearGreedyChoice (2 * δ) obj sel batch best := by
  obtain ⟨hm, v, hv, hmax⟩ := h
  refine ⟨hm, ?_⟩
  rcases hw best hm with ⟨e, -, e2⟩ | ⟨x, xF, e1, e2, e3⟩
  · rw [hv] at e2; cases e2
  rw [hv] at e2; cases e2
  refine ⟨x, e1, fun c hc => ?_⟩
  obtain ⟨vc, hvc, hle⟩ := hmax c hc
  rcases hw c hc with ⟨e, -, e2⟩ | ⟨y, yF, f1, f2, f3⟩
  · rw [hvc] at e2; cases e2
  rw [hvc] at f2; cases f2
  refine ⟨y, f1, ?_⟩
  rw [abs_le] at e3 f3
  linarith [e3.1, e3.2, f3.1, f3.2]

theorem new_cells_le {X Y : Cmp} (hX : X.WF) (hY : Y.Binary) (hn : X.nMajor = Y.nMajor) {b : BRule}
    (hb : BoundTo X Y b) (sel : List BRule) : (area b \ covered sel).card ≤ Y.nnz :=
  card_labelCells hY ▸ Finset.card_le_card (Finset.sdiff_subset.trans (hb.area_subset hX hY.toWF hn))

/-- **C131** In every completed run of a learner whose objective is computed in doubles, each selected rule belongs to
the batch generated at its turn, and no rule of the batch has an exact objective that is better by more than
twice the error bound; it did not meet the stopping test. -/
theorem C131_fit {ε : ℝ} {rel : ℝ → ℝ → ℝ} (hrel : RelEntrAccurate ε rel) (hε : 0 ≤ ε) {σ ω : Type}
    (S : Samplers σ ω) (hS : TailsAreLabelSets S) (p : Params) (X Y : Cmp) (hX : X.WF) (hY : Y.Binary)
    (hn : X.nMajor = Y.nMajor) (hN : X.nMajor < 2 ^ 26) (lr lrF : Learner) (slack : ℕ → ℝ)
    (hlr : RoundedLearner rel ε p X Y lr lrF slack) (ws : ℕ → ℕ → ω) (fuel : ℕ) (st : LoopState σ)
    (hlen : st.selected.length ≤ 2 ^ 53) (h : runFit S p lrF X Y [] ws fuel = some (.ok st)) :
    ∃ s0, S.tailFit Y = .ok s0 ∧ ∀ i (hi : i < st.selected.length), ∃ s batch,
      samplerAfter S s0 (st.selected.take i) = .ok s ∧
      generateCandidates S p X X.flip Y.flip s (ws i) = .ok batch ∧
      NearGreedyChoice (slack i) lr.objective (st.selected.take i) batch st.selected[i] ∧
      lr.stop (st.selected.take i) st.selected[i] = .ok false := by
  obtain ⟨s0, hs0, htr⟩ := C24_greedy_trace S p X Y lrF ws fuel st h
  refine ⟨s0, hs0, fun i hi => ?_⟩
  have hsel : ∀ b ∈ st.selected, BoundTo X Y b := by
    intro b hb
    obtain ⟨j, hj, rfl⟩ := List.getElem_of_mem hb
    obtain ⟨s, batch, -, g2, g3, -⟩ := htr j hj
    exact generate_bound hS g2 _ g3.1
  obtain ⟨s, batch, g1, g2, g3, g4⟩ := htr i hi
  have hbatch := generate_bound hS g2
  have htl : (st.selected.take i).length = i := by simp [hi.le]
  have hob := fun c (hc : c ∈ batch) => C131_objective hrel hε X Y hn hN p.lambd (st.selected.take i)
    (fun b hb => hsel b (List.mem_of_mem_take hb)) (by omega) c (hbatch c hc)
  have hmon : ∀ {δ δ' : ℝ} {x y : Py ℝ}, δ ≤ δ' → Within δ x y → Within δ' x y := by
    rintro δ δ' x y hd (h | ⟨v, w, e1, e2, e3⟩)
    · exact Or.inl h
    · exact Or.inr ⟨v, w, e1, e2, e3.trans hd⟩
  rw [htl] at hob
  refine ⟨s, batch, g1, g2, ?_⟩
  rcases hlr with ⟨rfl, rfl, rfl⟩ | ⟨rfl, rfl, rfl⟩ | ⟨rfl, rfl, rfl⟩ | ⟨rfl, rfl, rfl⟩
  · exact ⟨near_of_within g3 fun c hc => hmon (objectiveSlack_mono hε _
      (new_cells_le hX hY hn (hbatch c hc) _) le_rfl) (hob c hc).1, g4⟩
  · exact ⟨near_of_within g3 fun c hc => hmon (objectiveSlack_mono hε _
      (new_cells_le hX hY hn (hbatch c hc) _) le_rfl) (hob c hc).1, g4⟩
  · exact ⟨near_of_within g3 fun c hc => hmon (objectiveSlack_mono hε _
      (new_cells_le hX hY hn (hbatch c hc) _) le_rfl) (hob c hc).2.1, g4⟩
  · exact ⟨near_of_within g3 fun c hc => hmon (submodSlack_mono _
      (new_cells_le hX hY hn (hbatch c hc) _)) (hob c hc).2.2, g4⟩

/-- **C131** The guarantee of the second round in doubles: it falls short of the guarantee of the exact second round
(C30) by at most the number of rules times twice the error bound. -/
theorem C131_second_round {ε : ℝ} {rel : ℝ → ℝ → ℝ} (hrel : RelEntrAccurate ε rel) (hε : 0 ≤ ε) {σ ω : Type}
    (S : Samplers σ ω) (p : Params) (X Y : Cmp) (hX : X.WF) (hY : Y.Binary)
    (hn : X.nMajor = Y.nMajor) (hN : X.nMajor < 2 ^ 26) (pool : List BRule) (hb : ∀ b ∈ pool, BoundTo X Y b) (k : ℕ)
    (hk : k ≤ 2 ^ 53) (G : List BRule) (h : secondRoundF S rel p pool k = .ok G) (hl : 0 ≤ p.lambd) (kl : BRule → ℝ)
    (hkl : ∀ r ∈ pool, r.KL = .ok (kl r : EReal)) (O : List BRule) (hO : O.length = k)
    (hOp : ∀ o ∈ O, o ∈ pool) (κ : ℝ) (hκ : 0 ≤ κ) (hκO : ∀ o ∈ O, κ ≤ kl o) :
    G.length = k ∧ (∀ r ∈ G, r ∈ pool) ∧
    κ * (covered O).card + p.lambd * diversity O / 2 ≤
      (∑ i ∈ Finset.range k, if h : i < G.length then
        kl G[i] * ((area G[i]) \ covered (G.take i)).card else 0)
      + κ * (covered G).card + p.lambd * diversity G
      + k * (2 * objectiveSlack ε p.lambd X.nMajor Y.nnz k) := by
  unfold secondRoundF at h
  split at h
  · cases h
  obtain ⟨hlen, -, hgr⟩ := pickLoop_ok h
  simp only [List.length_nil, Nat.zero_add, Nat.zero_le, true_implies] at hlen hgr
  have hGp : ∀ r ∈ G, r ∈ pool := by
    intro r hr
    obtain ⟨j, hj, rfl⟩ := List.getElem_of_mem hr
    exact (hgr j hj).1
  refine ⟨hlen, hGp, ?_⟩
  simp only [← marginalCoverage_eq]
  apply greedy_approx_slack _ pool G O k hlen hO hOp p.lambd κ hl hκ kl hκO
  intro i hi c hc
  have hsel : ∀ b ∈ G.take i, BoundTo X Y b := fun b hb' => hb b (hGp b (List.mem_of_mem_take hb'))
  have hnd : ∀ b ∈ G.take i, b.tail.Nodup := fun b hb' => (hsel b hb').2.2
  have htl : (G.take i).length = i := by simp [hi.le]
  have hnear := near_of_within (hgr i hi) fun d hd =>
    (C131_objective hrel hε X Y hn hN p.lambd (G.take i) hsel (by omega) d (hb d hd)).1.elim
      (fun h => Or.inl h) (fun ⟨v, w, e1, e2, e3⟩ => Or.inr ⟨v, w, e1, e2, e3.trans
        (objectiveSlack_mono hε _ (new_cells_le hX hY hn (hb d hd) _) (show _ ≤ k by omega))⟩)
  obtain ⟨hmem, v, hv, hmax⟩ := hnear
  obtain ⟨vc, hvc, hle⟩ := hmax c hc
  obtain ⟨q, hq, hve⟩ := objectiveOfRule_ok hnd (hb _ hmem).2.2 hv
  obtain ⟨qc, hqc, hvce⟩ := objectiveOfRule_ok hnd (hb _ hc).2.2 hvc
  have hqual : ∀ r ∈ pool, qualityOfRule (G.take i) r = .ok ((r.marginalCoverage (G.take i) : ℝ) * kl r) := by
    intro r hr
    simp [qualityOfRule, BRule.klReal, hkl r hr, bind, Except.bind, pure, Except.pure]
  rw [hqual _ hmem] at hq
  rw [hqual _ hc] at hqc
  cases hq; cases hqc
  rw [hve, hvce] at hle
  linarith

/-- `x * log(x / y)` in doubles with a correctly rounded logarithm. -/
noncomputable def roundedRelEntr (x y : ℝ) : ℝ := fl (x * fl (Real.log (fl (x / y))))

/-- **C131** The assumption on `rel_entr` holds with an error of 2⁻⁵¹ when each operation is correctly rounded. -/
theorem C131_accurate : RelEntrAccurate (1 / 2 ^ 51) roundedRelEntr where
  zero y _ := by simp [roundedRelEntr, fl_zero]
  close x y hx hx1 hy := by
    unfold roundedRelEntr
    have ht : 0 < x / y := by positivity
    have e1 := fl_error (x / y)
    rw [abs_of_pos ht] at e1
    have e2 := fl_error (Real.log (fl (x / y)))
    have e3 := fl_error (x * fl (Real.log (fl (x / y))))
    have hlog : |Real.log (fl (x / y)) - Real.log (x / y)| ≤ 2 * u := by
      have hpos : 0 < fl (x / y) := by
        have hu1 : u ≤ 1 / 1024 := by norm_num
        rw [abs_le] at e1
        nlinarith [e1.1]
      rw [← Real.log_div hpos.ne' ht.ne']
      have : fl (x / y) / (x / y) = 1 + (fl (x / y) - x / y) / (x / y) := by rw [sub_div, div_self ht.ne']; ring
      rw [this]
      refine abs_log_one_add ?_ (by norm_num)
      rw [abs_div, abs_of_pos ht, div_le_iff₀ ht]
      exact e1
    generalize Real.log (x / y) = l at *
    generalize Real.log (fl (x / y)) = l' at *
    generalize fl l' = m at *
    generalize fl (x * m) = r at *
    have hu : (0 : ℝ) < u := by positivity
    have hu1 : u ≤ 1 / 1024 := by norm_num
    have e4 : (1 / 2 ^ 51 : ℝ) = 4 * u := by norm_num
    rw [e4]
    generalize u = v at *
    have hl' : |l'| ≤ |l| + 2 * v := by
      have := abs_add_le (l' - l) l
      rw [sub_add_cancel] at this
      linarith
    have hm : |m - l| ≤ 2 * v + v * (|l| + 2 * v) := by
      have := abs_add_le (m - l') (l' - l)
      rw [sub_add_sub_cancel] at this
      have := mul_le_mul_of_nonneg_left hl' hu.le
      linarith
    have hxm : |x * m - x * l| ≤ 3 * v + v * |x * l| := by
      rw [← mul_sub, abs_mul, abs_mul, abs_of_pos hx]
      have := mul_le_mul_of_nonneg_left hm hx.le
      have e : x * (2 * v + v * (|l| + 2 * v)) = x * (2 * v + 2 * v ^ 2) + v * (x * |l|) := by ring
      have k2 : x * (2 * v + 2 * v ^ 2) ≤ 1 * (2 * v + 2 * v ^ 2) := mul_le_mul_of_nonneg_right hx1 (by positivity)
      have k3 : 2 * v ^ 2 ≤ v := by nlinarith
      linarith
    have hxms : |x * m| ≤ 3 * v + v * |x * l| + |x * l| := by
      have := abs_add_le (x * m - x * l) (x * l)
      rw [sub_add_cancel] at this
      linarith
    have := abs_add_le (r - x * m) (x * m - x * l)
    rw [sub_add_sub_cancel] at this
    have k := mul_le_mul_of_nonneg_left hxms hu.le
    have h0 := abs_nonneg (x * l)
    generalize |x * l| = w at *
    have e : v * (3 * v + v * w + w) = 3 * v * v + v * (v * w) + v * w := by ring
    have hvw : 0 ≤ v * w := mul_nonneg hu.le h0
    have k1 : 3 * v * v ≤ v := by nlinarith
    have k2 : v * (v * w) ≤ v * w := by nlinarith
    have e5 : 4 * v * (1 + w) = 4 * v + 4 * (v * w) := by ring
    linarith

/-- **C131** The size of the bound for a correctly rounded `rel_entr`: on data with at most 2¹⁴ rows and at most 2¹⁴ label
occurrences, with at most 2⁷ rules and a weight of at most one, the objective is wrong by at most 2⁻¹⁸. -/
theorem C131_size (lambd : ℝ) (N c k : ℕ) (hl : |lambd| ≤ 1) (hN : N ≤ 2 ^ 14) (hc : c ≤ 2 ^ 14) (hk : k ≤ 2 ^ 7) :
    objectiveSlack (1 / 2 ^ 51) lambd N c k ≤ 1 / 2 ^ 18 := by
  have hNr : (N : ℝ) ≤ 2 ^ 14 := by exact_mod_cast hN
  have hcr : (c : ℝ) ≤ 2 ^ 14 := by exact_mod_cast hc
  have hkr : (k : ℝ) ≤ 2 ^ 7 := by exact_mod_cast hk
  have hL0 : 0 ≤ Real.log N := Real.log_natCast_nonneg N
  have hL : Real.log N ≤ 14 := by
    rcases Nat.eq_zero_or_pos N with rfl | h
    · simp
    · have h1 : Real.log N ≤ Real.log (2 ^ 14) := Real.log_le_log (by exact_mod_cast h) hNr
      rw [Real.log_pow] at h1
      have := Real.log_le_sub_one_of_pos (show (0:ℝ) < 2 by norm_num)
      push_cast at h1
      linarith
  have hc0 : (0 : ℝ) ≤ c := Nat.cast_nonneg c
  unfold objectiveSlack
  calc 4 * (c : ℝ) * (1 / 2 ^ 51 + ((N : ℝ) + 8) / 2 ^ 53) * (Real.log N + 5) + |lambd| * (k * (k + 6)) / 2 ^ 53
      ≤ 4 * 2 ^ 14 * (1 / 2 ^ 51 + ((2 : ℝ) ^ 14 + 8) / 2 ^ 53) * (14 + 5) + 1 * (2 ^ 7 * (2 ^ 7 + 6)) / 2 ^ 53 := by
        gcongr
    _ ≤ 1 / 2 ^ 18 := by norm_num

/-- Rules bound to the training data with a non-empty label area: the second round in doubles returns. -/
theorem secondRoundF_succeeds {ε : ℝ} {rel : ℝ → ℝ → ℝ} (hrel : RelEntrAccurate ε rel) (hε : 0 ≤ ε) {σ ω : Type}
    (S : Samplers σ ω) (p : Params) (X Y : Cmp) (hn : X.nMajor = Y.nMajor) (hN : X.nMajor < 2 ^ 26)
    (pool : List BRule) (hne : pool ≠ []) (hb : ∀ b ∈ pool, BoundTo X Y b)
    (ha : ∀ b ∈ pool, (area b).Nonempty) (k : ℕ) (hk : k ≤ 2 ^ 53) :
    ∃ G, secondRoundF S rel p pool k = .ok G := by
  have hobj : ∀ sel : List BRule, (∀ b ∈ sel, b ∈ pool) → sel.length < 2 ^ 53 → ∀ c ∈ pool,
      ∃ v, objectiveF (qualityF rel) p.lambd sel c = .ok v := by
    intro sel hsel hlen c hc
    rcases (C131_objective hrel hε X Y hn hN p.lambd sel (fun b h => hb b (hsel b h)) hlen c (hb c hc)).1 with
      ⟨e, e1, -⟩ | ⟨v, w, -, e2, -⟩
    · obtain ⟨q, hq, -⟩ := klReal_bound hn (hb c hc)
      have hd : diversityOfRule sel c = .ok (sel.map (areaDist c)).sum := by
        apply pySum_ok
        intro b hb'
        apply distReal_eq (hb c hc).2.2 (hb b (hsel b hb')).2.2
        obtain ⟨x, hx⟩ := ha c hc
        exact ⟨x, by simp [hx]⟩
      unfold objectiveOfRule qualityOfRule at e1
      rw [hq, hd] at e1
      cases e1
    · exact ⟨w, e2⟩
  have hpick : ∀ n (sel : List BRule), (∀ b ∈ sel, b ∈ pool) → sel.length + n ≤ 2 ^ 53 →
      ∃ out, pickLoop S (objectiveF (qualityF rel) p.lambd) pool n sel = .ok out := by
    intro n
    induction n with
    | zero => intro sel _ _; exact ⟨sel, rfl⟩
    | succ n ih =>
      intro sel hsel hl
      obtain ⟨best, hbest⟩ := (C21_select_best S (objectiveF (qualityF rel) p.lambd sel) pool).2.1
        hne (hobj sel hsel (by omega))
      have hmem := ((C21_select_best S (objectiveF (qualityF rel) p.lambd sel) pool).1 best hbest).1
      obtain ⟨out, ho⟩ := ih (sel ++ [best]) (by
        intro b hb'
        rw [List.mem_append, List.mem_singleton] at hb'
        rcases hb' with h | rfl
        · exact hsel b h
        · exact hmem) (by rw [List.length_append, List.length_singleton]; omega)
      refine ⟨out, ?_⟩
      rw [pickLoop, hbest]
      exact ho
  unfold secondRoundF
  rw [if_neg (by rwa [List.length_eq_zero_iff])]
  exact hpick k [] (by simp) (by simpa using hk)

/-- The bounds apply to a real second round: two candidates, budget 2. -/
example : ∃ G, secondRoundF demoSamplers roundedRelEntr demoParams [demoRule 0, demoRule 1] 2 = .ok G ∧
    demoParams.lambd * diversity [demoRule 0, demoRule 1] / 2 ≤
      (∑ i ∈ Finset.range 2, if h : i < G.length then
        demoKL G[i] * ((area G[i]) \ covered (G.take i)).card else 0)
      + demoParams.lambd * diversity G + 1 / 2 ^ 16 := by
  have hb : ∀ b ∈ [demoRule 0, demoRule 1], BoundTo trainX trainY b := by
    intro b hb
    simp only [List.mem_cons, List.not_mem_nil, or_false] at hb
    rcases hb with rfl | rfl <;> exact demoRule_bound (by norm_num)
  have ha : ∀ b ∈ [demoRule 0, demoRule 1], (area b).Nonempty := by
    intro b hb
    simp only [List.mem_cons, List.not_mem_nil, or_false] at hb
    rcases hb with rfl | rfl <;> exact demoRule_area (by norm_num)
  obtain ⟨G, hG⟩ := secondRoundF_succeeds C131_accurate (by norm_num) demoSamplers demoParams trainX trainY
    (by decide) (by decide) _ (by simp) hb ha 2 (by norm_num)
  refine ⟨G, hG, ?_⟩
  have hpos : ∀ r ∈ [demoRule 0, demoRule 1], r.KL = .ok (demoKL r : EReal) ∧ 0 ≤ demoKL r := by
    intro r hr
    obtain ⟨k, -, hk0, hk⟩ := klReal_bound (X := trainX) (Y := trainY) (by decide) (hb r hr)
    exact ⟨by simp [demoKL, hk], by simpa [demoKL, hk] using hk0⟩
  have := (C131_second_round C131_accurate (by norm_num) demoSamplers demoParams trainX trainY trainX_binary.toWF
    trainY_binary (by decide) (by decide) _ hb 2 (by norm_num) G hG (by simp [demoParams]) demoKL
    (fun r hr => (hpos r hr).1) [demoRule 0, demoRule 1] rfl (fun _ h => h) 0 le_rfl (fun r hr => (hpos r hr).2)).2.2
  have hs := C131_size demoParams.lambd trainX.nMajor trainY.nnz 2 (by simp [demoParams]) (by decide) (by decide)
    (by norm_num)
  rw [zero_mul, zero_mul, zero_add, add_zero] at this
  refine this.trans ?_
  push_cast
  have e : (1 / 2 ^ 16 : ℝ) = 2 * (2 * (1 / 2 ^ 18)) := by norm_num
  rw [e]
  linarith

/-- The bounds apply to a real fit: it selects two rules. -/
example (ws : ℕ → ℕ → Unit) : ∃ st, runFit demoSamplers demoParams (learnerDivMaxF roundedRelEntr demoParams trainY)
    trainX trainY [] ws 3 = some (.ok st) ∧ ∃ h : 1 < st.selected.length, ∃ batch,
      NearGreedyChoice (1 / 2 ^ 17) (objectiveOfRule qualityOfRule 1) (st.selected.take 1) batch st.selected[1] := by
  have hsb : ∀ (sel : List BRule) (s : ℕ), s < 2 → (∀ b ∈ sel, BoundTo trainX trainY b) → sel.length < 2 →
      selectBest demoSamplers (objectiveF (qualityF roundedRelEntr) 1 sel) [demoRule s] = .ok (demoRule s) := by
    intro sel s hs hb hlen
    obtain ⟨v, hv⟩ := demo_objective hs hb
    rcases (C131_objective C131_accurate (by norm_num) trainX trainY (by decide) (by decide) 1 sel hb (by omega) _
      (demoRule_bound hs)).1 with ⟨e, e1, -⟩ | ⟨x, w, -, e2, -⟩
    · rw [hv] at e1; cases e1
    have : demoSamplers.setOrder [demoRule s] = [demoRule s] := rfl
    rw [selectBest, this, pyMax, e2]
    rfl
  set lr := learnerDivMaxF roundedRelEntr demoParams trainY with hlr
  have i0 : fitIter demoSamplers demoParams lr trainX trainX.flip
      trainY.flip (ws 0) { sampler := 0, selected := [], pool := [] } =
      .ok (.next { sampler := 1, selected := [demoRule 0], pool := poolUnion [] [demoRule 0] }) := by
    unfold fitIter
    rw [demo_generate (by norm_num)]
    simp only [hlr, learnerDivMaxF, bind, Except.bind]
    rw [show demoParams.lambd = 1 from rfl, hsb [] 0 (by norm_num) (by simp) (by simp)]
    rfl
  have i1 : fitIter demoSamplers demoParams lr trainX trainX.flip
      trainY.flip (ws 1) { sampler := 1, selected := [demoRule 0], pool := poolUnion [] [demoRule 0] } =
      .ok (.next { sampler := 2, selected := [demoRule 0, demoRule 1],
                   pool := poolUnion (poolUnion [] [demoRule 0]) [demoRule 1] }) := by
    unfold fitIter
    rw [demo_generate (by norm_num)]
    simp only [hlr, learnerDivMaxF, bind, Except.bind]
    rw [show demoParams.lambd = 1 from rfl, hsb [demoRule 0] 1 (by norm_num) (by
      intro b hb; rw [List.mem_singleton] at hb; subst hb; exact demoRule_bound (by norm_num)) (by simp)]
    rfl
  have i2 : ∀ st : LoopState ℕ, st.sampler = 2 → fitIter demoSamplers demoParams
      lr trainX trainX.flip trainY.flip (ws 2) st = .ok (.done st) := by
    intro st hst
    unfold fitIter
    rw [hst]
    rfl
  have hrun : runFit demoSamplers demoParams lr trainX trainY [] ws 3 =
      some (.ok { sampler := 2, selected := [demoRule 0, demoRule 1],
                  pool := poolUnion (poolUnion [] [demoRule 0]) [demoRule 1] }) := by
    unfold runFit
    have hf : demoSamplers.tailFit trainY = .ok 0 := rfl
    rw [hf]
    show fitLoop _ _ _ _ _ _ _ 3 0 _ = _
    rw [fitLoop, i0]
    show fitLoop _ _ _ _ _ _ _ 2 1 _ = _
    rw [fitLoop, i1]
    show fitLoop _ _ _ _ _ _ _ 1 2 _ = _
    rw [fitLoop, i2 _ rfl]
  refine ⟨_, hrun, by simp, ?_⟩
  obtain ⟨s0, -, h⟩ := C131_fit C131_accurate (by norm_num) demoSamplers demo_tails demoParams trainX trainY
    trainX_binary.toWF trainY_binary (by decide) (by decide) (learnerDivMax demoParams trainY) lr _
    (Or.inl ⟨rfl, hlr, rfl⟩) ws 3 _ (by simp) hrun
  obtain ⟨s, batch, -, -, hnear, -⟩ := h 1 (by simp)
  refine ⟨batch, hnear.1, ?_⟩
  obtain ⟨v, hv, hall⟩ := hnear.2
  refine ⟨v, hv, fun c hc => ?_⟩
  obtain ⟨vc, hvc, hle⟩ := hall c hc
  refine ⟨vc, hvc, hle.trans ?_⟩
  have hs := C131_size demoParams.lambd trainX.nMajor trainY.nnz 1 (by simp [demoParams]) (by decide) (by decide)
    (by norm_num)
  have e : (1 / 2 ^ 17 : ℝ) = 2 * (1 / 2 ^ 18) := by norm_num
  rw [e]
  linarith

end Verif
