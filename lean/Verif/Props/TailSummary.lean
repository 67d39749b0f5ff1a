/-
The summary of the scores of sampled tails (C145).
-/
import Verif.Spec.TailSummary
import Verif.Lemmas.Quantile
import Verif.Props.TailEval

namespace Verif

theorem min_spec {xs : List ℚ} (h : xs ≠ []) : ∃ a ∈ xs, xs.min? = some a ∧ ∀ x ∈ xs, a ≤ x := by
  obtain ⟨a, ha⟩ : ∃ a, xs.min? = some a := by
    rcases hx : xs.min? with _ | a
    · exact absurd (List.min?_eq_none_iff.mp hx) h
    · exact ⟨a, rfl⟩
  have := List.min?_eq_some_iff.mp ha
  exact ⟨a, this.1, ha, this.2⟩

theorem max_spec {xs : List ℚ} (h : xs ≠ []) : ∃ a ∈ xs, xs.max? = some a ∧ ∀ x ∈ xs, x ≤ a := by
  obtain ⟨a, ha⟩ : ∃ a, xs.max? = some a := by
    rcases hx : xs.max? with _ | a
    · exact absurd (List.max?_eq_none_iff.mp hx) h
    · exact ⟨a, rfl⟩
  have := List.max?_eq_some_iff.mp ha
  exact ⟨a, this.1, ha, this.2⟩

theorem quantileOf_spec {xs : List ℚ} {q : ℚ} (h0 : 0 ≤ q) (h1 : q ≤ 1) (h : xs ≠ []) :
    ∃ a, quantileOf xs q = some a ∧ Quantile.IsQuantile xs q a := by
  obtain ⟨r, hr, hq⟩ := Quantile.quantile_ok h0 h1 h
  exact ⟨r, by rw [quantileOf, hr]; rfl, hq⟩

theorem quantileOf_nil (q : ℚ) : quantileOf [] q = none := by
  unfold quantileOf Quantile.quantile
  by_cases h : q < 0 ∨ 1 < q
  · rw [if_pos h]; rfl
  · rw [if_neg h, if_pos rfl]; rfl

theorem describe_spec (col : List (Option ℚ)) : Summarises (numbersOf col) (describeColumn col) := by
  set xs := numbersOf col with hxs
  have e : col.filterMap id = xs := rfl
  refine ⟨rfl, ?_, ?_, ?_, ?_, ?_, ?_, ?_⟩
  · intro h
    simp only [describeColumn, e, h, if_true, quantileOf_nil, List.min?_nil, List.max?_nil, and_self]
  · intro h
    have hl : (xs.length : ℚ) ≠ 0 := by exact_mod_cast (List.length_pos_iff.mpr h).ne'
    refine ⟨meanOf xs, ?_, ?_⟩
    · simp only [describeColumn, e, if_neg h]
    · unfold meanOf
      rw [div_mul_cancel₀ _ hl]
  · intro h
    simpa only [describeColumn, e] using min_spec h
  · intro h
    simpa only [describeColumn, e] using max_spec h
  · intro h
    obtain ⟨a, ha, ha'⟩ := quantileOf_spec (q := 1 / 4) (by norm_num) (by norm_num) h
    obtain ⟨b, hb, hb'⟩ := quantileOf_spec (q := 1 / 2) (by norm_num) (by norm_num) h
    obtain ⟨c, hc, hc'⟩ := quantileOf_spec (q := 3 / 4) (by norm_num) (by norm_num) h
    exact ⟨a, b, c, ha, hb, hc, ha', hb', hc'⟩
  · intro h
    simp only [describeColumn, e, if_pos h]
  · intro h
    have hne : xs ≠ [] := by rintro h0; rw [h0] at h; simp at h
    have hl : (0 : ℝ) < (xs.length : ℝ) - 1 := by
      have : (2 : ℝ) ≤ xs.length := by exact_mod_cast h
      linarith
    refine ⟨meanOf xs, Real.sqrt (((xs.map fun x => (x - meanOf xs) ^ 2).sum / ((xs.length : ℚ) - 1) : ℚ) : ℝ),
      ?_, ?_, Real.sqrt_nonneg _, ?_⟩
    · simp only [describeColumn, e, if_neg hne]
    · simp only [describeColumn, e, if_neg (show ¬ xs.length < 2 by omega)]
    · have h0 : (0 : ℚ) ≤ (xs.map fun x => (x - meanOf xs) ^ 2).sum :=
        List.sum_nonneg fun y hy => by
          obtain ⟨x, -, rfl⟩ := List.mem_map.mp hy
          positivity
      have h1 : (0 : ℝ) ≤ ((xs.map fun x => (x - meanOf xs) ^ 2).sum : ℚ) := by exact_mod_cast h0
      rw [Real.sq_sqrt (by rw [Rat.cast_div]; exact div_nonneg h1 (by push_cast; exact hl.le)), Rat.cast_div]
      push_cast
      rw [div_mul_cancel₀ _ hl.ne']

/-- **C145** The summary has one entry per column of the report, under the same names and in the same order; each
entry has the statistics of the numbers of its column, NaN entries left out. If the report fails, so does the
summary, with the same exception. -/
theorem C145_summary (order : Finset ℕ → List ℕ) (ev : TailEval) (Ss : List (Finset ℕ)) :
    (∀ cols, tailReport order ev Ss = .ok cols →
      ∃ tbl, tailReportSummary order ev Ss = .ok tbl ∧ tbl.map Prod.fst = cols.map Prod.fst ∧
        ∀ i (hi : i < tbl.length) (hc : i < cols.length), Summarises (numbersOf cols[i].2) tbl[i].2) ∧
    (∀ e, tailReport order ev Ss = .error e → tailReportSummary order ev Ss = .error e) := by
  refine ⟨fun cols h => ⟨cols.map fun col => (col.1, describeColumn col.2), ?_, ?_, ?_⟩, fun e h => ?_⟩
  · unfold tailReportSummary; rw [h]; rfl
  · rw [List.map_map]; rfl
  · intro i hi hc
    rw [List.getElem_map]
    exact describe_spec _
  · unfold tailReportSummary; rw [h]; rfl

open Quantile in
theorem quantile_mono {xs : List ℚ} {p q a b : ℚ} (hpq : p ≤ q) (hne : xs ≠ []) (ha : IsQuantile xs p a)
    (hb : IsQuantile xs q b) : a ≤ b := by
  obtain ⟨k, t, lo, hi, e, t0, t1, hlo, hhi, rfl⟩ := ha
  obtain ⟨k', t', lo', hi', e', t0', t1', hlo', hhi', rfl⟩ := hb
  have hn : (0 : ℚ) ≤ (xs.length : ℚ) - 1 := by
    have : (1 : ℚ) ≤ xs.length := by exact_mod_cast List.length_pos_iff.mpr hne
    linarith
  have hv : (k : ℚ) + t ≤ k' + t' := by rw [← e, ← e']; exact mul_le_mul_of_nonneg_left hpq hn
  have up : lo ≤ hi := by
    by_cases h : t = 0
    · rw [if_pos h] at hhi; exact hhi.ge
    · rw [if_neg h] at hhi; exact hlo.le_of_le hhi (Nat.le_succ k)
  have up' : lo' ≤ hi' := by
    by_cases h : t' = 0
    · rw [if_pos h] at hhi'; exact hhi'.ge
    · rw [if_neg h] at hhi'; exact hlo'.le_of_le hhi' (Nat.le_succ k')
  rcases lt_trichotomy k k' with h | h | h
  · have h1 : hi ≤ lo' := by
      by_cases ht : t = 0
      · rw [if_pos ht] at hhi; rw [hhi]; exact hlo.le_of_le hlo' h.le
      · rw [if_neg ht] at hhi; exact hhi.le_of_le hlo' h
    nlinarith
  · subst h
    have hl : lo = lo' := hlo.unique hlo'
    subst hl
    have htt : t ≤ t' := by linarith
    by_cases ht : t = 0
    · subst ht; nlinarith
    · have ht' : t' ≠ 0 := by
        intro h0
        have : 0 < t := lt_of_le_of_ne t0 (Ne.symm ht)
        linarith
      rw [if_neg ht] at hhi
      rw [if_neg ht'] at hhi'
      have hh : hi = hi' := hhi.unique hhi'
      subst hh
      nlinarith
  · exfalso
    have : (k' : ℚ) + 1 ≤ k := by exact_mod_cast h
    linarith

open Quantile in
theorem quantile_bounds {xs : List ℚ} {q a l u : ℚ} (hl : ∀ x ∈ xs, l ≤ x) (hu : ∀ x ∈ xs, x ≤ u)
    (ha : IsQuantile xs q a) : l ≤ a ∧ a ≤ u := by
  obtain ⟨k, t, lo, hi, e, t0, t1, hlo, hhi, rfl⟩ := ha
  have h1 := hl _ hlo.1
  have h2 := hu _ hlo.1
  by_cases h : t = 0
  · subst h; constructor <;> linarith
  · rw [if_neg h] at hhi
    have h3 := hlo.le_of_le hhi (Nat.le_succ k)
    have h4 := hu _ hhi.1
    constructor <;> nlinarith

open Quantile in
/-- What a quantile says: more than a share `q` of the numbers, counted without one of them, lie at or below it, and
more than a share `1 - q` at or above it. -/
theorem quantile_shares {xs : List ℚ} {q a : ℚ} (ha : IsQuantile xs q a) :
    q * ((xs.length : ℚ) - 1) < (xs.countP fun v => decide (v ≤ a)) ∧
    (1 - q) * ((xs.length : ℚ) - 1) < (xs.countP fun v => decide (a ≤ v)) := by
  obtain ⟨k, t, lo, hi, e, t0, t1, hlo, hhi, rfl⟩ := ha
  have up : lo ≤ hi := by
    by_cases h : t = 0
    · rw [if_pos h] at hhi; exact hhi.ge
    · rw [if_neg h] at hhi; exact hlo.le_of_le hhi (Nat.le_succ k)
  have hcompl : ∀ b : ℚ, xs.countP (fun v => decide (v < b)) + xs.countP (fun v => decide (b ≤ v)) = xs.length := by
    intro b
    have := List.length_eq_countP_add_countP (l := xs) (fun v => decide (v < b))
    rw [this]
    congr 1
    apply List.countP_congr
    intro v _
    simp
  have hmono : ∀ b c : ℚ, b ≤ c → xs.countP (fun v => decide (v ≤ b)) ≤ xs.countP (fun v => decide (v ≤ c)) := by
    intro b c hbc
    apply List.countP_mono_left
    intro v _ hv
    simp only [decide_eq_true_eq] at hv ⊢
    exact hv.trans hbc
  have hmono' : ∀ b c : ℚ, b ≤ c → xs.countP (fun v => decide (c ≤ v)) ≤ xs.countP (fun v => decide (b ≤ v)) := by
    intro b c hbc
    apply List.countP_mono_left
    intro v _ hv
    simp only [decide_eq_true_eq] at hv ⊢
    exact hbc.trans hv
  have h0 : lo ≤ lo + t * (hi - lo) := by nlinarith
  have h1 : lo + t * (hi - lo) ≤ hi := by nlinarith
  constructor
  · have h2 : k + 1 ≤ xs.countP fun v => decide (v ≤ lo + t * (hi - lo)) := le_trans hlo.2.2 (hmono _ _ h0)
    have h3 : ((k : ℚ) + 1) ≤ (xs.countP fun v => decide (v ≤ lo + t * (hi - lo)) : ℕ) := by exact_mod_cast h2
    linarith
  · have h2 := hmono' _ _ h1
    by_cases h : t = 0
    · rw [if_pos h] at hhi
      subst hhi
      have h3 := hcompl hi
      have h4 : xs.length ≤ k + xs.countP fun v => decide (hi + t * (hi - hi) ≤ v) := by
        have := hlo.2.1
        omega
      have h5 : (xs.length : ℚ) ≤ k + (xs.countP fun v => decide (hi + t * (hi - hi) ≤ v) : ℕ) := by exact_mod_cast h4
      linarith
    · rw [if_neg h] at hhi
      have ht : 0 < t := lt_of_le_of_ne t0 (Ne.symm h)
      have h3 := hcompl hi
      have h4 : xs.length ≤ k + 1 + xs.countP fun v => decide (lo + t * (hi - lo) ≤ v) := by
        have := hhi.2.1
        omega
      have h5 : (xs.length : ℚ) ≤ k + 1 + (xs.countP fun v => decide (lo + t * (hi - lo) ≤ v) : ℕ) := by
        exact_mod_cast h4
      linarith

theorem list_sum_zero : ∀ l : List ℚ, (∀ y ∈ l, 0 ≤ y) → l.sum = 0 → ∀ y ∈ l, y = 0
  | [], _, _, y, hy => by simp at hy
  | x :: l, h, hz, y, hy => by
    have h1 := h x (by simp)
    have h2 : 0 ≤ l.sum := List.sum_nonneg fun z hz => h z (by simp [hz])
    rw [List.sum_cons] at hz
    rcases List.mem_cons.mp hy with rfl | hy
    · linarith
    · exact list_sum_zero l (fun z hz => h z (by simp [hz])) (by linarith) y hy

theorem list_mean_bounds {xs : List ℚ} {l u : ℚ} (hl : ∀ x ∈ xs, l ≤ x) (hu : ∀ x ∈ xs, x ≤ u) :
    l * xs.length ≤ xs.sum ∧ xs.sum ≤ u * xs.length := by
  induction xs with
  | nil => simp
  | cons x xs ih =>
    obtain ⟨h1, h2⟩ := ih (fun y hy => hl y (by simp [hy])) (fun y hy => hu y (by simp [hy]))
    have h3 := hl x (by simp)
    have h4 := hu x (by simp)
    simp only [List.sum_cons, List.length_cons]
    push_cast
    constructor <;> linarith

/-- **C145** What the entries of a table with at least one number say about each other: the minimum, the quartiles
and the maximum increase, the mean lies between minimum and maximum, at least half of the numbers lie on either side
of the median, and the deviation is 0 exactly for equal numbers. -/
theorem C145_relations (xs : List ℚ) (s : ColSummary) (h : Summarises xs s) (hne : xs ≠ []) :
    ∃ m lo a b c hi, s.mean = some m ∧ s.min = some lo ∧ s.q25 = some a ∧ s.q50 = some b ∧ s.q75 = some c ∧
      s.max = some hi ∧ lo ≤ a ∧ a ≤ b ∧ b ≤ c ∧ c ≤ hi ∧ lo ≤ m ∧ m ≤ hi ∧
      (xs.length ≤ 2 * xs.countP (fun v => decide (v ≤ b)) ∧ xs.length ≤ 2 * xs.countP (fun v => decide (b ≤ v))) ∧
      ∀ d, s.std = some d → (d = 0 ↔ ∀ x ∈ xs, ∀ y ∈ xs, x = y) := by
  obtain ⟨m, hm, hm'⟩ := h.mean hne
  obtain ⟨lo, -, hlo, hlo'⟩ := h.min hne
  obtain ⟨hi, -, hhi, hhi'⟩ := h.max hne
  obtain ⟨a, b, c, ha, hb, hc, qa, qb, qc⟩ := h.quartiles hne
  have hpos : (0 : ℚ) < xs.length := by exact_mod_cast List.length_pos_iff.mpr hne
  obtain ⟨s1, s2⟩ := list_mean_bounds hlo' hhi'
  rw [← hm'] at s1 s2
  obtain ⟨c1, c2⟩ := quantile_shares qb
  refine ⟨m, lo, a, b, c, hi, hm, hlo, ha, hb, hc, hhi, (quantile_bounds hlo' hhi' qa).1,
    quantile_mono (by norm_num) hne qa qb, quantile_mono (by norm_num) hne qb qc, (quantile_bounds hlo' hhi' qc).2,
    le_of_mul_le_mul_right s1 hpos, le_of_mul_le_mul_right s2 hpos, ⟨?_, ?_⟩, ?_⟩
  · have : (xs.length : ℚ) < 2 * (xs.countP fun v => decide (v ≤ b) : ℕ) + 1 := by linarith
    have : xs.length < 2 * (xs.countP fun v => decide (v ≤ b)) + 1 := by exact_mod_cast this
    omega
  · have : (xs.length : ℚ) < 2 * (xs.countP fun v => decide (b ≤ v) : ℕ) + 1 := by linarith
    have : xs.length < 2 * (xs.countP fun v => decide (b ≤ v)) + 1 := by exact_mod_cast this
    omega
  · intro d hd
    have hlen : 2 ≤ xs.length := by
      by_contra hc
      rw [h.short (by omega)] at hd
      cases hd
    obtain ⟨m', d', hm2, hd', h0, hsq⟩ := h.std hlen
    rw [hm] at hm2
    rw [hd] at hd'
    cases hm2
    cases hd'
    have hl : (0 : ℝ) < (xs.length : ℝ) - 1 := by
      have : (2 : ℝ) ≤ xs.length := by exact_mod_cast hlen
      linarith
    have key : d = 0 ↔ (xs.map fun x => (x - m) ^ 2).sum = 0 := by
      constructor
      · rintro rfl
        have : (((xs.map fun x => (x - m) ^ 2).sum : ℚ) : ℝ) = 0 := by rw [← hsq]; ring
        exact_mod_cast this
      · intro hz
        rw [hz] at hsq
        push_cast at hsq
        rcases mul_eq_zero.mp hsq with h1 | h1
        · exact pow_eq_zero_iff (by norm_num) |>.mp h1
        · exact absurd h1 hl.ne'
    rw [key]
    have hnn : ∀ y ∈ xs.map fun x => (x - m) ^ 2, (0 : ℚ) ≤ y := by
      intro y hy
      obtain ⟨x, -, rfl⟩ := List.mem_map.mp hy
      positivity
    constructor
    · intro hz x hx y hy
      have hall := list_sum_zero _ hnn hz
      have e : ∀ z ∈ xs, z = m := fun z hz => by
        have := hall _ (List.mem_map.mpr ⟨z, hz, rfl⟩)
        have := pow_eq_zero_iff (by norm_num) |>.mp this
        linarith
      rw [e x hx, e y hy]
    · intro hall
      obtain ⟨x, hx⟩ := List.exists_mem_of_ne_nil xs hne
      have hb := list_mean_bounds (xs := xs) (l := x) (u := x) (fun y hy => (hall x hx y hy).le)
        (fun y hy => (hall y hy x hx).le)
      have hmx : m = x := by
        have : m * xs.length = x * xs.length := by rw [hm']; exact le_antisymm hb.2 hb.1
        exact mul_right_cancel₀ hpos.ne' this
      apply List.sum_eq_zero
      intro y hy
      obtain ⟨z, hz, rfl⟩ := List.mem_map.mp hy
      rw [hmx, hall z hz x hx]
      ring

/-- **C145** A table is determined by the numbers, and their order is irrelevant. -/
theorem C145_unique (xs ys : List ℚ) (s t : ColSummary) (h : Summarises xs s) (h' : Summarises ys t)
    (hp : xs.Perm ys) : s = t := by
  have hcp : ∀ p : ℚ → Bool, ys.countP p = xs.countP p := fun p => (hp.countP_eq p).symm
  have hplace : ∀ k a, Quantile.AtPlace ys k a ↔ Quantile.AtPlace xs k a := fun k a => by
    unfold Quantile.AtPlace
    rw [hcp, hcp, hp.mem_iff]
  have hq : ∀ q a, Quantile.IsQuantile ys q a ↔ Quantile.IsQuantile xs q a := fun q a => by
    unfold Quantile.IsQuantile
    simp only [hplace, hp.length_eq]
  have hcount : s.count = t.count := by rw [h.count, h'.count, hp.length_eq]
  by_cases hne : xs = []
  · have hne' : ys = [] := by rw [hne] at hp; exact hp.symm.eq_nil
    obtain ⟨e1, e2, e3, e4, e5, e6⟩ := h.empty hne
    obtain ⟨f1, f2, f3, f4, f5, f6⟩ := h'.empty hne'
    have e7 := h.short (by simp [hne])
    have f7 := h'.short (by simp [hne'])
    cases s; cases t
    simp_all
  · have hne' : ys ≠ [] := by rintro rfl; exact hne hp.eq_nil
    obtain ⟨m, e1, e1'⟩ := h.mean hne
    obtain ⟨m', f1, f1'⟩ := h'.mean hne'
    obtain ⟨lo, l0, e2, e2'⟩ := h.min hne
    obtain ⟨lo', l0', f2, f2'⟩ := h'.min hne'
    obtain ⟨hi, u0, e6, e6'⟩ := h.max hne
    obtain ⟨hi', u0', f6, f6'⟩ := h'.max hne'
    obtain ⟨a, b, c, e3, e4, e5, g3, g4, g5⟩ := h.quartiles hne
    obtain ⟨a', b', c', f3, f4, f5, g3', g4', g5'⟩ := h'.quartiles hne'
    have hpos : (0 : ℚ) < xs.length := by exact_mod_cast List.length_pos_iff.mpr hne
    have hm : m = m' := by
      have : m * xs.length = m' * xs.length := by rw [e1', hp.sum_eq, ← f1', hp.length_eq]
      exact mul_right_cancel₀ hpos.ne' this
    have hlo : lo = lo' := le_antisymm (e2' _ (hp.mem_iff.mpr l0')) (f2' _ (hp.mem_iff.mp l0))
    have hhi : hi = hi' := le_antisymm (f6' _ (hp.mem_iff.mp u0)) (e6' _ (hp.mem_iff.mpr u0'))
    have ha : a = a' := g3.unique ((hq _ _).mp g3')
    have hb : b = b' := g4.unique ((hq _ _).mp g4')
    have hc : c = c' := g5.unique ((hq _ _).mp g5')
    have hstd : s.std = t.std := by
      by_cases hlen : xs.length < 2
      · rw [h.short hlen, h'.short (by rw [← hp.length_eq]; exact hlen)]
      · obtain ⟨n, d, en, ed, d0, dsq⟩ := h.std (by omega)
        obtain ⟨n', d', fn, fd, d0', dsq'⟩ := h'.std (by rw [← hp.length_eq]; omega)
        rw [e1] at en
        rw [f1] at fn
        cases en
        cases fn
        rw [ed, fd]
        congr 1
        have hl : (0 : ℝ) < (xs.length : ℝ) - 1 := by
          have : (2 : ℝ) ≤ xs.length := by exact_mod_cast (by omega : 2 ≤ xs.length)
          linarith
        have hsum : (xs.map fun x => (x - m) ^ 2).sum = (ys.map fun x => (x - m') ^ 2).sum := by
          rw [hm]; exact (hp.map _).sum_eq
        have : d ^ 2 * ((xs.length : ℝ) - 1) = d' ^ 2 * ((xs.length : ℝ) - 1) := by
          rw [dsq, hsum, ← dsq', hp.length_eq]
        have h2 := mul_right_cancel₀ hl.ne' this
        exact (pow_left_inj₀ d0 d0' (by norm_num)).mp h2
    cases s; cases t
    simp_all

/-- **C145** With the six columns of the report: every tail counts for support, frequency, length and area, only the
tails with a label for edge density and only those with two labels for edge ratio; the mean frequency is the mean
support over the number of training rows; and the order in which the tails are given is irrelevant. -/
theorem C145_tails (order : Finset ℕ → List ℕ) (ho : Traverses order) (ev : TailEval) (h : ev.Yc.Binary)
    (g : DiG) (hg : ev.g = some g) (hn : 0 < ev.ntrn) (Ss : List (Finset ℕ))
    (hS : ∀ S ∈ Ss, ∀ c ∈ S, c < ev.Yc.nMajor) (hJ : ∀ S ∈ Ss, AllJoined g S) :
    ∃ supp freq dens ratio len area, tailReportSummary order ev Ss =
        .ok [("support_size", supp), ("frequency", freq), ("edge_density", dens), ("edge_ratio", ratio),
          ("length", len), ("area", area)] ∧
      supp.count = Ss.length ∧ freq.count = Ss.length ∧ len.count = Ss.length ∧ area.count = Ss.length ∧
      dens.count = Ss.countP (fun S => decide (S ≠ ∅)) ∧ ratio.count = Ss.countP (fun S => decide (2 ≤ S.card)) ∧
      (∀ x, supp.mean = some x → freq.mean = some (x / ev.ntrn)) ∧
      ∀ Ss' : List (Finset ℕ), Ss'.Perm Ss → tailReportSummary order ev Ss' = tailReportSummary order ev Ss := by
  have hall : ∀ (f : Finset ℕ → ℚ) (l : List (Finset ℕ)), numbersOf (l.map fun S => some (f S)) = l.map f := by
    intro f l
    unfold numbersOf
    rw [List.filterMap_map, show (id ∘ fun S => some (f S)) = fun S => some (f S) from rfl, ← List.filterMap_eq_map]
    rfl
  have hcount : ∀ (p : Finset ℕ → Prop) [DecidablePred p] (f : Finset ℕ → ℚ) (l : List (Finset ℕ)),
      (numbersOf (l.map fun S => if p S then none else some (f S))).length = l.countP fun S => decide (¬ p S) := by
    intro p _ f l
    induction l with
    | nil => rfl
    | cons S l ih =>
      unfold numbersOf at ih ⊢
      rw [List.map_cons, List.filterMap_cons, List.countP_cons]
      by_cases hp : p S
      · rw [if_pos hp]
        show (List.filterMap id _).length = _
        rw [ih]
        simp [hp]
      · rw [if_neg hp]
        show (f S :: List.filterMap id _).length = _
        rw [List.length_cons, ih]
        simp [hp]
  obtain ⟨cols, hc, rfl, -⟩ := C68_report order ho ev h g hg hn Ss hS hJ
  have hrep : ∀ l cols, tailReport order ev l = .ok cols →
      tailReportSummary order ev l = .ok (cols.map fun col => (col.1, describeColumn col.2)) := by
    intro l cols h
    unfold tailReportSummary
    rw [h]
    rfl
  refine ⟨_, _, _, _, _, _, hrep _ _ hc, ?_, ?_, ?_, ?_, ?_, ?_, ?_, ?_⟩
  · rw [(describe_spec _).count, hall, List.length_map]
  · rw [(describe_spec _).count, hall, List.length_map]
  · rw [(describe_spec _).count, hall, List.length_map]
  · rw [(describe_spec _).count, hall, List.length_map]
  · rw [(describe_spec _).count, hcount]
  · rw [(describe_spec _).count, hcount]
    apply List.countP_congr
    intro S _
    simp only [decide_eq_true_eq, not_lt]
  · intro x hx
    have s1 := describe_spec (Ss.map fun S => some ((rowsWithAll ev.Yc S).card : ℚ))
    have s2 := describe_spec (Ss.map fun S => some (((rowsWithAll ev.Yc S).card : ℚ) / ev.ntrn))
    rw [hall] at s1 s2
    by_cases h0 : Ss = []
    · subst h0
      rw [(s1.empty rfl).1] at hx
      cases hx
    · obtain ⟨m, hm, hm'⟩ := s1.mean (by simpa using h0)
      obtain ⟨m2, hm2, hm2'⟩ := s2.mean (by simpa using h0)
      rw [hx] at hm
      cases hm
      rw [hm2]
      congr 1
      have hpos : (0 : ℚ) < Ss.length := by exact_mod_cast List.length_pos_iff.mpr h0
      rw [List.length_map] at hm' hm2'
      have e : ∀ l : List (Finset ℕ), (l.map fun S => ((rowsWithAll ev.Yc S).card : ℚ) / ev.ntrn).sum =
          (l.map fun S => ((rowsWithAll ev.Yc S).card : ℚ)).sum / ev.ntrn := by
        intro l
        induction l with
        | nil => simp
        | cons S l ih => simp only [List.map_cons, List.sum_cons, ih, add_div]
      rw [e, ← hm'] at hm2'
      have hnq : (0 : ℚ) < ev.ntrn := by exact_mod_cast hn
      have : m2 * Ss.length = x / ev.ntrn * Ss.length := by rw [hm2']; ring
      exact mul_right_cancel₀ hpos.ne' this
  · intro Ss' hp
    obtain ⟨cols', hc', rfl, -⟩ := C68_report order ho ev h g hg hn Ss' (fun S hs => hS S (hp.mem_iff.mp hs))
      fun S hs => hJ S (hp.mem_iff.mp hs)
    rw [hrep _ _ hc, hrep _ _ hc']
    have e : ∀ f : Finset ℕ → Option ℚ, describeColumn (Ss'.map f) = describeColumn (Ss.map f) := fun f =>
      C145_unique _ _ _ _ (describe_spec _) (describe_spec _) ((hp.map f).filterMap id)
    show Except.ok _ = Except.ok _
    congr 1
    simp only [List.map_cons, List.map_nil, e]

/-- The hypotheses are met, with a score that is left out: the summary of a column with a NaN. -/
example : (describeColumn [some 1, none, some 2, some 4]).count = 3 ∧
    (describeColumn [some 1, none, some 2, some 4]).q25 = some (3 / 2) ∧
    (describeColumn [some 1, none, some 2, some 4]).mean = some (7 / 3) := by
  have e : [some (1 : ℚ), none, some 2, some 4].filterMap id = [1, 2, 4] := rfl
  refine ⟨by simp only [describeColumn, e]; rfl, ?_, ?_⟩
  · simp only [describeColumn, e, quantileOf]
    rw [(Quantile.quantile_eq_iff (xs := [1, 2, 4]) (q := 1 / 4) (r := 3 / 2) (by norm_num) (by norm_num) (by simp)).mpr
      ⟨0, 1 / 2, 1, 2, by norm_num, by norm_num, by norm_num, by unfold Quantile.AtPlace; decide +kernel,
        by rw [if_neg (by norm_num)]; unfold Quantile.AtPlace; decide +kernel, by norm_num⟩]
    rfl
  · simp only [describeColumn, e, meanOf]
    rw [if_neg (by simp)]
    norm_num

end Verif
