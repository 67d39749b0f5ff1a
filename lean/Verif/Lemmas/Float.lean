/-
Facts about rounding to doubles and about the weighted draws that use them.
-/
import Verif.Model.Float
import Mathlib.Data.List.GetD
import Mathlib.Algebra.Order.Floor.Semifield
import Mathlib.Order.Interval.Finset.Nat
import Mathlib.Tactic.Linarith
import Mathlib.Tactic.FieldSimp
import Mathlib.Tactic.Positivity
import Mathlib.Tactic.Ring

namespace Verif

theorem roundEven_mem (x : ℝ) : roundEven x = ⌊x⌋ ∨ roundEven x = ⌊x⌋ + 1 := by
  unfold roundEven
  split_ifs <;> simp

theorem roundEven_error (x : ℝ) : |(roundEven x : ℝ) - x| ≤ 1 / 2 := by
  have hf := Int.floor_add_fract x
  have h0 := Int.fract_nonneg x
  have h1 := Int.fract_lt_one x
  unfold roundEven
  rw [abs_le]
  split_ifs <;> push_cast <;> constructor <;> linarith

theorem roundEven_int (n : ℤ) : roundEven (n : ℝ) = n := by
  unfold roundEven
  rw [Int.fract_intCast, Int.floor_intCast, if_pos (by norm_num)]

theorem roundEven_mono {x y : ℝ} (h : x ≤ y) : roundEven x ≤ roundEven y := by
  rcases (Int.floor_le_floor h).lt_or_eq with hlt | heq
  · rcases roundEven_mem x with hx | hx <;> rcases roundEven_mem y with hy | hy <;> rw [hx, hy] <;> omega
  · have hx := Int.floor_add_fract x
    have hy := Int.floor_add_fract y
    have hfr : Int.fract x ≤ Int.fract y := by
      have : ((⌊x⌋ : ℤ) : ℝ) = (⌊y⌋ : ℤ) := by exact_mod_cast heq
      linarith
    unfold roundEven
    rw [heq]
    split_ifs <;> first | omega | (exfalso; linarith)

/-- Numbers with 53 significant bits. -/
def IsDouble (x : ℝ) : Prop := ∃ m e : ℤ, |m| ≤ 2 ^ 53 ∧ x = m * (2 : ℝ) ^ e

theorem fl_zero : fl 0 = 0 := by simp [fl]

theorem two_log_le {x : ℝ} (hx : x ≠ 0) : (2 : ℝ) ^ (Int.log 2 |x|) ≤ |x| := by
  have := Int.zpow_log_le_self (b := 2) (R := ℝ) (by norm_num) (abs_pos.mpr hx)
  exact_mod_cast this

theorem lt_two_log {x : ℝ} : |x| < (2 : ℝ) ^ (Int.log 2 |x| + 1) := by
  have := Int.lt_zpow_succ_log_self (b := 2) (R := ℝ) (by norm_num) |x|
  exact_mod_cast this

theorem fl_error (x : ℝ) : |fl x - x| ≤ (1 / 2 ^ 53) * |x| := by
  by_cases hx : x = 0
  · simp [hx, fl_zero]
  unfold fl
  rw [if_neg hx]
  set e := Int.log 2 |x| - 52 with he
  have h2 : (0 : ℝ) < 2 ^ e := by positivity
  have h := roundEven_error (x / 2 ^ e)
  have e1 : (roundEven (x / 2 ^ e) : ℝ) * 2 ^ e - x = ((roundEven (x / 2 ^ e) : ℝ) - x / 2 ^ e) * 2 ^ e := by
    field_simp
  rw [e1, abs_mul, abs_of_pos h2]
  have h3 := two_log_le hx
  have e2 : (2 : ℝ) ^ e = 2 ^ (Int.log 2 |x|) / 2 ^ 52 := by
    rw [he, zpow_sub₀ (by norm_num)]
    norm_cast
  rw [e2]
  have h4 : (0 : ℝ) < 2 ^ (Int.log 2 |x|) := by positivity
  calc |(roundEven (x / (2 ^ Int.log 2 |x| / 2 ^ 52)) : ℝ) - x / (2 ^ Int.log 2 |x| / 2 ^ 52)| *
        (2 ^ Int.log 2 |x| / 2 ^ 52) ≤ 1 / 2 * (2 ^ Int.log 2 |x| / 2 ^ 52) := by
        refine mul_le_mul_of_nonneg_right ?_ (by positivity)
        rw [← e2]; exact h
    _ = (1 / 2 ^ 53) * 2 ^ Int.log 2 |x| := by ring
    _ ≤ _ := mul_le_mul_of_nonneg_left h3 (by positivity)

theorem fl_of_double {x : ℝ} (h : IsDouble x) : fl x = x := by
  by_cases hx : x = 0
  · simp [hx, fl_zero]
  obtain ⟨m, e, hm, hxe⟩ := h
  have key : ∃ n : ℤ, x / 2 ^ (Int.log 2 |x| - 52) = n := by
    set L := Int.log 2 |x| with hL
    have h1 := two_log_le hx
    have hmR : |(m : ℝ)| ≤ 2 ^ 53 := by exact_mod_cast hm
    have h3 : |x| ≤ (2 : ℝ) ^ (53 + e) := by
      rw [hxe, abs_mul, abs_of_pos (show (0 : ℝ) < 2 ^ e by positivity), zpow_add₀ (by norm_num)]
      exact mul_le_mul_of_nonneg_right (by exact_mod_cast hmR) (by positivity)
    have h4 : L ≤ 53 + e := (zpow_le_zpow_iff_right₀ (by norm_num : (1 : ℝ) < 2)).mp (h1.trans h3)
    rcases le_or_gt (L - 52) e with hle | hgt
    · refine ⟨m * 2 ^ (e - (L - 52)).toNat, ?_⟩
      rw [hxe, mul_div_assoc, ← zpow_sub₀ (by norm_num)]
      push_cast
      congr 1
      rw [← zpow_natCast, Int.toNat_of_nonneg (by omega)]
    · have hL' : L = 53 + e := by omega
      have habs : |x| = (2 : ℝ) ^ (53 + e) := le_antisymm h3 (hL' ▸ h1)
      have e52 : (2 : ℝ) ^ (53 + e) / 2 ^ (L - 52) = ((2 ^ 52 : ℤ) : ℝ) := by
        rw [← zpow_sub₀ (by norm_num), show 53 + e - (L - 52) = 52 by omega]
        norm_num
      rcases abs_choice x with hc | hc
      · exact ⟨2 ^ 52, by rw [← e52, ← habs, hc]⟩
      · refine ⟨-2 ^ 52, ?_⟩
        have : x = -(2 : ℝ) ^ (53 + e) := by rw [← habs, hc]; ring
        rw [show x / 2 ^ (L - 52) = -((2 : ℝ) ^ (53 + e) / 2 ^ (L - 52)) by rw [this]; ring, e52]
        push_cast
        ring
  obtain ⟨n, hn⟩ := key
  unfold fl
  rw [if_neg hx, hn, roundEven_int, ← hn]
  field_simp

theorem double_fl (x : ℝ) : IsDouble (fl x) := by
  by_cases hx : x = 0
  · exact ⟨0, 0, by norm_num, by simp [hx, fl_zero]⟩
  unfold fl
  rw [if_neg hx]
  refine ⟨_, _, ?_, rfl⟩
  set e := Int.log 2 |x| - 52 with he
  have h1 := lt_two_log (x := x)
  have h2 : |x / 2 ^ e| < 2 ^ 53 := by
    rw [abs_div, abs_of_pos (show (0 : ℝ) < 2 ^ e by positivity), div_lt_iff₀ (by positivity)]
    have : (2 : ℝ) ^ 53 * 2 ^ e = 2 ^ (Int.log 2 |x| + 1) := by
      rw [show (2 : ℝ) ^ 53 = 2 ^ (53 : ℤ) by norm_cast, ← zpow_add₀ (by norm_num)]
      congr 1
      omega
    rw [this]
    exact h1
  rw [abs_lt] at h2
  rw [abs_le]
  constructor
  · have := roundEven_mono (show ((-2 ^ 53 : ℤ) : ℝ) ≤ x / 2 ^ e by push_cast; linarith [h2.1])
    rwa [roundEven_int] at this
  · have := roundEven_mono (show x / 2 ^ e ≤ ((2 ^ 53 : ℤ) : ℝ) by push_cast; linarith [h2.2])
    rwa [roundEven_int] at this

theorem fl_idem (x : ℝ) : fl (fl x) = fl x := fl_of_double (double_fl x)

theorem fl_int {n : ℤ} (h : |n| ≤ 2 ^ 53) : fl (n : ℝ) = n := fl_of_double ⟨n, 0, h, by simp⟩

theorem fl_nat {n : ℕ} (h : n ≤ 2 ^ 53) : fl (n : ℝ) = n := by
  have := fl_int (n := (n : ℤ)) (by rw [abs_of_nonneg (by positivity)]; exact_mod_cast h)
  exact_mod_cast this

theorem fl_one : fl 1 = 1 := by simpa using fl_nat (n := 1) (by norm_num)

theorem fl_nonneg {x : ℝ} (h : 0 ≤ x) : 0 ≤ fl x := by
  have := fl_error x
  rw [abs_of_nonneg h, abs_le] at this
  have h2 : (1 / 2 ^ 53 : ℝ) * x ≤ x := by
    have : (1 / 2 ^ 53 : ℝ) ≤ 1 := by norm_num
    nlinarith
  linarith [this.1]

theorem fl_mono {x y : ℝ} (h0 : 0 ≤ x) (h : x ≤ y) : fl x ≤ fl y := by
  by_cases hx : x = 0
  · rw [hx, fl_zero]
    exact fl_nonneg (h0.trans h)
  have hxp : 0 < x := lt_of_le_of_ne h0 (Ne.symm hx)
  have hyp : 0 < y := hxp.trans_le h
  have hlog : Int.log 2 |x| ≤ Int.log 2 |y| := by
    rw [abs_of_pos hxp, abs_of_pos hyp]
    exact Int.log_mono_right hxp h
  rcases hlog.lt_or_eq with hlt | heq
  · have hupper : fl x ≤ 2 ^ (Int.log 2 |x| + 1) := by
      unfold fl
      rw [if_neg hx]
      set e := Int.log 2 |x| - 52 with he
      have e1 : (2 : ℝ) ^ (Int.log 2 |x| + 1) = ((2 ^ 53 : ℤ) : ℝ) * 2 ^ e := by
        rw [show ((2 ^ 53 : ℤ) : ℝ) = 2 ^ (53 : ℤ) by norm_num, ← zpow_add₀ (by norm_num)]
        congr 1
        omega
      rw [e1]
      refine mul_le_mul_of_nonneg_right ?_ (by positivity)
      have h1 := lt_two_log (x := x)
      rw [abs_of_pos hxp] at h1
      have h2 : x / 2 ^ e ≤ ((2 ^ 53 : ℤ) : ℝ) := by
        rw [div_le_iff₀ (by positivity), ← e1, abs_of_pos hxp]
        exact h1.le
      have := roundEven_mono h2
      rw [roundEven_int] at this
      exact_mod_cast this
    have hlower : (2 : ℝ) ^ (Int.log 2 |y|) ≤ fl y := by
      unfold fl
      rw [if_neg hyp.ne']
      set e := Int.log 2 |y| - 52 with he
      have e1 : (2 : ℝ) ^ (Int.log 2 |y|) = ((2 ^ 52 : ℤ) : ℝ) * 2 ^ e := by
        rw [show ((2 ^ 52 : ℤ) : ℝ) = 2 ^ (52 : ℤ) by norm_num, ← zpow_add₀ (by norm_num)]
        congr 1
        omega
      rw [e1]
      refine mul_le_mul_of_nonneg_right ?_ (by positivity)
      have h1 := two_log_le hyp.ne'
      have h2 : ((2 ^ 52 : ℤ) : ℝ) ≤ y / 2 ^ e := by
        rw [le_div_iff₀ (by positivity), ← e1]
        rwa [abs_of_pos hyp] at h1 ⊢
      have := roundEven_mono h2
      rw [roundEven_int] at this
      exact_mod_cast this
    refine hupper.trans (le_trans ?_ hlower)
    exact zpow_le_zpow_right₀ (by norm_num) (by omega)
  · unfold fl
    rw [if_neg hx, if_neg hyp.ne', heq]
    refine mul_le_mul_of_nonneg_right ?_ (by positivity)
    exact_mod_cast roundEven_mono (div_le_div_of_nonneg_right h (by positivity))

/-! ### Sums of integers are exact -/

theorem FTree.eval_nat : ∀ (t : FTree), (∀ x ∈ t.leaves, ∃ n : ℕ, x = n) → t.leaves.sum ≤ 2 ^ 53 →
    t.eval = t.leaves.sum ∧ ∃ n : ℕ, t.leaves.sum = n
  | .leaf x, h, _ => by
    obtain ⟨n, hn⟩ := h x (by simp [FTree.leaves])
    exact ⟨by simp [FTree.eval, FTree.leaves], n, by simp [FTree.leaves, hn]⟩
  | .node a b, h, hs => by
    have e : (FTree.node a b).leaves = a.leaves ++ b.leaves := rfl
    rw [e, List.sum_append] at hs ⊢
    rw [e] at h
    have hnn : ∀ l : List ℝ, (∀ x ∈ l, ∃ n : ℕ, x = n) → 0 ≤ l.sum := fun l hl => List.sum_nonneg fun x hx => by
      obtain ⟨n, rfl⟩ := hl x hx
      positivity
    have ha : ∀ x ∈ a.leaves, ∃ n : ℕ, x = n := fun x hx => h x (by simp [hx])
    have hb : ∀ x ∈ b.leaves, ∃ n : ℕ, x = n := fun x hx => h x (by simp [hx])
    obtain ⟨h1, m, hm⟩ := a.eval_nat ha (by linarith [hnn _ hb])
    obtain ⟨h2, n, hn⟩ := b.eval_nat hb (by linarith [hnn _ ha])
    refine ⟨?_, m + n, by rw [hm, hn]; push_cast; ring⟩
    rw [FTree.eval, h1, h2, hm, hn]
    have : fl ((m + n : ℕ) : ℝ) = (m + n : ℕ) := fl_nat (by
      rw [hm, hn] at hs
      exact_mod_cast hs)
    push_cast at this
    exact this

theorem Summation.sum_nat (S : Summation) {l : List ℝ} (h : ∀ x ∈ l, ∃ n : ℕ, x = n) (hs : l.sum ≤ 2 ^ 53) :
    S.sum l = l.sum := by
  unfold Summation.sum
  split_ifs with hl
  · simp [hl]
  · have hp := S.leaves l hl
    rw [((S.tree l).eval_nat (fun x hx => h x (hp.mem_iff.mp hx)) (by rw [hp.sum_eq]; exact hs)).1, hp.sum_eq]

/-! ### Kahan summation -/

theorem kahan_step {u s c x T J : ℝ} (hu : u = 1 / 2 ^ 53) (hx : 0 ≤ x) (hT : 0 ≤ T) (hTx : T + x ≤ 1 + 1 / 1000)
    (hJ0 : 0 ≤ J) (hJ : J ≤ 1 / 100) (hs : |s - T| ≤ J) (hc : |c| ≤ 4 * u) :
    |fl (s + fl (x - c)) - (T + x)| ≤ J + 8 * u ∧ |fl (fl (fl (s + fl (x - c)) - s) - fl (x - c))| ≤ 4 * u := by
  have hu0 : 0 < u := by rw [hu]; positivity
  have hu1 : u ≤ 1 / 1000000 := by rw [hu]; norm_num
  set y := fl (x - c) with hy
  set t := fl (s + y) with ht
  set d := fl (t - s) with hd
  have e1 := fl_error (x - c)
  have e2 := fl_error (s + y)
  have e3 := fl_error (t - s)
  have e4 := fl_error (d - y)
  rw [← hu] at e1 e2 e3 e4
  rw [← hy] at e1
  rw [← ht] at e2
  rw [← hd] at e3
  rw [abs_le] at hs hc
  have b1 : |x - c| ≤ 101 / 100 := by rw [abs_le]; constructor <;> linarith [hc.1, hc.2]
  have e1' : |y - (x - c)| ≤ 101 / 100 * u := e1.trans (by nlinarith)
  rw [abs_le] at e1'
  have b2 : |s + y| ≤ 105 / 100 := by
    rw [abs_le]
    constructor <;> linarith [hc.1, hc.2, hs.1, hs.2, e1'.1, e1'.2]
  have e2' : |t - (s + y)| ≤ 105 / 100 * u := e2.trans (by nlinarith)
  rw [abs_le] at e2'
  have b3 : |t - s| ≤ 105 / 100 := by
    rw [abs_le]
    constructor <;> linarith [hc.1, hc.2, e1'.1, e1'.2, e2'.1, e2'.2]
  have e3' : |d - (t - s)| ≤ 105 / 100 * u := e3.trans (by nlinarith)
  rw [abs_le] at e3'
  have b4 : |d - y| ≤ 21 / 10 * u := by
    rw [abs_le]
    constructor <;> linarith [e2'.1, e2'.2, e3'.1, e3'.2]
  have b4' : |d - y| ≤ 1 := b4.trans (by linarith)
  have e4' : |fl (d - y) - (d - y)| ≤ u := e4.trans (by nlinarith)
  rw [abs_le] at e4' b4
  constructor
  · rw [abs_le]
    constructor <;> linarith [hc.1, hc.2, hs.1, hs.2, e1'.1, e1'.2, e2'.1, e2'.2]
  · rw [abs_le]
    constructor <;> linarith [e4'.1, e4'.2, b4.1, b4.2]

theorem kahanLoop_error {u : ℝ} (hu : u = 1 / 2 ^ 53) : ∀ (xs : List ℝ) (s c T J : ℝ), (∀ x ∈ xs, 0 ≤ x) → 0 ≤ T →
    T + xs.sum ≤ 1 + 1 / 1000 → 0 ≤ J → J + 8 * xs.length * u ≤ 1 / 100 → |s - T| ≤ J → |c| ≤ 4 * u →
    |kahanLoop s c xs - (T + xs.sum)| ≤ J + 8 * xs.length * u
  | [], s, c, T, J, _, _, _, _, _, hs, _ => by simpa [kahanLoop] using hs
  | x :: xs, s, c, T, J, hx, hT, hsum, hJ0, hJ, hs, hc => by
    have hu0 : 0 < u := by rw [hu]; positivity
    have h0 : 0 ≤ xs.sum := List.sum_nonneg fun y hy => hx y (by simp [hy])
    have hlen : (0 : ℝ) ≤ xs.length := by positivity
    rw [List.sum_cons] at hsum ⊢
    rw [List.length_cons] at hJ ⊢
    push_cast at hJ ⊢
    have hl0 := mul_nonneg hlen hu0.le
    obtain ⟨h1, h2⟩ := kahan_step hu (hx x (by simp)) hT (by linarith) hJ0 (by nlinarith) hs hc
    have := kahanLoop_error hu xs _ _ (T + x) (J + 8 * u) (fun y hy => hx y (by simp [hy]))
      (by linarith [hx x (by simp)]) (by linarith) (by linarith) (by linarith) h1 h2
    rw [kahanLoop, ← add_assoc]
    refine this.trans (by linarith)

theorem kahanSum_error {u : ℝ} (hu : u = 1 / 2 ^ 53) (p : List ℝ) (hp : ∀ x ∈ p, 0 ≤ x) (hs : p.sum ≤ 1 + 1 / 1000)
    (hn : p.length ≤ 2 ^ 23) : |kahanSum p - p.sum| ≤ 8 * p.length * u := by
  have hu0 : 0 < u := by rw [hu]; positivity
  cases p with
  | nil => simp [kahanSum]
  | cons x xs =>
    rw [List.sum_cons] at hs
    rw [List.length_cons] at hn
    have hb : (8 : ℝ) * xs.length * u ≤ 1 / 100 := by
      have : (xs.length : ℝ) ≤ 2 ^ 23 := by exact_mod_cast (by omega : xs.length ≤ 2 ^ 23)
      have h2 := mul_le_mul_of_nonneg_right this hu0.le
      have : (2 : ℝ) ^ 23 * u ≤ 1 / 800 := by rw [hu]; norm_num
      linarith
    have := kahanLoop_error hu xs x 0 x 0 (fun y hy => hp y (by simp [hy])) (hp x (by simp)) hs le_rfl
      (by linarith) (by simp) (by simp; linarith)
    rw [kahanSum, List.sum_cons, List.length_cons]
    refine this.trans ?_
    push_cast
    nlinarith

/-! ### Running sums -/

theorem length_cumsumFrom : ∀ (xs : List ℝ) (a : ℝ), (cumsumFrom a xs).length = xs.length
  | [], _ => rfl
  | x :: xs, a => by simp [cumsumFrom, length_cumsumFrom xs]

theorem length_cumsumF (p : List ℝ) : (cumsumF p).length = p.length := by
  cases p <;> simp [cumsumF, length_cumsumFrom]

theorem cumsumFrom_error {u : ℝ} (hu : u = 1 / 2 ^ 53) : ∀ (xs : List ℝ) (a T J : ℝ), (∀ x ∈ xs, 0 ≤ x) → 0 ≤ T →
    T + xs.sum ≤ 1 + 1 / 1000 → 0 ≤ J → J + 2 * xs.length * u ≤ 1 / 100 → |a - T| ≤ J → ∀ i < xs.length,
    |(cumsumFrom a xs).getD i 0 - (T + (xs.take (i + 1)).sum)| ≤ J + 2 * xs.length * u
  | [], _, _, _, _, _, _, _, _, _, i, hi => by simp at hi
  | x :: xs, a, T, J, hx, hT, hsum, hJ0, hJ, ha, i, hi => by
    have hu0 : 0 < u := by rw [hu]; positivity
    have hu1 : u ≤ 1 / 1000000 := by rw [hu]; norm_num
    have h0 : 0 ≤ xs.sum := List.sum_nonneg fun y hy => hx y (by simp [hy])
    have hx0 := hx x (by simp)
    have hl0 : (0 : ℝ) ≤ xs.length * u := by positivity
    rw [List.sum_cons] at hsum
    rw [List.length_cons] at hJ ⊢
    push_cast at hJ ⊢
    have e1 := fl_error (a + x)
    rw [← hu] at e1
    rw [abs_le] at ha
    have b1 : |a + x| ≤ 105 / 100 := by rw [abs_le]; constructor <;> linarith [ha.1, ha.2]
    have e1' : |fl (a + x) - (a + x)| ≤ 105 / 100 * u := e1.trans (by nlinarith)
    rw [abs_le] at e1'
    have hstep : |fl (a + x) - (T + x)| ≤ J + 2 * u := by
      rw [abs_le]
      constructor <;> linarith [ha.1, ha.2, e1'.1, e1'.2]
    cases i with
    | zero =>
      simp only [cumsumFrom, List.getD_cons_zero, List.take_succ_cons, List.take_zero, List.sum_cons, List.sum_nil]
      rw [add_zero]
      exact hstep.trans (by linarith)
    | succ i =>
      have := cumsumFrom_error hu xs (fl (a + x)) (T + x) (J + 2 * u) (fun y hy => hx y (by simp [hy]))
        (by linarith) (by linarith) (by linarith) (by linarith) hstep i (by simpa using hi)
      simp only [cumsumFrom, List.getD_cons_succ]
      rw [List.take_succ_cons, List.sum_cons, ← add_assoc]
      exact this.trans (by linarith)

theorem cumsumF_error {u : ℝ} (hu : u = 1 / 2 ^ 53) (p : List ℝ) (hp : ∀ x ∈ p, 0 ≤ x) (hs : p.sum ≤ 1 + 1 / 1000)
    (hn : p.length ≤ 2 ^ 23) (i : ℕ) (hi : i < p.length) :
    |(cumsumF p).getD i 0 - (p.take (i + 1)).sum| ≤ 2 * p.length * u := by
  have hu0 : 0 < u := by rw [hu]; positivity
  cases p with
  | nil => simp at hi
  | cons x xs =>
    rw [List.sum_cons] at hs
    rw [List.length_cons] at hn
    have hl0 : (0 : ℝ) ≤ xs.length * u := by positivity
    have hb : (2 : ℝ) * xs.length * u ≤ 1 / 100 := by
      have : (xs.length : ℝ) ≤ 2 ^ 23 := by exact_mod_cast (by omega : xs.length ≤ 2 ^ 23)
      have h2 := mul_le_mul_of_nonneg_right this hu0.le
      have : (2 : ℝ) ^ 23 * u ≤ 1 / 800 := by rw [hu]; norm_num
      linarith
    rw [List.length_cons]
    push_cast
    cases i with
    | zero =>
      simp only [cumsumF, List.getD_cons_zero, List.take_succ_cons, List.take_zero, List.sum_cons, List.sum_nil,
        add_zero, sub_self, abs_zero]
      linarith
    | succ i =>
      have := cumsumFrom_error hu xs x x 0 (fun y hy => hp y (by simp [hy])) (hp x (by simp)) hs le_rfl
        (by linarith) (by simp) i (by simpa using hi)
      simp only [cumsumF, List.getD_cons_succ]
      rw [List.take_succ_cons, List.sum_cons]
      exact this.trans (by linarith)

theorem fl_add_ge {a x : ℝ} (ha : IsDouble a) (h0 : 0 ≤ a) (hx : 0 ≤ x) : a ≤ fl (a + x) := by
  have := fl_mono h0 (show a ≤ a + x by linarith)
  rwa [fl_of_double ha] at this

theorem cumsumFrom_succ : ∀ (xs : List ℝ) (a : ℝ) (i : ℕ), i + 1 < xs.length →
    (cumsumFrom a xs).getD (i + 1) 0 = fl ((cumsumFrom a xs).getD i 0 + xs.getD (i + 1) 0)
  | [], _, i, h => by simp at h
  | [_], _, i, h => by simp at h
  | x :: y :: xs, a, i, h => by
    cases i with
    | zero => simp [cumsumFrom]
    | succ i =>
      have := cumsumFrom_succ (y :: xs) (fl (a + x)) i (by simpa using h)
      rw [cumsumFrom, List.getD_cons_succ, this, List.getD_cons_succ]
      rfl

theorem cumsumF_succ (p : List ℝ) (i : ℕ) (h : i + 1 < p.length) :
    (cumsumF p).getD (i + 1) 0 = fl ((cumsumF p).getD i 0 + p.getD (i + 1) 0) := by
  cases p with
  | nil => simp at h
  | cons x xs =>
    rw [cumsumF, List.getD_cons_succ, List.getD_cons_succ]
    cases i with
    | zero =>
      cases xs with
      | nil => simp at h
      | cons y ys => simp [cumsumFrom]
    | succ i =>
      rw [List.getD_cons_succ]
      exact cumsumFrom_succ xs x i (by simpa using h)

theorem cumsumF_double (p : List ℝ) (hd : ∀ x ∈ p, IsDouble x) (hp : ∀ x ∈ p, 0 ≤ x) : ∀ i, i < p.length →
    IsDouble ((cumsumF p).getD i 0) ∧ 0 ≤ (cumsumF p).getD i 0
  | 0, h => by
    cases p with
    | nil => simp at h
    | cons x xs => exact ⟨by simpa [cumsumF] using hd x (by simp), by simpa [cumsumF] using hp x (by simp)⟩
  | i + 1, h => by
    rw [cumsumF_succ p i h]
    obtain ⟨-, h2⟩ := cumsumF_double p hd hp i (by omega)
    refine ⟨double_fl _, fl_nonneg (add_nonneg h2 ?_)⟩
    rw [List.getD_eq_getElem _ _ h]
    exact hp _ (List.getElem_mem h)

theorem cumsumF_step (p : List ℝ) (hd : ∀ x ∈ p, IsDouble x) (hp : ∀ x ∈ p, 0 ≤ x) (i : ℕ) (h : i + 1 < p.length) :
    (cumsumF p).getD i 0 ≤ (cumsumF p).getD (i + 1) 0 ∧
    (p.getD (i + 1) 0 = 0 → (cumsumF p).getD (i + 1) 0 = (cumsumF p).getD i 0) := by
  obtain ⟨h1, h2⟩ := cumsumF_double p hd hp i (by omega)
  rw [cumsumF_succ p i h]
  refine ⟨fl_add_ge h1 h2 ?_, fun h0 => by rw [h0, add_zero, fl_of_double h1]⟩
  rw [List.getD_eq_getElem _ _ h]
  exact hp _ (List.getElem_mem h)

/-! ### Binary search -/

theorem searchRight_spec (a : List ℝ) (v : ℝ) (n : ℕ) (hmono : ∀ i j, i ≤ j → j < n → a.getD i 0 ≤ a.getD j 0)
    (lo hi : ℕ) (hlh : lo ≤ hi) (hn : hi ≤ n) (h1 : ∀ i < lo, a.getD i 0 ≤ v)
    (h2 : ∀ i, hi ≤ i → i < n → v < a.getD i 0) :
    searchRight a v lo hi ≤ n ∧ (∀ i < searchRight a v lo hi, a.getD i 0 ≤ v) ∧
      ∀ i, searchRight a v lo hi ≤ i → i < n → v < a.getD i 0 := by
  induction hlen : hi - lo using Nat.strong_induction_on generalizing lo hi with
  | _ d ih =>
    rw [searchRight]
    split_ifs with hlt hle
    · refine ih _ ?_ _ hi (by omega) hn ?_ h2 rfl
      · omega
      · intro i hi'
        exact (hmono i _ (by omega) (by omega)).trans hle
    · refine ih _ ?_ lo _ (by omega) (by omega) h1 ?_ rfl
      · omega
      · intro i hi' hin
        exact lt_of_lt_of_le (lt_of_not_ge hle) (hmono _ i hi' hin)
    · have : lo = hi := by omega
      subst this
      exact ⟨hn, h1, h2⟩

/-! ### Weighted draws -/

/-- Probabilities computed from integer weights. -/
noncomputable def probsF (w : List ℕ) : List ℝ := w.map fun x : ℕ => fl ((x : ℝ) / (w.sum : ℝ))

theorem fl_eq_zero {x : ℝ} (h : fl x = 0) : x = 0 := by
  have := fl_error x
  rw [h, zero_sub, abs_neg] at this
  have h0 := abs_nonneg x
  have : |x| = 0 := by
    have h2 : (1 / 2 ^ 53 : ℝ) ≤ 1 / 2 := by norm_num
    nlinarith
  exact abs_eq_zero.mp this

theorem sum_fl_error {u : ℝ} (hu : u = 1 / 2 ^ 53) (S : ℝ) (hS : 0 < S) : ∀ w : List ℕ,
    |(w.map fun x : ℕ => fl ((x : ℝ) / S)).sum - (w.sum : ℝ) / S| ≤ u * ((w.sum : ℝ) / S)
  | [] => by simp
  | x :: w => by
    have ih := sum_fl_error hu S hS w
    have e := fl_error ((x : ℝ) / S)
    rw [← hu, abs_of_nonneg (a := (x : ℝ) / S) (by positivity)] at e
    rw [List.map_cons, List.sum_cons, List.sum_cons, Nat.cast_add, add_div]
    rw [abs_le] at ih e ⊢
    constructor <;> linarith [ih.1, ih.2, e.1, e.2]

/-- Lower end of the interval of variates for index `i`. -/
noncomputable def lowerF (p : List ℝ) (i : ℕ) : ℝ := if i = 0 then 0 else (cdfF p).getD (i - 1) 0

theorem getLastD_eq (l : List ℝ) (h : l ≠ []) : l.getLastD 0 = l.getD (l.length - 1) 0 := by
  rw [List.getLastD_eq_getLast?, List.getLast?_eq_getElem?, List.getD_eq_getElem?_getD]

theorem cdfF_getD (p : List ℝ) {i : ℕ} (hi : i < p.length) :
    (cdfF p).getD i 0 = fl ((cumsumF p).getD i 0 / (cumsumF p).getD (p.length - 1) 0) := by
  have hi' : i < (cumsumF p).length := by rw [length_cumsumF]; exact hi
  have hne : cumsumF p ≠ [] := by
    intro h
    rw [h] at hi'
    simp at hi'
  unfold cdfF
  have hl := length_cumsumF p
  rw [List.getD_eq_getElem _ _ (by rw [List.length_map]; exact hi'), List.getElem_map,
    List.getD_eq_getElem _ _ hi', getLastD_eq _ hne]
  simp only [hl]

/-- What the draw does with probabilities computed from integer weights. -/
theorem draw_facts {u : ℝ} (hu : u = 1 / 2 ^ 53) (w : List ℕ) (hpos : 0 < w.sum) (hn : w.length ≤ 2 ^ 23) :
    lowerF (probsF w) 0 = 0 ∧ lowerF (probsF w) w.length = 1 ∧
    (∀ i < w.length, lowerF (probsF w) i ≤ lowerF (probsF w) (i + 1)) ∧
    (∀ i < w.length, w.getD i 0 = 0 → lowerF (probsF w) (i + 1) = lowerF (probsF w) i) ∧
    (∀ i ≤ w.length, |lowerF (probsF w) i - ((w.take i).sum : ℝ) / w.sum| ≤ (5 * w.length + 5) * u) ∧
    |fl (kahanSum (probsF w) - 1)| ≤ (2 : ℝ) ^ (-26 : ℤ) ∧ (∀ q ∈ probsF w, 0 ≤ q) := by
  have hu0 : 0 < u := by rw [hu]; positivity
  have hu1 : u ≤ 1 / 1000000 := by rw [hu]; norm_num
  have hS : (0 : ℝ) < w.sum := by exact_mod_cast hpos
  have hlen : (probsF w).length = w.length := by simp [probsF]
  have hne : w ≠ [] := by rintro rfl; simp at hpos
  have hlp : 0 < w.length := List.length_pos_of_ne_nil hne
  have hp : ∀ q ∈ probsF w, 0 ≤ q := by
    intro q hq
    obtain ⟨x, -, rfl⟩ := List.mem_map.mp hq
    exact fl_nonneg (by positivity)
  have hd : ∀ q ∈ probsF w, IsDouble q := by
    intro q hq
    obtain ⟨x, -, rfl⟩ := List.mem_map.mp hq
    exact double_fl _
  have htake : ∀ i, |((probsF w).take i).sum - ((w.take i).sum : ℝ) / w.sum| ≤ u := by
    intro i
    have := sum_fl_error hu (w.sum : ℝ) hS (w.take i)
    rw [probsF, ← List.map_take]
    refine this.trans ?_
    have h1 : ((w.take i).sum : ℝ) / w.sum ≤ 1 := by
      rw [div_le_one hS]
      have : (w.take i).sum ≤ w.sum := by
        have := List.sum_take_add_sum_drop w i
        omega
      exact_mod_cast this
    nlinarith
  have hsum : |(probsF w).sum - 1| ≤ u := by
    have := htake w.length
    rwa [List.take_length, div_self hS.ne', ← hlen, List.take_length] at this
  rw [abs_le] at hsum
  have hNu : (w.length : ℝ) * u ≤ 1 / 2 ^ 30 := by
    have : (w.length : ℝ) ≤ 2 ^ 23 := by exact_mod_cast hn
    have h2 := mul_le_mul_of_nonneg_right this hu0.le
    refine h2.trans ?_
    rw [hu]
    norm_num
  have hNu0 : 0 ≤ (w.length : ℝ) * u := by positivity
  have hn' : (probsF w).length ≤ 2 ^ 23 := by rw [hlen]; exact hn
  set C : ℕ → ℝ := fun i => (cumsumF (probsF w)).getD i 0 with hC
  have hCerr : ∀ i < w.length, |C i - ((w.take (i + 1)).sum : ℝ) / w.sum| ≤ (2 * w.length + 1) * u := by
    intro i hi
    have h1 := cumsumF_error hu (probsF w) hp (by linarith) hn' i (by rw [hlen]; exact hi)
    have h2 := htake (i + 1)
    rw [hlen] at h1
    rw [abs_le] at h1 h2 ⊢
    constructor <;> linarith [h1.1, h1.2, h2.1, h2.2]
  have hClast : |C (w.length - 1) - 1| ≤ (2 * w.length + 1) * u := by
    have := hCerr (w.length - 1) (by omega)
    rwa [show w.length - 1 + 1 = w.length by omega, List.take_length, div_self hS.ne'] at this
  have hK : (2 * w.length + 1) * u ≤ 1 / 1000 := by
    have : (2 * w.length + 1) * u = 2 * (w.length * u) + u := by ring
    rw [this]
    have : (1 : ℝ) / 2 ^ 30 ≤ 1 / 10000 := by norm_num
    linarith
  have hLpos : 0 < C (w.length - 1) := by
    rw [abs_le] at hClast
    linarith [hClast.1]
  have hCnn : ∀ i < w.length, 0 ≤ C i := fun i hi => (cumsumF_double _ hd hp i (by rw [hlen]; exact hi)).2
  have hstep := fun i (h : i + 1 < w.length) => cumsumF_step (probsF w) hd hp i (by rw [hlen]; exact h)
  have hmono : ∀ i j, i ≤ j → j < w.length → C i ≤ C j := by
    intro i j hij
    induction j, hij using Nat.le_induction with
    | base => intro _; exact le_rfl
    | succ j hij ih => intro hj; exact (ih (by omega)).trans (hstep j hj).1
  have hA : ∀ i < w.length, lowerF (probsF w) (i + 1) = fl (C i / C (w.length - 1)) := by
    intro i hi
    rw [lowerF, if_neg (by omega), Nat.add_sub_cancel, cdfF_getD _ (by rw [hlen]; exact hi), hlen]
  have hpz : ∀ i < w.length, w.getD i 0 = 0 → (probsF w).getD i 0 = 0 := by
    intro i hi h0
    rw [List.getD_eq_getElem _ _ hi] at h0
    rw [List.getD_eq_getElem _ _ (by rw [hlen]; exact hi)]
    simp [probsF, h0, fl_zero]
  have hC0 : C 0 = (probsF w).getD 0 0 := by
    simp only [hC]
    cases hpw : probsF w with
    | nil => rw [hpw] at hlen; simp at hlen; omega
    | cons a l => rfl
  refine ⟨by simp [lowerF], ?_, ?_, ?_, ?_, ?_, hp⟩
  · have := hA (w.length - 1) (by omega)
    rw [show w.length - 1 + 1 = w.length by omega, div_self hLpos.ne', fl_one] at this
    exact this
  · intro i hi
    rw [hA i hi]
    cases i with
    | zero =>
      rw [lowerF, if_pos rfl]
      exact fl_nonneg (div_nonneg (hCnn 0 hi) hLpos.le)
    | succ i =>
      rw [hA i (by omega)]
      exact fl_mono (div_nonneg (hCnn i (by omega)) hLpos.le)
        (div_le_div_of_nonneg_right (hmono i (i + 1) (by omega) hi) hLpos.le)
  · intro i hi h0
    rw [hA i hi]
    cases i with
    | zero =>
      rw [lowerF, if_pos rfl, hC0, hpz 0 hi h0, zero_div, fl_zero]
    | succ i =>
      rw [hA i (by omega)]
      have := (hstep i hi).2 (hpz (i + 1) hi h0)
      simp only [hC]
      rw [this]
  · intro i hi
    cases i with
    | zero =>
      simp only [lowerF, if_pos, List.take_zero, List.sum_nil, Nat.cast_zero, zero_div, sub_zero, abs_zero]
      positivity
    | succ i =>
      rw [hA i (by omega)]
      set q := ((w.take (i + 1)).sum : ℝ) / w.sum with hq
      have hq0 : 0 ≤ q := by positivity
      have hq1 : q ≤ 1 := by
        rw [hq, div_le_one hS]
        have : (w.take (i + 1)).sum ≤ w.sum := by
          have := List.sum_take_add_sum_drop w (i + 1)
          omega
        exact_mod_cast this
      have h1 := hCerr i (by omega)
      set L := C (w.length - 1) with hL
      set K := (2 * w.length + 1) * u with hKdef
      have hK0 : 0 ≤ K := by positivity
      have hle1 : C i / L ≤ 1 := by
        rw [div_le_one hLpos]
        exact hmono i _ (by omega) (by omega)
      have hnn := div_nonneg (hCnn i (by omega)) hLpos.le
      have h2 : |C i / L - q| ≤ 2 * K * (1001 / 1000 + 1 / 1000) := by
        have e : C i / L - q = (C i - q * L) / L := by field_simp
        rw [e, abs_div, abs_of_pos hLpos, div_le_iff₀ hLpos]
        rw [abs_le] at h1 hClast ⊢
        have h3 : q * (L - 1) ≤ K := by nlinarith [hClast.1, hClast.2]
        have h4 : -K ≤ q * (L - 1) := by nlinarith [hClast.1, hClast.2]
        have h5 : 2 * K ≤ 2 * K * (1001 / 1000 + 1 / 1000) * L := by
          have : (999 : ℝ) / 1000 ≤ L := by linarith [hClast.1]
          nlinarith
        constructor <;> nlinarith [h1.1, h1.2]
      have h6 := fl_error (C i / L)
      rw [← hu, abs_of_nonneg hnn] at h6
      have h7 : u * (C i / L) ≤ u := by nlinarith
      rw [abs_le] at h2 h6 ⊢
      have : (5 * (w.length : ℝ) + 5) * u = 5 / 2 * K + 5 / 2 * u := by rw [hKdef]; ring
      constructor <;> linarith [h2.1, h2.2, h6.1, h6.2]
  · have h1 := kahanSum_error hu (probsF w) hp (by linarith) hn'
    rw [hlen] at h1
    have h2 := fl_error (kahanSum (probsF w) - 1)
    rw [← hu] at h2
    rw [abs_le] at h1
    have e8 : 8 * (w.length : ℝ) * u ≤ 1 / 2 ^ 27 := by
      have : 8 * (w.length : ℝ) * u = 8 * (w.length * u) := by ring
      rw [this]
      have : (8 : ℝ) * (1 / 2 ^ 30) = 1 / 2 ^ 27 := by norm_num
      linarith
    have h3 : |kahanSum (probsF w) - 1| ≤ 1 / 2 ^ 27 + u := by
      rw [abs_le]
      constructor <;> linarith [h1.1, h1.2]
    have h4 : |kahanSum (probsF w) - 1| ≤ 1 := h3.trans (by
      have : (1 : ℝ) / 2 ^ 27 ≤ 1 / 2 := by norm_num
      linarith)
    have h5 : |fl (kahanSum (probsF w) - 1) - (kahanSum (probsF w) - 1)| ≤ u := h2.trans (by nlinarith)
    have h6 : (2 : ℝ) ^ (-26 : ℤ) = 1 / 2 ^ 27 + 1 / 2 ^ 27 := by norm_num
    have h7 : 2 * u ≤ 1 / 2 ^ 27 := by rw [hu]; norm_num
    rw [h6]
    rw [abs_le] at h3 h5 ⊢
    constructor <;> linarith [h3.1, h3.2, h5.1, h5.2]

/-- The index that a variate selects. -/
theorem choice_of_facts {p : List ℝ} (hlp : 0 < p.length) (h0 : lowerF p 0 = 0) (h1 : lowerF p p.length = 1)
    (h2 : ∀ i < p.length, lowerF p i ≤ lowerF p (i + 1)) (h5 : |fl (kahanSum p - 1)| ≤ (2 : ℝ) ^ (-26 : ℤ))
    (h6 : ∀ q ∈ p, 0 ≤ q) (k : ℕ) (hk : k < 2 ^ 53) :
    ∃ i, choiceF p k = .ok i ∧ i < p.length ∧
      ∀ j, j < p.length → (lowerF p j ≤ k / 2 ^ 53 ∧ (k : ℝ) / 2 ^ 53 < lowerF p (j + 1) ↔ j = i) := by
  set v : ℝ := (k : ℝ) / 2 ^ 53 with hv
  have hv1 : v < 1 := by
    rw [hv, div_lt_one (by positivity)]
    exact_mod_cast hk
  have hv0 : 0 ≤ v := by positivity
  have hLm : ∀ i j, i ≤ j → j ≤ p.length → lowerF p i ≤ lowerF p j := by
    intro i j hij
    induction j, hij using Nat.le_induction with
    | base => intro _; exact le_rfl
    | succ j hij ih => intro hj; exact (ih (by omega)).trans (h2 j (by omega))
  have hget : ∀ i, (cdfF p).getD i 0 = lowerF p (i + 1) := fun i => by simp [lowerF]
  obtain ⟨s1, s2, s3⟩ := searchRight_spec (cdfF p) v p.length (fun i j hij hj => by
    rw [hget, hget]
    exact hLm _ _ (by omega) (by omega)) 0 p.length (by omega) le_rfl (by simp) (fun i h1 h2 => by omega)
  set r := searchRight (cdfF p) v 0 p.length with hr
  have hrlt : r < p.length := by
    by_contra hcon
    have := s2 (p.length - 1) (by omega)
    rw [hget, show p.length - 1 + 1 = p.length by omega, h1] at this
    linarith
  refine ⟨r, ?_, hrlt, fun j hj => ?_⟩
  · unfold choiceF
    rw [if_neg (by intro h; rw [h] at hlp; simp at hlp),
      if_neg (by rintro ⟨q, hq, hlt⟩; linarith [h6 q hq]), if_neg (not_lt.mpr h5), ← hv, ← hr]
  · constructor
    · rintro ⟨a, b⟩
      rcases Nat.lt_trichotomy j r with hlt | heq | hgt
      · have := s2 j hlt
        rw [hget] at this
        linarith
      · exact heq
      · have := s3 (j - 1) (by omega) (by omega)
        rw [hget, show j - 1 + 1 = j by omega] at this
        linarith
    · intro hjr
      subst hjr
      refine ⟨?_, ?_⟩
      · rcases Nat.eq_zero_or_pos r with h | h
        · rw [h, h0]; exact hv0
        · have := s2 (r - 1) (by omega)
          rwa [hget, show r - 1 + 1 = r by omega] at this
      · have := s3 r le_rfl hj
        rwa [hget] at this

/-- The index that a variate selects, for probabilities computed from integer weights. -/
theorem choiceF_spec (w : List ℕ) (hpos : 0 < w.sum) (hn : w.length ≤ 2 ^ 23) (k : ℕ) (hk : k < 2 ^ 53) :
    ∃ i, choiceF (probsF w) k = .ok i ∧ i < w.length ∧
      ∀ j, j < w.length → (lowerF (probsF w) j ≤ k / 2 ^ 53 ∧ (k : ℝ) / 2 ^ 53 < lowerF (probsF w) (j + 1) ↔ j = i) := by
  obtain ⟨h0, h1, h2, -, -, h5, h6⟩ := draw_facts rfl w hpos hn
  have hlen : (probsF w).length = w.length := by simp [probsF]
  have hne : w ≠ [] := by rintro rfl; simp at hpos
  have hlp : 0 < w.length := List.length_pos_of_ne_nil hne
  rw [← hlen] at h1 h2 hlp ⊢
  exact choice_of_facts hlp h0 h1 h2 h5 h6 k hk

/-- The share of the variates in an interval. -/
theorem share_interval (M : ℕ) (hM : 0 < M) {a b : ℝ} (ha : 0 ≤ a) (hab : a ≤ b) (hb : b ≤ 1) :
    |(((Finset.range M).filter fun k : ℕ => a ≤ (k : ℝ) / M ∧ (k : ℝ) / M < b).card : ℝ) / M - (b - a)| ≤ 1 / M := by
  have hMr : (0 : ℝ) < M := by exact_mod_cast hM
  have hset : ((Finset.range M).filter fun k : ℕ => a ≤ (k : ℝ) / M ∧ (k : ℝ) / M < b) =
      Finset.Ico ⌈a * M⌉₊ ⌈b * M⌉₊ := by
    ext k
    simp only [Finset.mem_filter, Finset.mem_range, Finset.mem_Ico, Nat.ceil_le, Nat.lt_ceil]
    rw [le_div_iff₀ hMr, div_lt_iff₀ hMr]
    constructor
    · rintro ⟨-, h⟩; exact h
    · rintro ⟨h1, h2⟩
      refine ⟨?_, h1, h2⟩
      have : (k : ℝ) < M := lt_of_lt_of_le h2 (by nlinarith)
      exact_mod_cast this
  rw [hset, Nat.card_Ico]
  have hle : ⌈a * M⌉₊ ≤ ⌈b * M⌉₊ := Nat.ceil_mono (by nlinarith)
  rw [Nat.cast_sub hle]
  have a1 := Nat.le_ceil (a * M)
  have a2 := Nat.ceil_lt_add_one (a := a * M) (by positivity)
  have b1 := Nat.le_ceil (b * M)
  have b2 := Nat.ceil_lt_add_one (a := b * M) (mul_nonneg (ha.trans hab) hMr.le)
  have e : ((⌈b * (M : ℝ)⌉₊ : ℝ) - ⌈a * (M : ℝ)⌉₊) / M - (b - a) =
      ((⌈b * (M : ℝ)⌉₊ : ℝ) - ⌈a * (M : ℝ)⌉₊ - (b - a) * M) / M := by
    field_simp
  rw [e, abs_div, abs_of_pos hMr, div_le_div_iff_of_pos_right hMr, abs_le]
  constructor <;> nlinarith

open Classical in
/-- The probability of an index: the share of the 2⁵³ variates that select it. -/
noncomputable def chanceF (p : List ℝ) (i : ℕ) : ℝ :=
  (((Finset.range (2 ^ 53)).filter fun k => choiceF p k = .ok i).card : ℝ) / 2 ^ 53

theorem chanceF_error (w : List ℕ) (hpos : 0 < w.sum) (hn : w.length ≤ 2 ^ 23) (i : ℕ) (hi : i < w.length) :
    |chanceF (probsF w) i - (w.getD i 0 : ℝ) / w.sum| ≤ (10 * w.length + 11) / 2 ^ 53 := by
  classical
  obtain ⟨h0, h1, h2, -, h4, -, -⟩ := draw_facts rfl w hpos hn
  have hLm : ∀ i j, i ≤ j → j ≤ w.length → lowerF (probsF w) i ≤ lowerF (probsF w) j := by
    intro i j hij
    induction j, hij using Nat.le_induction with
    | base => intro _; exact le_rfl
    | succ j hij ih => intro hj; exact (ih (by omega)).trans (h2 j (by omega))
  have hset : ((Finset.range (2 ^ 53)).filter fun k => choiceF (probsF w) k = .ok i) =
      (Finset.range (2 ^ 53)).filter fun k : ℕ => lowerF (probsF w) i ≤ (k : ℝ) / (2 ^ 53 : ℕ) ∧
        (k : ℝ) / (2 ^ 53 : ℕ) < lowerF (probsF w) (i + 1) := by
    apply Finset.filter_congr
    intro k hk
    obtain ⟨j, hj, hjl, hiff⟩ := choiceF_spec w hpos hn k (Finset.mem_range.mp hk)
    have := hiff i hi
    rw [hj, Except.ok.injEq, Nat.cast_pow, Nat.cast_ofNat, this]
    exact eq_comm
  have hsh := share_interval (2 ^ 53) (by positivity) (a := lowerF (probsF w) i) (b := lowerF (probsF w) (i + 1))
    (by rw [← h0]; exact hLm 0 i (by omega) (by omega)) (h2 i hi) (by rw [← h1]; exact hLm _ _ (by omega) le_rfl)
  have ha := h4 i (by omega)
  have hb := h4 (i + 1) (by omega)
  have htake : ((w.take (i + 1)).sum : ℝ) = (w.take i).sum + w.getD i 0 := by
    rw [List.take_add_one, List.sum_append, List.getElem?_eq_getElem hi, List.getD_eq_getElem _ _ hi]
    simp
  rw [htake, add_div] at hb
  unfold chanceF
  rw [hset]
  have hc : (((2 ^ 53 : ℕ) : ℕ) : ℝ) = 2 ^ 53 := by rw [Nat.cast_pow, Nat.cast_ofNat]
  rw [hc] at hsh ⊢
  rw [abs_le] at hsh ha hb ⊢
  have e : (10 * (w.length : ℝ) + 11) / 2 ^ 53 = 2 * ((5 * w.length + 5) * (1 / 2 ^ 53)) + 1 / 2 ^ 53 := by ring
  rw [e]
  constructor <;> linarith [hsh.1, hsh.2, ha.1, ha.2, hb.1, hb.2]

theorem choiceF_positive (w : List ℕ) (hpos : 0 < w.sum) (hn : w.length ≤ 2 ^ 23) (k : ℕ) (hk : k < 2 ^ 53) :
    ∃ i, choiceF (probsF w) k = .ok i ∧ i < w.length ∧ 0 < w.getD i 0 := by
  obtain ⟨i, h1, h2, h3⟩ := choiceF_spec w hpos hn k hk
  refine ⟨i, h1, h2, Nat.pos_of_ne_zero fun h0 => ?_⟩
  obtain ⟨a, b⟩ := (h3 i h2).mpr rfl
  rw [(draw_facts rfl w hpos hn).2.2.2.1 i h2 h0] at b
  linarith

end Verif
