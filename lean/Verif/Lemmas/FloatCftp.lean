/-
Lemmas on coupling from the past in double precision.
-/
import Verif.Spec.FloatCftp
import Verif.Lemmas.Float
import Verif.Lemmas.CftpExact

namespace Verif

/-! ### Averages over the generator's outputs -/

theorem averageOver_zero (M : ℕ) (f : List ℕ → ℝ) : averageOver M 0 f = f [] := by
  simp [averageOver]

theorem averageOver_succ (M n : ℕ) (f : List ℕ → ℝ) :
    averageOver M (n + 1) f = (∑ k : Fin M, averageOver M n fun l => f ((k : ℕ) :: l)) / M := by
  unfold averageOver
  rw [← Finset.sum_div, div_div, ← pow_succ]
  congr 1
  rw [← Fintype.sum_equiv (Fin.consEquiv fun _ : Fin (n + 1) => Fin M)
    (fun x => f ((x.1 : ℕ) :: List.ofFn fun i => (x.2 i : ℕ))) _ (fun x => ?_), Fintype.sum_prod_type]
  simp [Fin.consEquiv, List.ofFn_succ]

theorem averageOver_congr {M n : ℕ} {f g : List ℕ → ℝ}
    (h : ∀ l : List ℕ, l.length = n → (∀ k ∈ l, k < M) → f l = g l) : averageOver M n f = averageOver M n g := by
  unfold averageOver
  congr 1
  apply Finset.sum_congr rfl
  intro ω _
  apply h
  · simp
  · intro k hk
    rw [List.mem_ofFn] at hk
    obtain ⟨i, rfl⟩ := hk
    exact (ω i).2

theorem averageOver_comm {M m n : ℕ} (f : List ℕ → List ℕ → ℝ) :
    averageOver M m (fun a => averageOver M n fun b => f a b) =
      averageOver M n fun b => averageOver M m fun a => f a b := by
  unfold averageOver
  rw [← Finset.sum_div, ← Finset.sum_div, Finset.sum_comm, div_div, div_div, mul_comm]

theorem averageOver_add (M m n : ℕ) (f : List ℕ → ℝ) :
    averageOver M (m + n) f = averageOver M m fun a => averageOver M n fun b => f (a ++ b) := by
  induction m generalizing f with
  | zero => rw [Nat.zero_add, averageOver_zero]; rfl
  | succ m ih =>
    rw [show m + 1 + n = (m + n) + 1 by omega, averageOver_succ, averageOver_succ]
    congr 1
    apply Finset.sum_congr rfl
    intro k _
    rw [ih]
    rfl

theorem averageOver_const {M : ℕ} (hM : 0 < M) (n : ℕ) (K : ℝ) : averageOver M n (fun _ => K) = K := by
  unfold averageOver
  have : (M : ℝ) ≠ 0 := by positivity
  simp [Finset.sum_const]
  field_simp

theorem averageOver_sum {ι : Type} (M n : ℕ) (s : Finset ι) (w : ι → ℝ) (f : ι → List ℕ → ℝ) :
    averageOver M n (fun l => ∑ i ∈ s, w i * f i l) = ∑ i ∈ s, w i * averageOver M n (f i) := by
  unfold averageOver
  rw [Finset.sum_comm, Finset.sum_div]
  apply Finset.sum_congr rfl
  intro i _
  rw [← Finset.mul_sum, mul_div_assoc]

theorem averageOver_lin (M n : ℕ) (a b : ℝ) (f g : List ℕ → ℝ) :
    averageOver M n (fun l => a * f l + b * g l) = a * averageOver M n f + b * averageOver M n g := by
  unfold averageOver
  rw [Finset.sum_add_distrib, ← Finset.mul_sum, ← Finset.mul_sum]
  ring

/-- The share of the outputs with a property. -/
noncomputable def shareOf (M : ℕ) (P : ℕ → Prop) : ℝ :=
  open Classical in ((Finset.range M).filter P).card / M

theorem shareOf_nonneg (M : ℕ) (P : ℕ → Prop) : 0 ≤ shareOf M P := by unfold shareOf; positivity

theorem shareOf_le_one (M : ℕ) (P : ℕ → Prop) : shareOf M P ≤ 1 := by
  classical
  unfold shareOf
  rcases Nat.eq_zero_or_pos M with h | h
  · subst h; simp
  rw [div_le_one (by positivity)]
  have := Finset.card_filter_le (Finset.range M) P
  rw [Finset.card_range] at this
  exact_mod_cast this

/-- Averaging a quantity that depends on which item an output selects. -/
theorem average_items {M : ℕ} (item : ℕ → ℕ) (S : Finset ℕ) (hS : ∀ k < M, item k ∈ S) (f : ℕ → ℝ) :
    (∑ k : Fin M, f (item k)) / M = ∑ x ∈ S, shareOf M (fun k => item k = x) * f x := by
  classical
  rw [Fin.sum_univ_eq_sum_range (fun k => f (item k)) M,
    ← Finset.sum_fiberwise_of_maps_to (g := item) (t := S) (fun k hk => hS k (Finset.mem_range.mp hk)), Finset.sum_div]
  apply Finset.sum_congr rfl
  intro x _
  rw [Finset.sum_congr rfl (g := fun _ => f x) (fun k hk => by rw [(Finset.mem_filter.mp hk).2]), Finset.sum_const,
    nsmul_eq_mul]
  unfold shareOf
  rw [mul_comm, mul_div_assoc, mul_comm]
  congr!

/-- Averaging a quantity that depends on whether an output has a property. -/
theorem average_test {M : ℕ} (hM : 0 < M) (P : ℕ → Prop) (a b : ℝ) :
    (∑ k : Fin M, open Classical in if P k then a else b) / M = shareOf M P * a + (1 - shareOf M P) * b := by
  classical
  have hM' : (M : ℝ) ≠ 0 := by positivity
  rw [Fin.sum_univ_eq_sum_range (fun k => if P k then a else b) M, Finset.sum_ite, Finset.sum_const, Finset.sum_const,
    nsmul_eq_mul, nsmul_eq_mul]
  have h := Finset.card_filter_add_card_filter_not (s := Finset.range M) P
  rw [Finset.card_range] at h
  have h' : (((Finset.range M).filter fun k => ¬ P k).card : ℝ) = M - ((Finset.range M).filter P).card := by
    rw [eq_sub_iff_add_eq, ← Nat.cast_add]
    congr 1
    omega
  rw [h']
  unfold shareOf
  have e : ((Finset.range M).filter fun k => P k).card = (@Finset.filter ℕ P (fun a => Classical.propDecidable (P a)) (Finset.range M)).card := by
    congr!
  rw [← e]
  field_simp

theorem averageOver_pull (M n : ℕ) (f : Fin M → List ℕ → ℝ) :
    averageOver M n (fun l => (∑ k, f k l) / M) = (∑ k, averageOver M n (f k)) / M := by
  unfold averageOver
  rw [← Finset.sum_div, ← Finset.sum_div, Finset.sum_comm, div_div, div_div, mul_comm]

namespace Cftp

/-! ### The chain as an operator -/

open Classical in
/-- One move of a chain that accepts with the probabilities `r`. -/
noncomputable def stepR (r : St → ℕ → ℕ → ℝ) (s : St) (d : ℕ × ℕ × ℝ) : St :=
  if d.2.2 < r s d.1 d.2.1 then some (d.1, d.2.1) else s

/-- Probability that it moves to `(p, n)` when it is proposed. -/
noncomputable def accR (r : St → ℕ → ℕ → ℝ) (M : ℕ) (s : St) (p n : ℕ) : ℝ := shareOf M fun k => (k : ℝ) / M < r s p n

/-- One step of it, on functions of the state; `ip` and `iq` say which record an output selects. -/
noncomputable def TR (c : Cftp) (r : St → ℕ → ℕ → ℝ) (M : ℕ) (ip iq : ℕ → ℕ) (h : St → ℝ) (s : St) : ℝ :=
  ∑ p ∈ c.posList.toFinset, shareOf M (fun k => ip k = p) *
    ∑ n ∈ c.negList.toFinset, shareOf M (fun k => iq k = n) *
      (accR r M s p n * h (some (p, n)) + (1 - accR r M s p n) * h s)

/-- The ratio for a proposal. -/
noncomputable def rF (c : Cftp) (s : St) (p n : ℕ) : ℝ := ratioF (c.chainOf s) (c.W p n) (c.wPos p * c.wNeg n)

open Classical in
/-- One move of the chain as a total function. -/
noncomputable def stepTF (c : Cftp) (s : St) (d : ℕ × ℕ × ℝ) : St :=
  if d.2.2 < c.rF s d.1 d.2.1 then some (d.1, d.2.1) else s

/-- Probability of moving to `(p, n)` when it is proposed. -/
noncomputable def accF (c : Cftp) (M : ℕ) (s : St) (p n : ℕ) : ℝ :=
  shareOf M fun k => (k : ℝ) / M < c.rF s p n

/-- One step of the chain, on functions of the state; `ip` and `iq` say which record an output selects. -/
noncomputable def TF (c : Cftp) (M : ℕ) (ip iq : ℕ → ℕ) (h : St → ℝ) (s : St) : ℝ :=
  ∑ p ∈ c.posList.toFinset, shareOf M (fun k => ip k = p) *
    ∑ n ∈ c.negList.toFinset, shareOf M (fun k => iq k = n) *
      (c.accF M s p n * h (some (p, n)) + (1 - c.accF M s p n) * h s)

variable {c : Cftp}

/-- The proposals that a block of outputs selects. -/
noncomputable def blockOf (M : ℕ) (ip iq : ℕ → ℕ) (us ps ns : List ℕ) : List (ℕ × ℕ × ℝ) :=
  (ps.map ip).zip ((ns.map iq).zip (us.map fun k : ℕ => (k : ℝ) / M))

theorem average_blockR (r : St → ℕ → ℕ → ℝ) {M : ℕ} (hM : 0 < M) {ip iq : ℕ → ℕ} (hp : ∀ k < M, ip k ∈ c.posList)
    (hq : ∀ k < M, iq k ∈ c.negList) (m : ℕ) (h : St → ℝ) (s : St) :
    averageOver M m (fun us => averageOver M m fun ps => averageOver M m fun ns =>
      h ((blockOf M ip iq us ps ns).foldl (stepR r) s)) = ((c.TR r M ip iq)^[m] h) s := by
  induction m generalizing s with
  | zero => simp only [averageOver_zero]; rfl
  | succ m ih =>
    rw [Function.iterate_succ_apply']
    simp only [averageOver_succ, averageOver_pull]
    have e : ∀ u p n : Fin M, averageOver M m (fun us => averageOver M m fun ps => averageOver M m fun ns =>
        h ((blockOf M ip iq ((u : ℕ) :: us) ((p : ℕ) :: ps) ((n : ℕ) :: ns)).foldl (stepR r) s)) =
        ((c.TR r M ip iq)^[m] h) (stepR r s (ip p, iq n, ((u : ℕ) : ℝ) / M)) := by
      intro u p n
      rw [← ih]
      rfl
    simp only [e]
    set g := (c.TR r M ip iq)^[m] h with hg
    unfold TR
    rw [← average_items ip _ (fun k hk => List.mem_toFinset.mpr (hp k hk)) (fun p => ∑ n ∈ c.negList.toFinset,
      shareOf M (fun k => iq k = n) * (accR r M s p n * g (some (p, n)) + (1 - accR r M s p n) * g s))]
    have e2 : ∀ p : Fin M, ∑ n ∈ c.negList.toFinset, shareOf M (fun k => iq k = n) *
        (accR r M s (ip p) n * g (some (ip p, n)) + (1 - accR r M s (ip p) n) * g s) =
        (∑ n : Fin M, (∑ u : Fin M, g (stepR r s (ip p, iq n, ((u : ℕ) : ℝ) / M))) / M) / M := by
      intro p
      rw [← average_items iq _ (fun k hk => List.mem_toFinset.mpr (hq k hk)) (fun n =>
        accR r M s (ip p) n * g (some (ip p, n)) + (1 - accR r M s (ip p) n) * g s)]
      congr 1
      apply Finset.sum_congr rfl
      intro n _
      unfold accR
      rw [← average_test hM]
      congr 1
      apply Finset.sum_congr rfl
      intro u _
      unfold stepR
      split <;> rfl
    simp only [e2]
    simp only [Finset.sum_div]
    rw [Finset.sum_comm]
    apply Finset.sum_congr rfl
    intro p _
    rw [Finset.sum_comm]

theorem average_block {M : ℕ} (hM : 0 < M) {ip iq : ℕ → ℕ} (hp : ∀ k < M, ip k ∈ c.posList)
    (hq : ∀ k < M, iq k ∈ c.negList) (m : ℕ) (h : St → ℝ) (s : St) :
    averageOver M m (fun us => averageOver M m fun ps => averageOver M m fun ns =>
      h ((blockOf M ip iq us ps ns).foldl c.stepTF s)) = ((c.TF M ip iq)^[m] h) s :=
  average_blockR c.rF hM hp hq m h s

/-! ### The two operators are close -/

theorem shareOf_sum {M : ℕ} (hM : 0 < M) {ip : ℕ → ℕ} {S : Finset ℕ} (hp : ∀ k < M, ip k ∈ S) :
    ∑ p ∈ S, shareOf M (fun k => ip k = p) = 1 := by
  have h := average_items ip S hp fun _ => 1
  simp only [Finset.sum_const, Finset.card_univ, Fintype.card_fin, nsmul_eq_mul, mul_one] at h
  rw [← h]
  have : (M : ℝ) ≠ 0 := by positivity
  exact div_self this

theorem acc_bounds (s : St) (p n : ℕ) : 0 ≤ c.acc s p n ∧ c.acc s p n ≤ 1 := by
  unfold acc
  exact ⟨le_max_left _ _, max_le zero_le_one (min_le_left _ _)⟩

/-- A weighted average stays in the range of what is averaged. -/
theorem weighted_bounds {S : Finset ℕ} {q f : ℕ → ℝ} (h0 : ∀ x ∈ S, 0 ≤ q x) (h1 : ∑ x ∈ S, q x = 1) {a b : ℝ}
    (hf : ∀ x ∈ S, a ≤ f x ∧ f x ≤ b) : a ≤ ∑ x ∈ S, q x * f x ∧ ∑ x ∈ S, q x * f x ≤ b := by
  constructor
  · calc a = ∑ x ∈ S, q x * a := by rw [← Finset.sum_mul, h1, one_mul]
      _ ≤ _ := Finset.sum_le_sum fun x hx => mul_le_mul_of_nonneg_left (hf x hx).1 (h0 x hx)
  · calc _ ≤ ∑ x ∈ S, q x * b := Finset.sum_le_sum fun x hx => mul_le_mul_of_nonneg_left (hf x hx).2 (h0 x hx)
      _ = b := by rw [← Finset.sum_mul, h1, one_mul]

/-- Two weighted averages. -/
theorem weighted_close {S : Finset ℕ} {q r f g : ℕ → ℝ} (hq0 : ∀ x ∈ S, 0 ≤ q x) (hq1 : ∑ x ∈ S, q x = 1)
    {d e : ℝ} (hd : ∑ x ∈ S, |r x - q x| ≤ d) (hf : ∀ x ∈ S, |f x| ≤ 1) (he : ∀ x ∈ S, |f x - g x| ≤ e) :
    |∑ x ∈ S, r x * f x - ∑ x ∈ S, q x * g x| ≤ d + e := by
  have e1 : ∑ x ∈ S, r x * f x - ∑ x ∈ S, q x * g x = ∑ x ∈ S, (r x - q x) * f x + ∑ x ∈ S, q x * (f x - g x) := by
    rw [← Finset.sum_sub_distrib, ← Finset.sum_add_distrib]
    exact Finset.sum_congr rfl fun x _ => by ring
  rw [e1]
  refine (abs_add_le _ _).trans (add_le_add ?_ ?_)
  · refine (Finset.abs_sum_le_sum_abs _ _).trans (le_trans (Finset.sum_le_sum fun x hx => ?_) hd)
    rw [abs_mul]
    exact mul_le_of_le_one_right (abs_nonneg _) (hf x hx)
  · refine (Finset.abs_sum_le_sum_abs _ _).trans ?_
    calc _ ≤ ∑ x ∈ S, q x * e := Finset.sum_le_sum fun x hx => by
          rw [abs_mul, abs_of_nonneg (hq0 x hx)]
          exact mul_le_mul_of_nonneg_left (he x hx) (hq0 x hx)
      _ = e := by rw [← Finset.sum_mul, hq1, one_mul]

theorem convex_bounds {a x y : ℝ} (h0 : 0 ≤ a) (h1 : a ≤ 1) {l r : ℝ} (hx : l ≤ x ∧ x ≤ r) (hy : l ≤ y ∧ y ≤ r) :
    l ≤ a * x + (1 - a) * y ∧ a * x + (1 - a) * y ≤ r := by
  constructor <;> nlinarith [hx.1, hx.2, hy.1, hy.2]

theorem T_eq (c : Cftp) (h : St → ℝ) (s : St) : c.T h s = ∑ p ∈ c.posList.toFinset, c.qP p *
    ∑ n ∈ c.negList.toFinset, c.qN n * (c.acc s p n * h (some (p, n)) + (1 - c.acc s p n) * h s) := by
  unfold T
  apply Finset.sum_congr rfl
  intro p _
  rw [Finset.mul_sum]
  apply Finset.sum_congr rfl
  intro n _
  ring

theorem qP_nonneg (hr : c.Ready) : ∀ p ∈ c.posList.toFinset, 0 ≤ c.qP p := fun p hp =>
  div_nonneg (hr.wPos_nonneg p (List.mem_toFinset.mp hp)) hr.posSum.le

theorem qN_nonneg (hr : c.Ready) : ∀ n ∈ c.negList.toFinset, 0 ≤ c.qN n := fun n hn =>
  div_nonneg (hr.wNeg_nonneg n (List.mem_toFinset.mp hn)) hr.negSum.le

theorem T_bounds (hr : c.Ready) {h : St → ℝ} (hh : ∀ s, 0 ≤ h s ∧ h s ≤ 1) (s : St) :
    0 ≤ c.T h s ∧ c.T h s ≤ 1 := by
  rw [T_eq]
  refine weighted_bounds (qP_nonneg hr) (sum_qP hr) fun p _ => weighted_bounds (qN_nonneg hr) (sum_qN hr) fun n _ => ?_
  exact convex_bounds (acc_bounds s p n).1 (acc_bounds s p n).2 (hh _) (hh _)

theorem T_iter_bounds (hr : c.Ready) {h : St → ℝ} (hh : ∀ s, 0 ≤ h s ∧ h s ≤ 1) (k : ℕ) :
    ∀ s, 0 ≤ (c.T^[k] h) s ∧ (c.T^[k] h) s ≤ 1 := by
  induction k with
  | zero => exact hh
  | succ k ih => intro s; rw [Function.iterate_succ_apply']; exact T_bounds hr ih s

theorem TR_step_close (r : St → ℕ → ℕ → ℝ) (hr : c.Ready) {M : ℕ} {ip iq : ℕ → ℕ} {dP dN dA : ℝ}
    (hdP : ∑ p ∈ c.posList.toFinset, |shareOf M (fun k => ip k = p) - c.qP p| ≤ dP)
    (hdN : ∑ n ∈ c.negList.toFinset, |shareOf M (fun k => iq k = n) - c.qN n| ≤ dN)
    (hdA : ∀ s, ∀ p ∈ c.posList.toFinset, ∀ n ∈ c.negList.toFinset, |accR r M s p n - c.acc s p n| ≤ dA)
    {h : St → ℝ} (hh : ∀ s, 0 ≤ h s ∧ h s ≤ 1) (hM : 0 < M) (hq : ∀ k < M, iq k ∈ c.negList) (s : St) :
    |c.TR r M ip iq h s - c.T h s| ≤ dP + dN + dA := by
  rw [T_eq]
  unfold TR
  rw [add_assoc]
  refine weighted_close (qP_nonneg hr) (sum_qP hr) hdP (fun p _ => ?_) fun p hp => ?_
  · have hb := weighted_bounds (S := c.negList.toFinset) (q := fun n => shareOf M (fun k => iq k = n))
      (fun _ _ => shareOf_nonneg _ _) (shareOf_sum hM fun k hk => List.mem_toFinset.mpr (hq k hk))
      (f := fun n => accR r M s p n * h (some (p, n)) + (1 - accR r M s p n) * h s) (a := 0) (b := 1)
      (fun n _ => convex_bounds (shareOf_nonneg _ _) (shareOf_le_one _ _) (hh _) (hh _))
    rw [abs_le]
    constructor <;> linarith [hb.1, hb.2]
  · refine weighted_close (qN_nonneg hr) (sum_qN hr) hdN (fun n _ => ?_) fun n hn => ?_
    · have hb := convex_bounds (a := accR r M s p n) (shareOf_nonneg _ _) (shareOf_le_one _ _) (hh (some (p, n))) (hh s)
      rw [abs_le]
      constructor <;> linarith [hb.1, hb.2]
    · have e : accR r M s p n * h (some (p, n)) + (1 - accR r M s p n) * h s -
          (c.acc s p n * h (some (p, n)) + (1 - c.acc s p n) * h s) =
          (accR r M s p n - c.acc s p n) * (h (some (p, n)) - h s) := by ring
      rw [e, abs_mul]
      refine (mul_le_of_le_one_right (abs_nonneg _) ?_).trans (hdA s p hp n hn)
      rw [abs_le]
      constructor <;> linarith [(hh (some (p, n))).1, (hh (some (p, n))).2, (hh s).1, (hh s).2]

theorem TF_step_close (hr : c.Ready) {M : ℕ} {ip iq : ℕ → ℕ} {dP dN dA : ℝ}
    (hdP : ∑ p ∈ c.posList.toFinset, |shareOf M (fun k => ip k = p) - c.qP p| ≤ dP)
    (hdN : ∑ n ∈ c.negList.toFinset, |shareOf M (fun k => iq k = n) - c.qN n| ≤ dN)
    (hdA : ∀ s, ∀ p ∈ c.posList.toFinset, ∀ n ∈ c.negList.toFinset, |c.accF M s p n - c.acc s p n| ≤ dA)
    {h : St → ℝ} (hh : ∀ s, 0 ≤ h s ∧ h s ≤ 1) (hM : 0 < M) (hq : ∀ k < M, iq k ∈ c.negList) (s : St) :
    |c.TF M ip iq h s - c.T h s| ≤ dP + dN + dA :=
  TR_step_close c.rF hr hdP hdN hdA hh hM hq s

theorem TR_sub_le (r : St → ℕ → ℕ → ℝ) {M : ℕ} {ip iq : ℕ → ℕ} (hM : 0 < M) (hp : ∀ k < M, ip k ∈ c.posList)
    (hq : ∀ k < M, iq k ∈ c.negList) {f g : St → ℝ} {e : ℝ} (h : ∀ s, |f s - g s| ≤ e) (s : St) :
    |c.TR r M ip iq f s - c.TR r M ip iq g s| ≤ e := by
  have e1 : c.TR r M ip iq f s - c.TR r M ip iq g s = ∑ p ∈ c.posList.toFinset, shareOf M (fun k => ip k = p) *
      ∑ n ∈ c.negList.toFinset, shareOf M (fun k => iq k = n) *
        (accR r M s p n * (f (some (p, n)) - g (some (p, n))) + (1 - accR r M s p n) * (f s - g s)) := by
    unfold TR
    rw [← Finset.sum_sub_distrib]
    apply Finset.sum_congr rfl
    intro p _
    rw [← mul_sub, ← Finset.sum_sub_distrib]
    congr 1
    apply Finset.sum_congr rfl
    intro n _
    ring
  rw [e1, abs_le]
  refine weighted_bounds (fun _ _ => shareOf_nonneg _ _) (shareOf_sum hM fun k hk => List.mem_toFinset.mpr (hp k hk))
    fun p _ => weighted_bounds (fun _ _ => shareOf_nonneg _ _) (shareOf_sum hM fun k hk => List.mem_toFinset.mpr (hq k hk))
    fun n _ => convex_bounds (shareOf_nonneg _ _) (shareOf_le_one _ _) (abs_le.mp (h _)) (abs_le.mp (h _))

theorem TF_sub_le {M : ℕ} {ip iq : ℕ → ℕ} (hM : 0 < M) (hp : ∀ k < M, ip k ∈ c.posList)
    (hq : ∀ k < M, iq k ∈ c.negList) {f g : St → ℝ} {e : ℝ} (h : ∀ s, |f s - g s| ≤ e) (s : St) :
    |c.TF M ip iq f s - c.TF M ip iq g s| ≤ e :=
  TR_sub_le c.rF hM hp hq h s

theorem TR_iter_close (r : St → ℕ → ℕ → ℝ) (hr : c.Ready) {M : ℕ} {ip iq : ℕ → ℕ} {dP dN dA : ℝ}
    (hdP : ∑ p ∈ c.posList.toFinset, |shareOf M (fun k => ip k = p) - c.qP p| ≤ dP)
    (hdN : ∑ n ∈ c.negList.toFinset, |shareOf M (fun k => iq k = n) - c.qN n| ≤ dN)
    (hdA : ∀ s, ∀ p ∈ c.posList.toFinset, ∀ n ∈ c.negList.toFinset, |accR r M s p n - c.acc s p n| ≤ dA)
    {h : St → ℝ} (hh : ∀ s, 0 ≤ h s ∧ h s ≤ 1) (hM : 0 < M) (hp : ∀ k < M, ip k ∈ c.posList)
    (hq : ∀ k < M, iq k ∈ c.negList) (k : ℕ) :
    ∀ s, |((c.TR r M ip iq)^[k] h) s - (c.T^[k] h) s| ≤ k * (dP + dN + dA) := by
  induction k with
  | zero => intro s; simp
  | succ k ih =>
    intro s
    rw [Function.iterate_succ_apply', Function.iterate_succ_apply']
    have h1 := TR_sub_le r hM hp hq ih s
    have h2 := TR_step_close r hr hdP hdN hdA (T_iter_bounds hr hh k) hM hq s
    have h3 := abs_sub_le (c.TR r M ip iq ((c.TR r M ip iq)^[k] h) s) (c.TR r M ip iq (c.T^[k] h) s) (c.T (c.T^[k] h) s)
    push_cast
    linarith

theorem TF_iter_close (hr : c.Ready) {M : ℕ} {ip iq : ℕ → ℕ} {dP dN dA : ℝ}
    (hdP : ∑ p ∈ c.posList.toFinset, |shareOf M (fun k => ip k = p) - c.qP p| ≤ dP)
    (hdN : ∑ n ∈ c.negList.toFinset, |shareOf M (fun k => iq k = n) - c.qN n| ≤ dN)
    (hdA : ∀ s, ∀ p ∈ c.posList.toFinset, ∀ n ∈ c.negList.toFinset, |c.accF M s p n - c.acc s p n| ≤ dA)
    {h : St → ℝ} (hh : ∀ s, 0 ≤ h s ∧ h s ≤ 1) (hM : 0 < M) (hp : ∀ k < M, ip k ∈ c.posList)
    (hq : ∀ k < M, iq k ∈ c.negList) (k : ℕ) :
    ∀ s, |((c.TF M ip iq)^[k] h) s - (c.T^[k] h) s| ≤ k * (dP + dN + dA) :=
  TR_iter_close c.rF hr hdP hdN hdA hh hM hp hq k

end Cftp

end Verif
