/-
Lemmas on doubles with overflow: relative errors, sums in any order, and drawing with weights that are not whole.
-/
import Verif.Lemmas.FloatBoley

namespace Verif

/-! ### Relative errors -/

/-- The numbers agree up to a factor `(1 + 2⁻⁵³)ʲ`. -/
def RelClose (j : ℕ) (x y : ℝ) : Prop :=
  x ≤ y * (1 + 1 / 2 ^ 53) ^ j ∧ y ≤ x * (1 + 1 / 2 ^ 53) ^ j

theorem rel_one_le (j : ℕ) : (1 : ℝ) ≤ (1 + 1 / 2 ^ 53) ^ j := one_le_pow₀ (by norm_num)

theorem rel_pos (j : ℕ) : (0 : ℝ) < (1 + 1 / 2 ^ 53) ^ j := lt_of_lt_of_le one_pos (rel_one_le j)

namespace RelClose

theorem symm {j : ℕ} {x y : ℝ} (h : RelClose j x y) : RelClose j y x := ⟨h.2, h.1⟩

theorem mono {j k : ℕ} {x y : ℝ} (h : RelClose j x y) (hx : 0 ≤ x) (hy : 0 ≤ y) (hjk : j ≤ k) : RelClose k x y := by
  have hp : (1 + 1 / 2 ^ 53 : ℝ) ^ j ≤ (1 + 1 / 2 ^ 53) ^ k := pow_le_pow_right₀ (by norm_num) hjk
  exact ⟨h.1.trans (mul_le_mul_of_nonneg_left hp hy), h.2.trans (mul_le_mul_of_nonneg_left hp hx)⟩

theorem refl {x : ℝ} (hx : 0 ≤ x) (j : ℕ) : RelClose j x x :=
  ⟨le_mul_of_one_le_right hx (rel_one_le j), le_mul_of_one_le_right hx (rel_one_le j)⟩

theorem trans {j k : ℕ} {x y z : ℝ} (h1 : RelClose j x y) (h2 : RelClose k y z) : RelClose (j + k) x z := by
  constructor
  · refine h1.1.trans ((mul_le_mul_of_nonneg_right h2.1 (rel_pos j).le).trans (le_of_eq ?_))
    rw [pow_add]; ring
  · refine h2.2.trans ((mul_le_mul_of_nonneg_right h1.2 (rel_pos k).le).trans (le_of_eq ?_))
    rw [pow_add]; ring

theorem round {x : ℝ} (hx : 0 ≤ x) : RelClose 2 (fl x) x := by
  have h := abs_le.mp (fl_error x)
  rw [abs_of_nonneg hx] at h
  have hp : (1 / 2 ^ 53 : ℝ) * x ≥ 0 := by positivity
  constructor
  · nlinarith [h.2]
  · have h1 : x * (1 - 1 / 2 ^ 53) ≤ fl x := by linarith [h.1]
    have h2 : x * (1 - 1 / 2 ^ 53) * (1 + 1 / 2 ^ 53) ^ 2 ≤ fl x * (1 + 1 / 2 ^ 53) ^ 2 :=
      mul_le_mul_of_nonneg_right h1 (by positivity)
    refine le_trans ?_ h2
    rw [mul_assoc]
    refine le_mul_of_one_le_right hx ?_
    norm_num

theorem mul {j k : ℕ} {x y x' y' : ℝ} (h : RelClose j x y) (h' : RelClose k x' y') (hx : 0 ≤ x) (hy : 0 ≤ y)
    (hx' : 0 ≤ x') (hy' : 0 ≤ y') : RelClose (j + k) (x * x') (y * y') := by
  constructor
  · refine (mul_le_mul h.1 h'.1 hx' (mul_nonneg hy (rel_pos j).le)).trans (le_of_eq ?_)
    rw [pow_add]; ring
  · refine (mul_le_mul h.2 h'.2 hy' (mul_nonneg hx (rel_pos j).le)).trans (le_of_eq ?_)
    rw [pow_add]; ring

theorem pos_iff {j : ℕ} {x y : ℝ} (h : RelClose j x y) : 0 < x ↔ 0 < y := by
  constructor
  · intro hx
    by_contra hy
    have := h.1.trans (mul_nonpos_of_nonpos_of_nonneg (not_lt.mp hy) (rel_pos j).le)
    linarith
  · intro hy
    by_contra hx
    have := h.2.trans (mul_nonpos_of_nonpos_of_nonneg (not_lt.mp hx) (rel_pos j).le)
    linarith

theorem inv {k : ℕ} {x y : ℝ} (h : RelClose k x y) (hx : 0 < x) (hy : 0 < y) : RelClose k x⁻¹ y⁻¹ := by
  constructor
  · rw [inv_mul_eq_div, le_div_iff₀ hy, inv_mul_le_iff₀ hx]
    exact h.2
  · rw [inv_mul_eq_div, le_div_iff₀ hx, inv_mul_le_iff₀ hy]
    exact h.1

theorem div {j k : ℕ} {x y x' y' : ℝ} (h : RelClose j x y) (h' : RelClose k x' y') (hx : 0 ≤ x) (hy : 0 ≤ y)
    (hx' : 0 < x') (hy' : 0 < y') : RelClose (j + k) (x / x') (y / y') := by
  rw [div_eq_mul_inv, div_eq_mul_inv]
  exact h.mul (h'.inv hx' hy') hx hy (by positivity) (by positivity)

theorem add {j : ℕ} {x y x' y' : ℝ} (h : RelClose j x y) (h' : RelClose j x' y') :
    RelClose j (x + x') (y + y') := by
  constructor
  · rw [add_mul]; exact add_le_add h.1 h'.1
  · rw [add_mul]; exact add_le_add h.2 h'.2

theorem list_sum {ι : Type} {j : ℕ} (l : List ι) (f g : ι → ℝ) (h : ∀ i ∈ l, RelClose j (f i) (g i)) :
    RelClose j (l.map f).sum (l.map g).sum := by
  induction l with
  | nil => simp [RelClose]
  | cons i l ih =>
    rw [List.map_cons, List.map_cons, List.sum_cons, List.sum_cons]
    exact (h i List.mem_cons_self).add (ih fun x hx => h x (List.mem_cons_of_mem _ hx))

end RelClose

/-- The factor is small. -/
theorem rel_le {j : ℕ} (hj : j ≤ 2 ^ 52) : (1 + 1 / 2 ^ 53 : ℝ) ^ j ≤ 1 + 2 * j / 2 ^ 53 := by
  have hjr : (j : ℝ) ≤ 2 ^ 52 := by exact_mod_cast hj
  have h1 : 1 + (j : ℝ) * (-(1 / 2 ^ 53)) ≤ (1 + -(1 / 2 ^ 53)) ^ j :=
    one_add_mul_le_pow (by norm_num) j
  have h2 : (1 + 1 / 2 ^ 53 : ℝ) ^ j * (1 + -(1 / 2 ^ 53)) ^ j ≤ 1 := by
    rw [← mul_pow]
    exact pow_le_one₀ (by norm_num) (by norm_num)
  have h3 : (0 : ℝ) < 1 - j / 2 ^ 53 := by
    have : (j : ℝ) / 2 ^ 53 ≤ 1 / 2 := by
      rw [div_le_iff₀ (by positivity)]
      refine hjr.trans (le_of_eq ?_)
      norm_num
    linarith
  have h4 : (1 + 1 / 2 ^ 53 : ℝ) ^ j * (1 - j / 2 ^ 53) ≤ 1 := by
    refine le_trans (mul_le_mul_of_nonneg_left ?_ (rel_pos j).le) h2
    refine le_trans (le_of_eq ?_) h1
    ring
  rw [← le_div_iff₀ h3] at h4
  refine h4.trans ?_
  rw [div_le_iff₀ h3]
  have h5 : (j : ℝ) / 2 ^ 53 ≤ 1 / 2 := by
    rw [div_le_iff₀ (by positivity)]
    refine hjr.trans (le_of_eq ?_)
    norm_num
  have h6 : (0 : ℝ) ≤ (j : ℝ) / 2 ^ 53 := by positivity
  rw [mul_div_assoc]
  nlinarith

theorem rel_abs {j : ℕ} (hj : j ≤ 2 ^ 52) {x y : ℝ} (hx : 0 ≤ x) (hy : 0 ≤ y) (h : RelClose j x y) :
    |x - y| ≤ y * (2 * j / 2 ^ 53) := by
  have h1 := rel_le hj
  have hE : (0 : ℝ) ≤ 2 * j / 2 ^ 53 := by positivity
  set E : ℝ := 2 * j / 2 ^ 53 with hEd
  have a1 : x ≤ y * (1 + E) := h.1.trans (mul_le_mul_of_nonneg_left h1 hy)
  have a2 : y ≤ x * (1 + E) := h.2.trans (mul_le_mul_of_nonneg_left h1 hx)
  rw [abs_le]
  constructor
  · rcases le_total x y with h3 | h3
    · nlinarith
    · nlinarith
  · nlinarith

theorem rel_min {j : ℕ} (hj : j ≤ 2 ^ 52) {x y : ℝ} (hx : 0 ≤ x) (hy : 0 ≤ y) (h : RelClose j x y) :
    |min 1 x - min 1 y| ≤ 2 * j / 2 ^ 53 := by
  have h1 := rel_le hj
  have hE : (0 : ℝ) ≤ 2 * j / 2 ^ 53 := by positivity
  set E : ℝ := 2 * j / 2 ^ 53 with hEd
  have a1 : x ≤ y * (1 + E) := h.1.trans (mul_le_mul_of_nonneg_left h1 hy)
  have a2 : y ≤ x * (1 + E) := h.2.trans (mul_le_mul_of_nonneg_left h1 hx)
  rw [abs_le]
  rcases le_total 1 x with hx1 | hx1 <;> rcases le_total 1 y with hy1 | hy1
  · rw [min_eq_left hx1, min_eq_left hy1]; constructor <;> linarith
  · rw [min_eq_left hx1, min_eq_right hy1]; constructor <;> nlinarith
  · rw [min_eq_right hx1, min_eq_left hy1]; constructor <;> nlinarith
  · rw [min_eq_right hx1, min_eq_right hy1]; constructor <;> nlinarith

theorem fl_pos {x : ℝ} (h : 0 < x) : 0 < fl x := (RelClose.round h.le).pos_iff.mpr h

/-! ### Sums in any order -/

namespace Dbl

theorem round_num {x : ℝ} (h : fl x < 2 ^ 1024) : round x = num (fl x) := if_pos h

theorem Tree.leaves_length_pos (t : Tree) : 0 < t.leaves.length := by
  induction t with
  | leaf x => exact Nat.one_pos
  | node a b iha ihb => rw [Tree.leaves, List.length_append]; omega

/-- The value of a sum of numbers. -/
theorem Tree.eval_num : ∀ (t : Tree) (l : List ℝ), t.leaves = l.map num → (∀ x ∈ l, 0 ≤ x) →
    l.sum * (1 + 1 / 2 ^ 53) ^ (2 * (l.length - 1)) < 2 ^ 1024 →
    ∃ v, t.eval = num v ∧ 0 ≤ v ∧ RelClose (2 * (l.length - 1)) v l.sum
  | .leaf x, l, hl, h0, _ => by
    cases l with
    | nil => simp [Tree.leaves] at hl
    | cons y l =>
      cases l with
      | cons z l => simp [Tree.leaves] at hl
      | nil =>
        simp only [Tree.leaves, List.map_cons, List.map_nil, List.cons.injEq, and_true] at hl
        subst hl
        have hy := h0 y List.mem_cons_self
        refine ⟨y, rfl, hy, ?_⟩
        rw [List.sum_singleton]
        exact RelClose.refl hy _
  | .node a b, l, hl, h0, hs => by
    rw [Tree.leaves] at hl
    have hla := a.leaves_length_pos
    have hlb := b.leaves_length_pos
    obtain ⟨la, lb, rfl, ea, eb⟩ := List.append_eq_map_iff.mp hl
    have na : la.length = a.leaves.length := by rw [← ea, List.length_map]
    have nb : lb.length = b.leaves.length := by rw [← eb, List.length_map]
    have h0a : ∀ x ∈ la, 0 ≤ x := fun x hx => h0 x (List.mem_append_left _ hx)
    have h0b : ∀ x ∈ lb, 0 ≤ x := fun x hx => h0 x (List.mem_append_right _ hx)
    have sa := List.sum_nonneg h0a
    have sb := List.sum_nonneg h0b
    rw [List.sum_append, List.length_append] at hs
    rw [List.sum_append, List.length_append]
    set n := la.length + lb.length with hn
    have hpow : ∀ k, k ≤ 2 * (n - 1) → (1 + 1 / 2 ^ 53 : ℝ) ^ k ≤ (1 + 1 / 2 ^ 53) ^ (2 * (n - 1)) := fun k hk =>
      pow_le_pow_right₀ (by norm_num) hk
    obtain ⟨va, e1, p1, c1⟩ := Tree.eval_num a la ea.symm h0a (lt_of_le_of_lt
      (mul_le_mul (by linarith) (hpow _ (by omega)) (rel_pos _).le (by linarith)) hs)
    obtain ⟨vb, e2, p2, c2⟩ := Tree.eval_num b lb eb.symm h0b (lt_of_le_of_lt
      (mul_le_mul (by linarith) (hpow _ (by omega)) (rel_pos _).le (by linarith)) hs)
    have c1' := c1.mono p1 sa (show 2 * (la.length - 1) ≤ 2 * (n - 2) by omega)
    have c2' := c2.mono p2 sb (show 2 * (lb.length - 1) ≤ 2 * (n - 2) by omega)
    have c3 := (RelClose.round (add_nonneg p1 p2)).trans (c1'.add c2')
    rw [show 2 + 2 * (n - 2) = 2 * (n - 1) by omega] at c3
    refine ⟨fl (va + vb), ?_, fl_nonneg (by linarith), c3⟩
    rw [Tree.eval, e1, e2]
    exact round_num (lt_of_le_of_lt c3.1 hs)

theorem perm_map_num {t : List Dbl} {l : List ℝ} (h : t.Perm (l.map num)) :
    ∃ l' : List ℝ, l'.Perm l ∧ t = l'.map num := by
  let val : Dbl → ℝ := fun
    | num x => x
    | _ => 0
  refine ⟨t.map val, ?_, ?_⟩
  · have := h.map val
    rw [List.map_map] at this
    rwa [show val ∘ num = id from rfl, List.map_id] at this
  · rw [List.map_map]
    conv_lhs => rw [← List.map_id t]
    refine List.map_congr_left fun x hx => ?_
    obtain ⟨r, -, rfl⟩ := List.mem_map.mp (h.mem_iff.mp hx)
    rfl

theorem Order.sum_num (S : Order) (l : List ℝ) (hne : l ≠ []) (h0 : ∀ x ∈ l, 0 ≤ x)
    (hs : l.sum * (1 + 1 / 2 ^ 53) ^ (2 * (l.length - 1)) < 2 ^ 1024) :
    ∃ v, S.sum (l.map num) = num v ∧ 0 ≤ v ∧ RelClose (2 * (l.length - 1)) v l.sum := by
  have hne' : l.map num ≠ [] := by simpa using hne
  have hp := S.leaves (l.map num) hne'
  obtain ⟨l', hl', e⟩ := perm_map_num hp
  rw [← hl'.sum_eq, ← hl'.length_eq] at hs
  obtain ⟨v, h1, h2, h3⟩ := Tree.eval_num _ l' e (fun x hx => h0 x (hl'.mem_iff.mp hx)) hs
  rw [hl'.sum_eq, hl'.length_eq] at h3
  exact ⟨v, by unfold Order.sum; rw [if_neg hne', h1], h2, h3⟩

theorem numbers_map (l : List ℝ) : numbers (l.map num) = some l := by
  induction l with
  | nil => rfl
  | cons x l ih => rw [List.map_cons, numbers, ih]; rfl

theorem numbers_nan {l : List Dbl} (h : nan ∈ l) : numbers l = none := by
  induction l with
  | nil => cases h
  | cons x l ih =>
    cases x with
    | num x =>
      rw [numbers, ih (by simpa using h)]
      rfl
    | inf => rfl
    | nan => rfl

/-- A sum with an infinite summand and no NaN is infinite. -/
theorem Tree.eval_inf (t : Tree) (h : ∀ x ∈ t.leaves, x ≠ nan) : t.eval ≠ nan ∧ (inf ∈ t.leaves → t.eval = inf) := by
  induction t with
  | leaf x =>
    simp only [Tree.leaves, List.mem_singleton, forall_eq, Tree.eval] at h ⊢
    exact ⟨h, fun e => e.symm⟩
  | node a b iha ihb =>
    rw [Tree.leaves] at h ⊢
    obtain ⟨a1, a2⟩ := iha fun x hx => h x (List.mem_append_left _ hx)
    obtain ⟨b1, b2⟩ := ihb fun x hx => h x (List.mem_append_right _ hx)
    rw [Tree.eval]
    constructor
    · generalize a.eval = x at *
      generalize b.eval = y at *
      cases x <;> cases y <;> simp_all [add, Dbl.round]
      split <;> simp
    · intro hm
      rcases List.mem_append.mp hm with h1 | h1
      · rw [a2 h1]
        generalize b.eval = y at *
        cases y <;> simp_all [add]
      · rw [b2 h1]
        generalize a.eval = x at *
        cases x <;> simp_all [add]

/-- A sum of positive numbers is not zero. -/
theorem Tree.eval_pos (t : Tree) (h : ∀ x ∈ t.leaves, ∃ r, x = num r ∧ 0 < r) :
    t.eval = inf ∨ ∃ r, t.eval = num r ∧ 0 < r := by
  induction t with
  | leaf x => exact Or.inr (h x (by simp [Tree.leaves]))
  | node a b iha ihb =>
    rw [Tree.leaves] at h
    have ha := iha fun x hx => h x (List.mem_append_left _ hx)
    have hb := ihb fun x hx => h x (List.mem_append_right _ hx)
    rw [Tree.eval]
    rcases ha with ha | ⟨r, ha, hr⟩ <;> rcases hb with hb | ⟨q, hb, hq⟩ <;> rw [ha, hb]
    · exact Or.inl rfl
    · exact Or.inl rfl
    · exact Or.inl rfl
    · show round (r + q) = inf ∨ _
      by_cases h1 : fl (r + q) < 2 ^ 1024
      · exact Or.inr ⟨_, round_num h1, fl_pos (by linarith)⟩
      · exact Or.inl (if_neg h1)

end Dbl
end Verif
