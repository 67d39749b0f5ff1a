/-
Lemmas on coupling from the past: the distribution of the result.
-/
import Verif.Lemmas.Cftp
import Mathlib.Algebra.BigOperators.Group.Finset.Sigma
import Mathlib.Data.Fintype.BigOperators
import Mathlib.MeasureTheory.Integral.IntervalIntegral.Basic
import Mathlib.Data.Nat.Log

namespace Verif
namespace Cftp

/-! ### Expectations over lists of draws -/

/-- Expectation over `m` independent draws from `S` with weights `q`. -/
noncomputable def EL (S : Finset ℕ) (q : ℕ → ℝ) : ℕ → (List ℕ → ℝ) → ℝ
  | 0, F => F []
  | m + 1, F => ∑ x ∈ S, q x * EL S q m fun l => F (x :: l)

/-- Expectation over `m` independent uniform draws. -/
noncomputable def EU : ℕ → (List ℝ → ℝ) → ℝ
  | 0, F => F []
  | m + 1, F => ∫ u in (0 : ℝ)..1, EU m fun l => F (u :: l)

theorem EL_congr {S : Finset ℕ} {q : ℕ → ℝ} {m : ℕ} {F G : List ℕ → ℝ}
    (h : ∀ l, l.length = m → (∀ x ∈ l, x ∈ S ∧ q x ≠ 0) → F l = G l) : EL S q m F = EL S q m G := by
  induction m generalizing F G with
  | zero => exact h [] rfl (by simp)
  | succ m ih =>
    simp only [EL]
    apply Finset.sum_congr rfl
    intro x hx
    by_cases hq : q x = 0
    · simp [hq]
    · congr 1
      apply ih
      intro l hl hx'
      apply h (x :: l) (by simp [hl])
      intro y hy
      rcases List.mem_cons.mp hy with rfl | hy
      · exact ⟨hx, hq⟩
      · exact hx' y hy

theorem EU_congr {m : ℕ} {F G : List ℝ → ℝ}
    (h : ∀ l, l.length = m → (∀ u ∈ l, 0 ≤ u) → F l = G l) : EU m F = EU m G := by
  induction m generalizing F G with
  | zero => exact h [] rfl (by simp)
  | succ m ih =>
    simp only [EU]
    apply intervalIntegral.integral_congr
    intro u hu
    rw [Set.uIcc_of_le zero_le_one] at hu
    apply ih
    intro l hl hx
    apply h (u :: l) (by simp [hl])
    intro y hy
    rcases List.mem_cons.mp hy with rfl | hy
    · exact hu.1
    · exact hx y hy

/-- `EL` is a finite weighted sum. -/
theorem EL_repr (S : Finset ℕ) (q : ℕ → ℝ) (m : ℕ) :
    ∃ (J : Type) (_ : Fintype J) (w : J → ℝ) (l : J → List ℕ), (∀ j, (l j).length = m) ∧
      ∀ F, EL S q m F = ∑ j, w j * F (l j) := by
  induction m with
  | zero => exact ⟨Unit, inferInstance, fun _ => 1, fun _ => [], fun _ => rfl, fun F => by simp [EL]⟩
  | succ m ih =>
    obtain ⟨J, hJ, w, l, hl, hF⟩ := ih
    refine ⟨S × J, inferInstance, fun j => q j.1 * w j.2, fun j => j.1.1 :: l j.2,
      fun j => by simp [hl], fun F => ?_⟩
    rw [Fintype.sum_prod_type]
    simp only [EL, hF]
    rw [← Finset.sum_coe_sort]
    apply Finset.sum_congr rfl
    intro x _
    rw [Finset.mul_sum]
    apply Finset.sum_congr rfl
    intro j _
    ring

theorem expect_drawUniforms (m : ℕ) (g : Py (List ℝ) → ℝ) :
    (drawUniforms m).expect g = EU m fun l => g (.ok l) := by
  induction m generalizing g with
  | zero => rfl
  | succ m ih =>
    rw [drawUniforms]
    simp only [RandR.bind_eq, RandR.pure_eq]
    simp only [RandR.bind, RandR.expect, RandR.expect_bind, ih, EU]
    rfl

theorem expect_item {items : List ℕ} {w : ℕ → ℝ} (hnd : items.Nodup) (h0 : ∀ x ∈ items, 0 ≤ w x)
    (hs : 0 < (items.map w).sum) (g : Py ℕ → ℝ) (G : ℕ → ℝ)
    (hg : ∀ i < items.length, g (.ok i) = G (items.getD i 0)) :
    (npChoiceR ((items.map w).map (· / (items.map w).sum))).expect g =
      ∑ x ∈ items.toFinset, w x / (items.map w).sum * G x := by
  unfold npChoiceR
  rw [if_pos (proba_ok h0 hs)]
  simp only [RandR.expect]
  rw [List.sum_toFinset _ hnd]
  set S := (items.map w).sum
  have e : (items.map fun x => w x / S * G x) =
      List.ofFn fun i : Fin items.length => w items[i] / S * G items[i] := by
    apply List.ext_getElem
    · simp
    · intro i h1 h2
      simp
  rw [e, List.sum_ofFn]
  have hlen : ((items.map w).map (· / S)).length = items.length := by simp
  apply Finset.sum_bij (fun i _ => Fin.cast hlen i)
  · simp
  · intro a _ b _ h; exact Fin.cast_injective _ h
  · intro b _; exact ⟨Fin.cast hlen.symm b, Finset.mem_univ _, by simp⟩
  · rintro ⟨i, hi⟩ _
    have hi' : i < items.length := by simpa using hi
    simp only [Fin.getElem_fin, List.getElem_map, Fin.val_cast, Fin.cast_mk]
    rw [hg i hi']
    simp [List.getD, hi']

theorem expect_drawChoices {items : List ℕ} {w : ℕ → ℝ} (hnd : items.Nodup) (h0 : ∀ x ∈ items, 0 ≤ w x)
    (hs : 0 < (items.map w).sum) (m : ℕ) (g : Py (List ℕ) → ℝ) :
    (drawChoices items ((items.map w).map (· / (items.map w).sum)) m).expect g =
      EL items.toFinset (fun x => w x / (items.map w).sum) m fun l => g (.ok l) := by
  induction m generalizing g with
  | zero => rfl
  | succ m ih =>
    rw [drawChoices]
    simp only [RandR.bind_eq, RandR.pure_eq, RandR.expect_bind]
    rw [expect_item hnd h0 hs _
      (fun x => EL items.toFinset (fun x => w x / (items.map w).sum) m fun l => g (.ok (x :: l)))]
    · rfl
    · intro i _
      simp only [RandR.after, RandR.expect_bind, ih]
      rfl

/-! ### The chain as an operator -/

noncomputable def qP (c : Cftp) (p : ℕ) : ℝ := c.wPos p / c.posWeights.sum
noncomputable def qN (c : Cftp) (n : ℕ) : ℝ := c.wNeg n / c.negWeights.sum

/-- Probability of moving to `(p, n)` when it is proposed. -/
noncomputable def acc (c : Cftp) (s : St) (p n : ℕ) : ℝ := max 0 (min 1 (c.ratio s p n))

/-- One step of the chain, on functions of the state. -/
noncomputable def T (c : Cftp) (h : St → ℝ) (s : St) : ℝ :=
  ∑ p ∈ c.posList.toFinset, ∑ n ∈ c.negList.toFinset,
    c.qP p * c.qN n * (c.acc s p n * h (some (p, n)) + (1 - c.acc s p n) * h s)

variable {c : Cftp}

/-- `T` iterated is a finite weighted sum of values. -/
theorem T_iter_repr (c : Cftp) (k : ℕ) (s : St) :
    ∃ (J : Type) (_ : Fintype J) (w : J → ℝ) (φ : J → St), ∀ h, (c.T^[k] h) s = ∑ j, w j * h (φ j) := by
  induction k with
  | zero => exact ⟨Unit, inferInstance, fun _ => 1, fun _ => s, fun h => by simp⟩
  | succ k ih =>
    obtain ⟨J, hJ, w, φ, hh⟩ := ih
    refine ⟨J × c.posList.toFinset × c.negList.toFinset × Bool, inferInstance,
      fun j => w j.1 * (c.qP j.2.1 * c.qN j.2.2.1 *
        (if j.2.2.2 then c.acc (φ j.1) j.2.1 j.2.2.1 else 1 - c.acc (φ j.1) j.2.1 j.2.2.1)),
      fun j => if j.2.2.2 then some (j.2.1.1, j.2.2.1.1) else φ j.1, fun h => ?_⟩
    rw [Function.iterate_succ_apply, hh, Fintype.sum_prod_type]
    apply Finset.sum_congr rfl
    intro j _
    rw [Fintype.sum_prod_type]
    simp only [T]
    rw [← Finset.sum_coe_sort, Finset.mul_sum]
    apply Finset.sum_congr rfl
    intro p _
    rw [Fintype.sum_prod_type, ← Finset.sum_coe_sort, Finset.mul_sum]
    apply Finset.sum_congr rfl
    intro n _
    rw [Fintype.sum_bool]
    simp only [if_true, Bool.false_eq_true, if_false]
    ring

/-- Expected value after given proposals, averaging over the uniform draws. -/
noncomputable def V (c : Cftp) (h : St → ℝ) : List ℕ → List ℕ → St → ℝ
  | p :: ps, n :: ns, s =>
    c.acc s p n * V c h ps ns (some (p, n)) + (1 - c.acc s p n) * V c h ps ns s
  | _, _, s => h s

theorem EU_family {ι : Type} [Fintype ι] (c : Cftp) (h : St → ℝ) (m : ℕ) (w : ι → ℝ) (ps ns : ι → List ℕ)
    (φ : ι → St) (hp : ∀ i, (ps i).length = m) (hn : ∀ i, (ns i).length = m) :
    EU m (fun us => ∑ i, w i * h (((ps i).zip ((ns i).zip us)).foldl c.stepT (φ i))) =
      ∑ i, w i * c.V h (ps i) (ns i) (φ i) := by
  induction m generalizing ps ns φ with
  | zero =>
    simp only [EU]
    apply Finset.sum_congr rfl
    intro i _
    rw [List.length_eq_zero_iff.mp (hp i), List.length_eq_zero_iff.mp (hn i)]
    simp [V]
  | succ m ih =>
    choose p ps' hps using fun i => List.exists_cons_of_length_eq_add_one (hp i)
    choose n ns' hns using fun i => List.exists_cons_of_length_eq_add_one (hn i)
    have hp' : ∀ i, (ps' i).length = m := fun i => by have := hp i; rw [hps i] at this; simpa using this
    have hn' : ∀ i, (ns' i).length = m := fun i => by have := hn i; rw [hns i] at this; simpa using this
    simp only [EU, hps, hns, List.zip_cons_cons, List.foldl_cons]
    have e : ∀ u : ℝ, EU m (fun us => ∑ i, w i * h (((ps' i).zip ((ns' i).zip us)).foldl c.stepT
        (c.stepT (φ i) (p i, n i, u)))) =
        ∑ i, w i * c.V h (ps' i) (ns' i) (c.stepT (φ i) (p i, n i, u)) := fun u =>
      ih ps' ns' (fun i => c.stepT (φ i) (p i, n i, u)) hp' hn'
    simp only [e]
    have e2 : ∀ (i : ι) (u : ℝ), w i * c.V h (ps' i) (ns' i) (c.stepT (φ i) (p i, n i, u)) =
        if u < c.ratio (φ i) (p i) (n i) then w i * c.V h (ps' i) (ns' i) (some (p i, n i))
        else w i * c.V h (ps' i) (ns' i) (φ i) := by
      intro i u
      unfold stepT
      split <;> rfl
    simp only [e2]
    rw [intervalIntegral.integral_finset_sum (fun i _ => integrable_threshold _ _ _)]
    apply Finset.sum_congr rfl
    intro i _
    rw [integral_threshold]
    simp only [V, acc]
    ring

theorem EL_sum {S : Finset ℕ} {q : ℕ → ℝ} {m : ℕ} {ι : Type} (I : Finset ι) (F : ι → List ℕ → ℝ) :
    EL S q m (fun l => ∑ i ∈ I, F i l) = ∑ i ∈ I, EL S q m (F i) := by
  induction m generalizing F with
  | zero => rfl
  | succ m ih =>
    simp only [EL, ih, Finset.mul_sum]
    exact Finset.sum_comm

theorem EL_mul {S : Finset ℕ} {q : ℕ → ℝ} {m : ℕ} (a : ℝ) (F : List ℕ → ℝ) :
    EL S q m (fun l => a * F l) = a * EL S q m F := by
  induction m generalizing F with
  | zero => rfl
  | succ m ih =>
    simp only [EL, ih, Finset.mul_sum]
    exact Finset.sum_congr rfl fun x _ => by ring

theorem EL_add {S : Finset ℕ} {q : ℕ → ℝ} {m : ℕ} (F G : List ℕ → ℝ) :
    EL S q m (fun l => F l + G l) = EL S q m F + EL S q m G := by
  induction m generalizing F G with
  | zero => rfl
  | succ m ih =>
    simp only [EL, ih, mul_add, Finset.sum_add_distrib]

/-- Averaging `V` over the proposals gives the iterated operator. -/
theorem EL_V (c : Cftp) (h : St → ℝ) (m : ℕ) (s : St) :
    EL c.posList.toFinset c.qP m (fun ps => EL c.negList.toFinset c.qN m fun ns => c.V h ps ns s) =
      (c.T^[m] h) s := by
  induction m generalizing s with
  | zero => simp [EL, V]
  | succ m ih =>
    rw [Function.iterate_succ_apply']
    simp only [EL, V, T]
    apply Finset.sum_congr rfl
    intro p _
    rw [EL_sum, Finset.mul_sum]
    apply Finset.sum_congr rfl
    intro n _
    rw [EL_mul, ← ih (some (p, n)), ← ih s]
    simp only [EL_add, EL_mul]
    ring

/-- The expectation of a weighted family of runs over `m` fresh draws. -/
theorem block {ι : Type} [Fintype ι] (c : Cftp) (h : St → ℝ) (m : ℕ) (w : ι → ℝ) (φ : ι → St) :
    EU m (fun us => EL c.posList.toFinset c.qP m fun ps => EL c.negList.toFinset c.qN m fun ns =>
      ∑ i, w i * h ((ps.zip (ns.zip us)).foldl c.stepT (φ i))) = ∑ i, w i * (c.T^[m] h) (φ i) := by
  obtain ⟨JP, hJP, wp, lp, hlp, hFp⟩ := EL_repr c.posList.toFinset c.qP m
  obtain ⟨JN, hJN, wn, ln, hln, hFn⟩ := EL_repr c.negList.toFinset c.qN m
  have e : ∀ us : List ℝ, EL c.posList.toFinset c.qP m (fun ps => EL c.negList.toFinset c.qN m fun ns =>
      ∑ i, w i * h ((ps.zip (ns.zip us)).foldl c.stepT (φ i))) =
      ∑ j : JP × JN × ι, (wp j.1 * wn j.2.1 * w j.2.2) *
        h (((lp j.1).zip ((ln j.2.1).zip us)).foldl c.stepT (φ j.2.2)) := by
    intro us
    rw [hFp, Fintype.sum_prod_type]
    apply Finset.sum_congr rfl
    intro a _
    rw [hFn, Fintype.sum_prod_type, Finset.mul_sum]
    apply Finset.sum_congr rfl
    intro b _
    rw [Finset.mul_sum, Finset.mul_sum]
    apply Finset.sum_congr rfl
    intro i _
    ring
  simp only [e]
  rw [EU_family c h m (fun j : JP × JN × ι => wp j.1 * wn j.2.1 * w j.2.2) (fun j => lp j.1)
    (fun j => ln j.2.1) (fun j => φ j.2.2) (fun j => hlp j.1) (fun j => hln j.2.1)]
  simp only [← EL_V]
  have e3 : ∀ i, EL c.posList.toFinset c.qP m (fun ps => EL c.negList.toFinset c.qN m fun ns =>
      c.V h ps ns (φ i)) = ∑ a, ∑ b, wp a * wn b * c.V h (lp a) (ln b) (φ i) := by
    intro i
    rw [hFp]
    apply Finset.sum_congr rfl
    intro a _
    rw [hFn, Finset.mul_sum]
    exact Finset.sum_congr rfl fun b _ => by ring
  simp only [e3, Fintype.sum_prod_type, Finset.mul_sum]
  symm
  rw [Finset.sum_comm]
  apply Finset.sum_congr rfl
  intro a _
  rw [Finset.sum_comm]
  apply Finset.sum_congr rfl
  intro b _
  apply Finset.sum_congr rfl
  intro i _
  ring

/-! ### The operator: constants, the undetermined state, stationarity -/

theorem sum_q {items : List ℕ} {w : ℕ → ℝ} (hnd : items.Nodup) (hs : 0 < (items.map w).sum) :
    ∑ x ∈ items.toFinset, w x / (items.map w).sum = 1 := by
  rw [← Finset.sum_div, List.sum_toFinset _ hnd, div_self hs.ne']

theorem sum_qP (hr : c.Ready) : ∑ p ∈ c.posList.toFinset, c.qP p = 1 := sum_q hr.posNodup hr.posSum
theorem sum_qN (hr : c.Ready) : ∑ p ∈ c.negList.toFinset, c.qN p = 1 := sum_q hr.negNodup hr.negSum

theorem T_const (hr : c.Ready) {h : St → ℝ} {K : ℝ} (hK : ∀ s, c.Valid s → h s = K) :
    ∀ s, c.Valid s → c.T h s = K := by
  intro s hs
  unfold T
  have : ∀ p ∈ c.posList.toFinset, ∀ n ∈ c.negList.toFinset,
      c.qP p * c.qN n * (c.acc s p n * h (some (p, n)) + (1 - c.acc s p n) * h s) = c.qP p * c.qN n * K := by
    intro p hp n hn
    rw [List.mem_toFinset] at hp hn
    rw [hK s hs]
    by_cases hz : 0 < c.ratio s p n
    · rw [hK (some (p, n))]
      · ring
      · intro p' n' he
        cases he
        exact ⟨hp, hn, ratio_pos_W hr.toDominated hp hn hz⟩
    · have h0 : c.acc s p n = 0 := by
        unfold acc
        apply max_eq_left
        exact le_trans (min_le_right _ _) (not_lt.mp hz)
      rw [h0]
      ring
  rw [Finset.sum_congr rfl fun p hp => Finset.sum_congr rfl fun n hn => this p hp n hn]
  simp only [← Finset.sum_mul, ← Finset.mul_sum, sum_qN hr, sum_qP hr]
  ring

theorem T_iter_const (hr : c.Ready) (k : ℕ) {h : St → ℝ} {K : ℝ} (hK : ∀ s, c.Valid s → h s = K) :
    ∀ s, c.Valid s → (c.T^[k] h) s = K := by
  induction k generalizing h with
  | zero => exact hK
  | succ k ih => exact ih (T_const hr hK)

/-- Weighted sum of a function over all pairs. -/
noncomputable def Pi (c : Cftp) (h : St → ℝ) : ℝ :=
  ∑ p ∈ c.posList.toFinset, ∑ n ∈ c.negList.toFinset, c.W p n * h (some (p, n))

theorem totalBar_pos (hr : c.Ready) : 0 < c.totalBar := mul_pos hr.posSum hr.negSum

theorem totalW_eq_Pi (c : Cftp) : c.totalW = c.Pi fun _ => 1 := by simp [totalW, Pi]

theorem q_eq (c : Cftp) (p n : ℕ) : c.qP p * c.qN n = (c.wPos p * c.wNeg n) / c.totalBar := by
  unfold qP qN totalBar
  rw [div_mul_div_comm]

theorem q_acc_none (hr : c.Ready) {p n : ℕ} (hp : p ∈ c.posList) (hn : n ∈ c.negList) :
    c.qP p * c.qN n * c.acc none p n = c.W p n / c.totalBar := by
  rw [q_eq]
  have hW := hr.W_nonneg p hp n hn
  have hle := hr.W_le p hp n hn
  have hb := totalBar_pos hr
  have hn0 := mul_nonneg (hr.wPos_nonneg p hp) (hr.wNeg_nonneg n hn)
  rcases hn0.lt_or_eq with h | h
  · have : c.acc none p n = c.W p n / (c.wPos p * c.wNeg n) := by
      unfold acc ratio wOf barOf
      rw [mul_one, mul_one, min_eq_right ((div_le_one h).mpr hle), max_eq_right (by positivity)]
    rw [this]
    generalize c.wPos p * c.wNeg n = b at *
    have hb0 := h.ne'
    field_simp
  · have : c.W p n = 0 := le_antisymm (h ▸ hle) hW
    rw [this, ← h]
    simp

theorem T_none (hr : c.Ready) (h : St → ℝ) :
    c.T h none = c.Pi h / c.totalBar + (1 - c.totalW / c.totalBar) * h none := by
  have e : ∀ p ∈ c.posList.toFinset, ∀ n ∈ c.negList.toFinset,
      c.qP p * c.qN n * (c.acc none p n * h (some (p, n)) + (1 - c.acc none p n) * h none) =
      c.W p n * h (some (p, n)) / c.totalBar + (c.qP p * c.qN n * h none - c.W p n / c.totalBar * h none) := by
    intro p hp n hn
    rw [List.mem_toFinset] at hp hn
    have := q_acc_none hr hp hn
    calc _ = (c.qP p * c.qN n * c.acc none p n) * h (some (p, n)) +
        (c.qP p * c.qN n * h none - (c.qP p * c.qN n * c.acc none p n) * h none) := by ring
      _ = _ := by rw [this]; ring
  unfold T
  rw [Finset.sum_congr rfl fun p hp => Finset.sum_congr rfl fun n hn => e p hp n hn]
  simp only [Finset.sum_add_distrib, Finset.sum_sub_distrib, ← Finset.sum_mul, ← Finset.mul_sum,
    ← Finset.sum_div, sum_qN hr, sum_qP hr, Pi, totalW]
  ring

/-- Detailed balance. -/
theorem balance (hr : c.Ready) {p n p' n' : ℕ} (hp : p ∈ c.posList) (hn : n ∈ c.negList)
    (hp' : p' ∈ c.posList) (hn' : n' ∈ c.negList) :
    c.W p n * (c.wPos p' * c.wNeg n') * c.acc (some (p, n)) p' n' =
      min (c.W p n * (c.wPos p' * c.wNeg n')) (c.W p' n' * (c.wPos p * c.wNeg n)) := by
  have hW := hr.W_nonneg p hp n hn
  have hW' := hr.W_nonneg p' hp' n' hn'
  have hle' := hr.W_le p' hp' n' hn'
  have hb := mul_nonneg (hr.wPos_nonneg p hp) (hr.wNeg_nonneg n hn)
  have hb' := mul_nonneg (hr.wPos_nonneg p' hp') (hr.wNeg_nonneg n' hn')
  rcases hW.lt_or_eq with h | h
  · rcases hb'.lt_or_eq with h' | h'
    · unfold acc ratio wOf barOf
      simp only
      have hpos : 0 < c.W p n * (c.wPos p' * c.wNeg n') := mul_pos h h'
      rw [max_eq_right (le_min zero_le_one (by positivity)), mul_min_of_nonneg _ _ hpos.le, mul_one]
      congr 1
      generalize c.wPos p' * c.wNeg n' = b at *
      have hb0 := h'.ne'
      have hw0 := h.ne'
      field_simp
    · have : c.W p' n' = 0 := le_antisymm (h' ▸ hle') hW'
      rw [← h', this]
      simp
  · rw [← h]
    simp only [zero_mul]
    rw [min_eq_left (by positivity)]

/-- The target weights are stationary. -/
theorem Pi_T (hr : c.Ready) (h : St → ℝ) : c.Pi (c.T h) = c.Pi h := by
  have hb := (totalBar_pos hr).ne'
  set Q := c.posList.toFinset ×ˢ c.negList.toFinset with hQ
  have mQ : ∀ x ∈ Q, x.1 ∈ c.posList ∧ x.2 ∈ c.negList := by
    intro x hx
    simpa [hQ] using hx
  set k : ℕ × ℕ → ℕ × ℕ → ℝ := fun x y =>
    min (c.W x.1 x.2 * (c.wPos y.1 * c.wNeg y.2)) (c.W y.1 y.2 * (c.wPos x.1 * c.wNeg x.2)) with hk
  have hsym : ∀ x y, k x y = k y x := fun x y => min_comm _ _
  have hT : ∀ s, c.T h s = ∑ y ∈ Q, c.qP y.1 * c.qN y.2 *
      (c.acc s y.1 y.2 * h (some y) + (1 - c.acc s y.1 y.2) * h s) := by
    intro s
    unfold T
    rw [hQ, Finset.sum_product]
  have hPi : ∀ g, c.Pi g = ∑ x ∈ Q, c.W x.1 x.2 * g (some x) := by
    intro g
    unfold Pi
    rw [hQ, Finset.sum_product]
  have hq : ∑ y ∈ Q, c.qP y.1 * c.qN y.2 = 1 := by
    rw [hQ, Finset.sum_product]
    simp only [← Finset.mul_sum, sum_qN hr, mul_one, sum_qP hr]
  have e : ∀ x ∈ Q, c.W x.1 x.2 * c.T h (some x) =
      c.W x.1 x.2 * h (some x) + ∑ y ∈ Q, k x y * (h (some y) - h (some x)) / c.totalBar := by
    intro x hx
    rw [hT]
    have e1 : ∀ y ∈ Q, c.W x.1 x.2 * (c.qP y.1 * c.qN y.2 *
        (c.acc (some x) y.1 y.2 * h (some y) + (1 - c.acc (some x) y.1 y.2) * h (some x))) =
        c.W x.1 x.2 * h (some x) * (c.qP y.1 * c.qN y.2) +
          k x y * (h (some y) - h (some x)) / c.totalBar := by
      intro y hy
      have hbal := balance hr (mQ x hx).1 (mQ x hx).2 (mQ y hy).1 (mQ y hy).2
      change _ = k x y at hbal
      rw [← hbal, q_eq]
      field_simp
      ring
    rw [Finset.mul_sum, Finset.sum_congr rfl e1, Finset.sum_add_distrib, ← Finset.mul_sum, hq, mul_one]
  rw [hPi, hPi, Finset.sum_congr rfl e, Finset.sum_add_distrib]
  have hz : ∑ x ∈ Q, ∑ y ∈ Q, k x y * (h (some y) - h (some x)) / c.totalBar = 0 := by
    have h1 : ∑ x ∈ Q, ∑ y ∈ Q, k x y * (h (some y) - h (some x)) / c.totalBar =
        - ∑ x ∈ Q, ∑ y ∈ Q, k x y * (h (some y) - h (some x)) / c.totalBar := by
      conv_lhs => rw [Finset.sum_comm]
      rw [← Finset.sum_neg_distrib]
      apply Finset.sum_congr rfl
      intro x _
      rw [← Finset.sum_neg_distrib]
      apply Finset.sum_congr rfl
      intro y _
      rw [hsym y x]
      ring
    linarith
  rw [hz, add_zero]

theorem T_iter_none (hr : c.Ready) (k : ℕ) (h : St → ℝ) :
    (c.T^[k] h) none = (1 - (1 - c.totalW / c.totalBar) ^ k) * (c.Pi h / c.totalW) +
      (1 - c.totalW / c.totalBar) ^ k * h none := by
  induction k generalizing h with
  | zero => simp
  | succ k ih =>
    rw [Function.iterate_succ_apply, ih, Pi_T hr, T_none hr]
    have hb := (totalBar_pos hr).ne'
    by_cases hZ : c.totalW = 0
    · have hPi0 : c.Pi h = 0 := by
        have h0 : ∀ p ∈ c.posList.toFinset, ∀ n ∈ c.negList.toFinset, c.W p n = 0 := by
          have hnn : ∀ p ∈ c.posList.toFinset, 0 ≤ ∑ n ∈ c.negList.toFinset, c.W p n := by
            intro p hp
            apply Finset.sum_nonneg
            intro n hn
            exact hr.W_nonneg p (List.mem_toFinset.mp hp) n (List.mem_toFinset.mp hn)
          intro p hp n hn
          have h1 := (Finset.sum_eq_zero_iff_of_nonneg hnn).mp hZ p hp
          refine (Finset.sum_eq_zero_iff_of_nonneg ?_).mp h1 n hn
          intro n hn
          exact hr.W_nonneg p (List.mem_toFinset.mp hp) n (List.mem_toFinset.mp hn)
        unfold Pi
        apply Finset.sum_eq_zero
        intro p hp
        apply Finset.sum_eq_zero
        intro n hn
        rw [h0 p hp n hn, zero_mul]
      rw [hPi0, hZ]
      simp
    · rw [pow_succ]
      field_simp
      ring

/-! ### The loop -/

theorem expect_addData (hr : c.Ready) {α : Type} {L M : ℕ} {s : CftpState} (hs : c.GoodState L s)
    (hM : 0 < M) (hL : L ≤ M) (f : Py α → ℝ) (k : CftpState → RandR α) :
    ((c.addData M s).bind k).expect f =
      EU (M - L) fun us => EL c.posList.toFinset c.qP (M - L) fun ps =>
        EL c.negList.toFinset c.qN (M - L) fun ns =>
          (k { us := us ++ s.us, ps := ps ++ s.ps, ns := ns ++ s.ns }).expect f := by
  unfold addData
  rw [if_neg hM.ne', if_neg (by rw [hs.usLen]; omega), hs.usLen]
  simp only [RandR.bind_eq, RandR.expect_bind]
  rw [expect_drawUniforms]
  apply EU_congr
  intro us hus _
  simp only [RandR.after, RandR.expect_bind, posProba, posWeights, negProba, negWeights]
  rw [expect_drawChoices hr.posNodup hr.wPos_nonneg hr.posSum]
  apply EL_congr
  intro ps hps _
  simp only [RandR.after, RandR.expect_bind]
  rw [expect_drawChoices hr.negNodup hr.wNeg_nonneg hr.negSum]
  apply EL_congr
  intro ns hns _
  simp only [RandR.after]
  unfold checkLengths RandR.lift
  rw [if_neg (by
    simp only [List.length_append, hps, hns, hus, hs.psLen, hs.nsLen, hs.usLen]
    simp [Nat.sub_add_cancel hL])]
  rfl

theorem q_ne {items : List ℕ} {w : ℕ → ℝ} (h0 : ∀ x ∈ items, 0 ≤ w x) {S : ℝ} {x : ℕ}
    (hx : x ∈ items.toFinset) (h : w x / S ≠ 0) : x ∈ items ∧ 0 < w x := by
  rw [List.mem_toFinset] at hx
  refine ⟨hx, lt_of_le_of_ne (h0 x hx) fun e => h ?_⟩
  rw [← e, zero_div]

theorem goodState_append (hr : c.Ready) {L M : ℕ} {s : CftpState} (hs : c.GoodState L s) (hL : L ≤ M)
    {us : List ℝ} {ps ns : List ℕ} (hus : us.length = M - L) (hps : ps.length = M - L)
    (hns : ns.length = M - L) (hu : ∀ u ∈ us, 0 ≤ u)
    (hp : ∀ x ∈ ps, x ∈ c.posList.toFinset ∧ c.qP x ≠ 0) (hn : ∀ x ∈ ns, x ∈ c.negList.toFinset ∧ c.qN x ≠ 0) :
    c.GoodState M { us := us ++ s.us, ps := ps ++ s.ps, ns := ns ++ s.ns } := by
  refine ⟨by simp [hus, hs.usLen, hL], by simp [hps, hs.psLen, hL], by simp [hns, hs.nsLen, hL], ?_, ?_, ?_⟩
  · intro u h
    rcases List.mem_append.mp h with h | h
    · exact hu u h
    · exact hs.usOk u h
  · intro p h
    rcases List.mem_append.mp h with h | h
    · exact q_ne hr.wPos_nonneg (hp p h).1 (hp p h).2
    · exact hs.psOk p h
  · intro p h
    rcases List.mem_append.mp h with h | h
    · exact q_ne hr.wNeg_nonneg (hn p h).1 (hn p h).2
    · exact hs.nsOk p h

/-- The value of the result when the lists are run from a given state. -/
noncomputable def runValue (c : Cftp) (f : Py (Option (ℕ × ℕ) × CftpState) → ℝ) (s : CftpState) (st : St) : ℝ :=
  f (.ok ((CftpState.draws s).foldl c.stepT st, reset))

theorem horizon_eq {i : ℕ} (h : 2 ^ i > c.maxIters) (hi : lenBefore i ≤ c.maxIters) :
    c.horizon = lenBefore i := by
  unfold horizon lenBefore at *
  rcases Nat.eq_zero_or_pos c.maxIters with h0 | h0
  · rw [if_pos h0]
    split
    · rfl
    · rename_i hne
      rw [if_neg hne, h0] at hi
      have : 0 < 2 ^ (i - 1) := by positivity
      omega
  · rw [if_neg h0.ne']
    rcases Nat.eq_zero_or_pos i with rfl | hip
    · simp at h; omega
    · rw [if_neg hip.ne'] at hi ⊢
      congr 1
      refine (Nat.log_eq_iff (Or.inr ⟨by norm_num, h0.ne'⟩)).mpr ⟨hi, ?_⟩
      rw [Nat.sub_add_cancel hip]
      exact h

theorem le_horizon {i : ℕ} (h : 2 ^ i ≤ c.maxIters) : 2 ^ i ≤ c.horizon := by
  unfold horizon
  have h0 : c.maxIters ≠ 0 := by
    have : 0 < 2 ^ i := by positivity
    omega
  rw [if_neg h0]
  exact Nat.pow_le_pow_right (by norm_num) (Nat.le_log_of_pow_le (by norm_num) h)

theorem expect_sampleLoop (hr : c.Ready) (f : Py (Option (ℕ × ℕ) × CftpState) → ℝ) (k : ℕ) :
    ∀ (i : ℕ) (s : CftpState), c.maxIters - i ≤ k → c.GoodState (lenBefore i) s →
      lenBefore i ≤ c.maxIters → (CftpState.draws s).foldl c.stepT none = none →
      (c.sampleLoop i s).expect f = (c.T^[c.horizon - lenBefore i] (c.runValue f s)) none := by
  have base : ∀ (i : ℕ) (s : CftpState), lenBefore i ≤ c.maxIters → 2 ^ i > c.maxIters →
      (CftpState.draws s).foldl c.stepT none = none →
      (c.sampleLoop i s).expect f = (c.T^[c.horizon - lenBefore i] (c.runValue f s)) none := by
    intro i s hle h hn
    rw [sampleLoop, if_pos h, horizon_eq h hle, Nat.sub_self, Function.iterate_zero, id]
    simp only [runValue, hn]
    rfl
  induction k with
  | zero =>
    intro i s hk _ hle hn
    have : i < 2 ^ i := Nat.lt_two_pow_self
    exact base i s hle (by omega) hn
  | succ k ih =>
    intro i s hk hs hle hn
    by_cases h : 2 ^ i > c.maxIters
    · exact base i s hle h hn
    · have hi : i < 2 ^ i := Nat.lt_two_pow_self
      have hpos : 0 < 2 ^ i := by positivity
      have hH := le_horizon (not_lt.mp h)
      have hLle := lenBefore_le i
      rw [sampleLoop, if_neg h,
        if_neg (by rintro (h1 | h1); exacts [hr.posSum.ne' h1, hr.negSum.ne' h1])]
      rw [RandR.bind_eq, expect_addData hr hs hpos hLle]
      obtain ⟨J, hJ, w, φ, hrep⟩ := T_iter_repr c (c.horizon - 2 ^ i) none
      have key : ∀ us : List ℝ, us.length = 2 ^ i - lenBefore i → (∀ u ∈ us, 0 ≤ u) →
          ∀ ps : List ℕ, ps.length = 2 ^ i - lenBefore i → (∀ x ∈ ps, x ∈ c.posList.toFinset ∧ c.qP x ≠ 0) →
          ∀ ns : List ℕ, ns.length = 2 ^ i - lenBefore i → (∀ x ∈ ns, x ∈ c.negList.toFinset ∧ c.qN x ≠ 0) →
          RandR.expect f (do
            let D ← RandR.lift (c.simulate { us := us ++ s.us, ps := ps ++ s.ps, ns := ns ++ s.ns })
            match D with
            | some pr => pure (some pr, reset)
            | none => c.sampleLoop (i + 1) { us := us ++ s.us, ps := ps ++ s.ps, ns := ns ++ s.ns }) =
          ∑ j, w j * c.runValue f s ((ps.zip (ns.zip us)).foldl c.stepT (φ j)) := by
        intro us hus hu ps hps hp ns hns hnn
        have hg := goodState_append hr hs hLle hus hps hns hu hp hnn
        have hda := draws_append (u1 := us) (u2 := s.us) (p1 := ps) (p2 := s.ps) (n1 := ns) (n2 := s.ns)
          (by omega) (by omega)
        have hrv : ∀ st, c.runValue f { us := us ++ s.us, ps := ps ++ s.ps, ns := ns ++ s.ns } st =
            c.runValue f s ((ps.zip (ns.zip us)).foldl c.stepT st) := by
          intro st
          unfold runValue
          rw [hda, List.foldl_append]
          rfl
        have hgoal : ∑ j, w j * c.runValue f s ((ps.zip (ns.zip us)).foldl c.stepT (φ j)) =
            (c.T^[c.horizon - 2 ^ i]
              (c.runValue f { us := us ++ s.us, ps := ps ++ s.ps, ns := ns ++ s.ns })) none := by
          rw [hrep]
          exact Finset.sum_congr rfl fun j _ => by rw [hrv]
        rw [hgoal, simulate_eq hr.toDominated hg.validDraws]
        have hlb : lenBefore (i + 1) = 2 ^ i := by simp [lenBefore]
        cases hD : (CftpState.draws { us := us ++ s.us, ps := ps ++ s.ps, ns := ns ++ s.ns }).foldl c.stepT none with
        | none =>
          have := ih (i + 1) _ (by omega) (hlb.symm ▸ hg) (hlb.symm ▸ not_lt.mp h) hD
          rw [hlb] at this
          exact this
        | some pr =>
          refine Eq.symm (T_iter_const hr _ (K := f (.ok (some pr, reset))) ?_ none (valid_none c))
          intro st hst
          unfold runValue
          rw [foldl_of_none hr.toDominated hg.validDraws hst (by rw [hD]; simp), hD]
      refine (EU_congr fun us hus hu => EL_congr fun ps hps hp => EL_congr fun ns hns hnn =>
        key us hus hu ps hps hp ns hns hnn).trans ?_
      rw [block, ← hrep, ← Function.iterate_add_apply]
      have hsum : c.horizon - 2 ^ i + (2 ^ i - lenBefore i) = c.horizon - lenBefore i := by omega
      rw [hsum]

theorem expect_sample (hr : c.Ready) (f : Py (Option (ℕ × ℕ) × CftpState) → ℝ) :
    (c.sample reset).expect f =
      (1 - (1 - c.totalW / c.totalBar) ^ c.horizon) *
        ((∑ p ∈ c.posList.toFinset, ∑ n ∈ c.negList.toFinset, c.W p n * f (.ok (some (p, n), reset))) / c.totalW) +
      (1 - c.totalW / c.totalBar) ^ c.horizon * f (.ok (none, reset)) := by
  have h := expect_sampleLoop hr f (c.maxIters - 0) 0 reset (le_refl _)
    (by simpa [lenBefore] using goodState_reset) (by simp [lenBefore]) rfl
  unfold sample
  rw [h, T_iter_none hr]
  simp only [lenBefore, if_true, Nat.sub_zero]
  rfl

end Cftp
end Verif
