/-
Laws of the two readings of random programs.
-/
import Verif.Model.Rand

namespace Verif

theorem getD_lt {α : Type} {l : List α} {i : ℕ} (h : i < l.length) (d : α) : l.getD i d = l[i] := by
  rw [List.getD_eq_getElem?_getD, List.getElem?_eq_getElem h]; rfl

namespace Rand

@[simp] theorem bind_done_ok {α β : Type} (a : α) (f : α → Rand β) :
    (Rand.bind (.done (.ok a)) f) = f a := rfl

@[simp] theorem bind_done_error {α β : Type} (e : PyErr) (f : α → Rand β) :
    (Rand.bind (.done (.error e)) f) = .done (.error e) := rfl

@[simp] theorem monad_bind {α β : Type} (m : Rand α) (f : α → Rand β) : (m >>= f) = m.bind f := rfl

@[simp] theorem monad_pure {α : Type} (a : α) : (pure a : Rand α) = .done (.ok a) := rfl

@[simp] theorem expect_done {α : Type} (f : Py α → ℚ) (r : Py α) : (done r).expect f = f r := rfl

@[simp] theorem outcome_done {α : Type} (r x : Py α) : (done r).Outcome x ↔ x = r := Iff.rfl

@[simp] theorem outcome_raise {α : Type} (e : PyErr) (x : Py α) :
    (raise e : Rand α).Outcome x ↔ x = .error e := Iff.rfl

@[simp] theorem proper_done {α : Type} (r : Py α) : (done r).Proper := trivial

theorem outcome_bind {α β : Type} (m : Rand α) (f : α → Rand β) (x : Py β) :
    (m.bind f).Outcome x ↔
      (∃ a, m.Outcome (.ok a) ∧ (f a).Outcome x) ∨ (∃ e, m.Outcome (.error e) ∧ x = .error e) := by
  induction m with
  | done r =>
    cases r with
    | ok a => simp [Rand.bind, Outcome]
    | error e => simp [Rand.bind, Outcome]
  | choice p k ih =>
    simp only [Rand.bind, Outcome, ih]
    constructor
    · rintro ⟨i, h, hp, (⟨a, h1, h2⟩ | ⟨e, h1, h2⟩)⟩
      · exact Or.inl ⟨a, ⟨i, h, hp, h1⟩, h2⟩
      · exact Or.inr ⟨e, ⟨i, h, hp, h1⟩, h2⟩
    · rintro (⟨a, ⟨i, h, hp, h1⟩, h2⟩ | ⟨e, ⟨i, h, hp, h1⟩, h2⟩)
      · exact ⟨i, h, hp, Or.inl ⟨a, h1, h2⟩⟩
      · exact ⟨i, h, hp, Or.inr ⟨e, h1, h2⟩⟩

/-- What the rest of the program contributes, as a function of the intermediate result. -/
def cont {α β : Type} (f : Py β → ℚ) (g : α → Rand β) : Py α → ℚ
  | .ok a => (g a).expect f
  | .error e => f (.error e)

theorem expect_bind {α β : Type} (m : Rand α) (g : α → Rand β) (f : Py β → ℚ) :
    (m.bind g).expect f = m.expect (cont f g) := by
  induction m with
  | done r => cases r <;> rfl
  | choice p k ih => simp only [Rand.bind, expect, ih]

theorem expect_congr {α : Type} {m : Rand α} {f g : Py α → ℚ} (h : ∀ x, m.Outcome x → f x = g x)
    (hm : m.Proper) : m.expect f = m.expect g := by
  induction m with
  | done r => exact h r rfl
  | choice p k ih =>
    simp only [expect]
    apply Finset.sum_congr rfl
    intro i _
    rcases eq_or_lt_of_le (hm.1 p[i] (by simp)) with h0 | h0
    · rw [← h0]; ring
    · rw [ih i (fun x hx => h x ⟨i, i.2, h0, hx⟩) (hm.2.2 i)]

theorem expect_add {α : Type} (m : Rand α) (f g : Py α → ℚ) :
    m.expect (fun x => f x + g x) = m.expect f + m.expect g := by
  induction m with
  | done r => rfl
  | choice p k ih =>
    simp only [expect, ih, mul_add, Finset.sum_add_distrib]

theorem expect_smul {α : Type} (m : Rand α) (c : ℚ) (f : Py α → ℚ) :
    m.expect (fun x => c * f x) = c * m.expect f := by
  induction m with
  | done r => rfl
  | choice p k ih =>
    simp only [expect, ih, Finset.mul_sum]
    apply Finset.sum_congr rfl
    intro i _
    ring

theorem sum_fin_eq_sum (p : List ℚ) : ∑ i : Fin p.length, p[i] = p.sum := by
  rw [← List.sum_ofFn]
  congr 1
  exact List.ofFn_getElem

theorem expect_const {α : Type} (m : Rand α) (hm : m.Proper) (c : ℚ) :
    m.expect (fun _ => c) = c := by
  induction m with
  | done r => rfl
  | choice p k ih =>
    have : ∀ i : Fin p.length, p[i] * (k i).expect (fun _ => c) = p[i] * c := fun i => by
      rw [ih i (hm.2.2 i)]
    simp only [expect, this]
    rw [← Finset.sum_mul, sum_fin_eq_sum, hm.2.1, one_mul]

theorem expect_nonneg {α : Type} (m : Rand α) (hm : m.Proper) (f : Py α → ℚ) (hf : ∀ x, 0 ≤ f x) :
    0 ≤ m.expect f := by
  induction m with
  | done r => exact hf r
  | choice p k ih =>
    apply Finset.sum_nonneg
    intro i _
    exact mul_nonneg (hm.1 _ (by simp)) (ih i (hm.2.2 i))

/-- For a proper program the two readings agree: a result is possible iff it has positive
probability. -/
theorem prob_pos_iff {α : Type} [DecidableEq α] (m : Rand α) (hm : m.Proper) (r : Py α) :
    0 < m.prob r ↔ m.Outcome r := by
  unfold prob
  induction m with
  | done r' =>
    simp only [expect, Outcome]
    split
    · rename_i h; simp [h]
    · rename_i h; simp only [lt_irrefl, false_iff]; exact fun h' => h h'.symm
  | choice p k ih =>
    have hnn : ∀ i : Fin p.length, 0 ≤ p[i] * (k i).expect fun x => if x = r then 1 else 0 := by
      intro i
      apply mul_nonneg (hm.1 _ (by simp))
      apply expect_nonneg _ (hm.2.2 i)
      intro x; split <;> norm_num
    simp only [expect, Outcome]
    constructor
    · intro h
      obtain ⟨i, -, hi⟩ : ∃ i ∈ (Finset.univ : Finset (Fin p.length)),
          p[i] * ((k i).expect fun x => if x = r then 1 else 0) ≠ 0 := by
        by_contra hc
        push Not at hc
        rw [Finset.sum_eq_zero hc] at h
        exact lt_irrefl _ h
      have hp : 0 < p[i] := lt_of_le_of_ne (hm.1 _ (by simp)) (fun h => hi (by rw [← h]; ring))
      have he : 0 < (k i).expect fun x => if x = r then 1 else 0 :=
        lt_of_le_of_ne (expect_nonneg _ (hm.2.2 i) _ (fun x => by split <;> norm_num))
          (fun h => hi (by rw [← h]; ring))
      exact ⟨i, i.2, hp, (ih i (hm.2.2 i)).mp he⟩
    · rintro ⟨i, h, hp, ho⟩
      refine lt_of_lt_of_le ?_ (Finset.single_le_sum (fun j _ => hnn j) (Finset.mem_univ ⟨i, h⟩))
      exact mul_pos hp ((ih i (hm.2.2 i)).mpr ho)

theorem proper_bind {α β : Type} (m : Rand α) (g : α → Rand β) (hm : m.Proper)
    (hg : ∀ a, (g a).Proper) : (m.bind g).Proper := by
  induction m with
  | done r => cases r with
    | ok a => exact hg a
    | error e => trivial
  | choice p k ih => exact ⟨hm.1, hm.2.1, fun i => ih i (hm.2.2 i)⟩

/-- Mean over the results of a proper program lies between bounds that hold for each result. -/
theorem expect_mono {α : Type} {m : Rand α} (hm : m.Proper) {f g : Py α → ℚ}
    (h : ∀ x, m.Outcome x → f x ≤ g x) : m.expect f ≤ m.expect g := by
  induction m with
  | done r => exact h r rfl
  | choice p k ih =>
    apply Finset.sum_le_sum
    intro i _
    rcases eq_or_lt_of_le (hm.1 p[i] (by simp)) with h0 | h0
    · rw [← h0]; simp
    · exact mul_le_mul_of_nonneg_left (ih i (hm.2.2 i) fun x hx => h x ⟨i, i.2, h0, hx⟩) h0.le

end Rand

open Rand

theorem npChoice_ok {p : List ℚ} (h0 : p ≠ []) (h1 : ∀ q ∈ p, 0 ≤ q) (h2 : p.sum = 1) :
    npChoice p = .choice p fun i => .done (.ok i) := by
  rw [npChoice, if_pos ⟨h0, h1, h2⟩]

theorem npChoice_proper (p : List ℚ) : (npChoice p).Proper := by
  unfold npChoice
  split
  · rename_i h; exact ⟨h.2.1, h.2.2, fun _ => trivial⟩
  · trivial

/-- A draw from normalised weights. -/
theorem normalised_ok {w : List ℚ} (hw : ∀ q ∈ w, 0 ≤ q) (hs : 0 < w.sum) :
    npChoice (w.map (· / w.sum)) = .choice (w.map (· / w.sum)) fun i => .done (.ok i) := by
  apply npChoice_ok
  · intro h
    rw [List.map_eq_nil_iff] at h
    rw [h] at hs; simp at hs
  · intro q hq
    obtain ⟨x, hx, rfl⟩ := List.mem_map.mp hq
    exact div_nonneg (hw x hx) hs.le
  · have : (w.map (· / w.sum)).sum = w.sum / w.sum := by
      simp only [div_eq_mul_inv]
      rw [List.sum_map_mul_right]
      simp
    rw [this, div_self hs.ne']

theorem uniformIdx_proper (n : ℕ) : (uniformIdx n).Proper := by
  unfold uniformIdx
  split
  · trivial
  · rename_i h
    refine ⟨?_, ?_, fun _ => trivial⟩
    · intro q hq
      rw [List.eq_of_mem_replicate hq]
      positivity
    · rw [List.sum_replicate, nsmul_eq_mul]
      field_simp

theorem bernoulli_proper (q : ℚ) : (bernoulli q).Proper := by
  have h0 : 0 ≤ max 0 (min 1 q) := le_max_left _ _
  have h1 : max 0 (min 1 q) ≤ 1 := max_le (by norm_num) (min_le_left _ _)
  refine ⟨?_, by simp, fun _ => trivial⟩
  intro x hx
  simp only [List.mem_cons, List.not_mem_nil, or_false] at hx
  rcases hx with rfl | rfl
  · exact h0
  · linarith

theorem expect_bernoulli {q : ℚ} (h0 : 0 ≤ q) (h1 : q ≤ 1) (f : Py Bool → ℚ) :
    (bernoulli q).expect f = q * f (.ok true) + (1 - q) * f (.ok false) := by
  have : max 0 (min 1 q) = q := by rw [min_eq_right h1, max_eq_right h0]
  show (∑ i : Fin 2, _) = _
  rw [Fin.sum_univ_two]
  simp [this]

theorem expect_uniformIdx {n : ℕ} (hn : n ≠ 0) (f : Py ℕ → ℚ) :
    (uniformIdx n).expect f = (∑ i ∈ Finset.range n, f (.ok i)) / n := by
  rw [uniformIdx, if_neg hn]
  simp only [expect]
  rw [Finset.sum_range, Finset.sum_div]
  apply Fintype.sum_equiv (finCongr (by simp))
  intro i
  simp [div_eq_inv_mul]

theorem outcome_uniformIdx {n : ℕ} (hn : n ≠ 0) (x : Py ℕ) :
    (uniformIdx n).Outcome x ↔ ∃ i < n, x = .ok i := by
  rw [uniformIdx, if_neg hn]
  simp only [Outcome, List.length_replicate, List.getElem_replicate]
  constructor
  · rintro ⟨i, h, -, hx⟩; exact ⟨i, h, hx⟩
  · rintro ⟨i, h, hx⟩; exact ⟨i, h, by positivity, hx⟩

/-- Expectation over a draw from normalised weights. -/
theorem expect_normalised {w : List ℚ} (hw : ∀ q ∈ w, 0 ≤ q) (hs : 0 < w.sum) (f : Py ℕ → ℚ) :
    (npChoice (w.map (· / w.sum))).expect f =
      (∑ i ∈ Finset.range w.length, w.getD i 0 * f (.ok i)) / w.sum := by
  rw [normalised_ok hw hs]
  simp only [expect]
  rw [Finset.sum_range, Finset.sum_div]
  apply Fintype.sum_equiv (finCongr (by simp))
  intro i
  have hi : (i : ℕ) < w.length := by simpa using i.2
  simp [hi]
  ring

theorem outcome_normalised {w : List ℚ} (hw : ∀ q ∈ w, 0 ≤ q) (hs : 0 < w.sum) (x : Py ℕ) :
    (npChoice (w.map (· / w.sum))).Outcome x ↔ ∃ i < w.length, 0 < w.getD i 0 ∧ x = .ok i := by
  rw [normalised_ok hw hs]
  simp only [Outcome, List.length_map, List.getElem_map]
  constructor
  · rintro ⟨i, h, hp, hx⟩
    refine ⟨i, h, ?_, hx⟩
    rw [List.getD_eq_getElem?_getD, List.getElem?_eq_getElem h]
    simpa [div_pos_iff, hs, hs.le, not_lt.mpr hs.le] using hp
  · rintro ⟨i, h, hp, hx⟩
    refine ⟨i, h, ?_, hx⟩
    rw [List.getD_eq_getElem?_getD, List.getElem?_eq_getElem h] at hp
    exact div_pos hp hs

end Verif
