/-
Two random programs with nearly the same law, and how the distance grows under sequencing.
-/
import Verif.Lemmas.Ideal
import Verif.Lemmas.FloatCftpRun
import Verif.Model.FloatLearner
import Verif.Lemmas.Local

namespace Verif

namespace RandR

variable {α β : Type}

/-- The law of `m'` differs from that of `m` by at most `ε` on every event, and `m'` has no result that `m` lacks. -/
structure Near (ε : ℝ) (m m' : RandR α) : Prop where
  left : m.Discrete
  right : m'.Discrete
  sub : ∀ x, m'.Outcome x → m.Outcome x
  close : ∀ f : Py α → ℝ, (∀ x, 0 ≤ f x ∧ f x ≤ 1) → |m'.expect f - m.expect f| ≤ ε

theorem Discrete.congr {m : RandR α} (hm : m.Discrete) {F G : Py α → ℝ} (h : ∀ x, m.Outcome x → F x = G x) :
    m.expect F = m.expect G :=
  le_antisymm (hm.mono fun x hx => (h x hx).le) (hm.mono fun x hx => (h x hx).ge)

theorem Discrete.bounds {m : RandR α} (hm : m.Discrete) {F : Py α → ℝ} (h : ∀ x, 0 ≤ F x ∧ F x ≤ 1) :
    0 ≤ m.expect F ∧ m.expect F ≤ 1 := by
  constructor
  · rw [← hm.expect_const 0]
    exact hm.mono fun x _ => (h x).1
  · rw [← hm.expect_const 1]
    exact hm.mono fun x _ => (h x).2

theorem Discrete.exists_outcome {m : RandR α} (hm : m.Discrete) : ∃ x, m.Outcome x := by
  obtain ⟨L, h1, h2, -⟩ := hm
  cases L with
  | nil => simp at h2
  | cons q L => exact ⟨q.2, (h1 q List.mem_cons_self).2⟩

/-- A result of positive probability can occur. -/
theorem Discrete.outcome_of_pos {m : RandR α} (hm : m.Discrete) {x : Py α} {F : Py α → ℝ} (h0 : 0 < m.expect F)
    (hF : ∀ y, y ≠ x → F y = 0) : m.Outcome x := by
  by_contra hno
  have : m.expect F = m.expect fun _ => 0 := hm.congr fun y hy => hF y (by rintro rfl; exact hno hy)
  rw [this, hm.expect_const] at h0
  exact lt_irrefl _ h0

theorem Near.refl {m : RandR α} (h : m.Discrete) : Near 0 m m :=
  ⟨h, h, fun _ hx => hx, fun f _ => by rw [sub_self, abs_zero]⟩

theorem Near.mono {m m' : RandR α} {ε δ : ℝ} (h : Near ε m m') (he : ε ≤ δ) : Near δ m m' :=
  ⟨h.left, h.right, h.sub, fun f hf => (h.close f hf).trans he⟩

/-- Two programs that always end in the same way. -/
theorem Near.const {m m' : RandR α} (h : m.Discrete) (h' : m'.Discrete) {r : Py α} (hr : ∀ x, m.Outcome x → x = r)
    (hr' : ∀ x, m'.Outcome x → x = r) : Near 0 m m' := by
  obtain ⟨x, hx⟩ := h.exists_outcome
  have hxr := hr x hx
  subst hxr
  refine ⟨h, h', fun y hy => by rw [hr' y hy]; exact hx, fun f _ => ?_⟩
  rw [h.congr (G := fun _ => f x) fun y hy => by rw [hr y hy], h'.congr (G := fun _ => f x) fun y hy => by rw [hr' y hy],
    h.expect_const, h'.expect_const, sub_self, abs_zero]

theorem Near.bind {m m' : RandR α} {k k' : α → RandR β} {ε δ : ℝ} (h : Near ε m m') (hδ : 0 ≤ δ)
    (hk : ∀ a, m.Outcome (.ok a) → (k a).Discrete) (hkk : ∀ a, m'.Outcome (.ok a) → Near δ (k a) (k' a)) :
    Near (ε + δ) (m.bind k) (m'.bind k') := by
  refine ⟨h.left.bind hk, h.right.bind fun a ha => (hkk a ha).right, ?_, ?_⟩
  · intro x hx
    rw [outcome_bind] at hx ⊢
    rcases hx with ⟨a, ha, hx⟩ | ⟨e, he, hx⟩
    · exact Or.inl ⟨a, h.sub _ ha, (hkk a ha).sub x hx⟩
    · exact Or.inr ⟨e, h.sub _ he, hx⟩
  · intro f hf
    rw [expect_bind, expect_bind]
    let g : Py α → ℝ := fun x => max 0 (min 1 (after f k x))
    have hg : ∀ x, 0 ≤ g x ∧ g x ≤ 1 := fun x => ⟨le_max_left _ _, max_le zero_le_one (min_le_left _ _)⟩
    have hb : ∀ x, m.Outcome x → g x = after f k x := by
      intro x hx
      have : 0 ≤ after f k x ∧ after f k x ≤ 1 := by
        cases x with
        | ok a => exact (hk a hx).bounds hf
        | error e => exact hf _
      simp only [g]
      rw [min_eq_right this.2, max_eq_right this.1]
    rw [← h.left.congr hb]
    have h1 := h.close g hg
    have h2 : |m'.expect (after f k') - m'.expect g| ≤ δ := by
      have hpt : ∀ x, m'.Outcome x → |after f k' x - g x| ≤ δ := by
        intro x hx
        rw [hb x (h.sub x hx)]
        cases x with
        | ok a => exact (hkk a hx).close f hf
        | error e => simpa [after] using hδ
      rw [abs_le]
      constructor
      · have := h.right.mono (F := g) (G := fun x => after f k' x + δ) fun x hx => by
          have := (abs_le.mp (hpt x hx)).1; linarith
        rw [h.right.expect_add, h.right.expect_const] at this
        linarith
      · have := h.right.mono (F := after f k') (G := fun x => g x + δ) fun x hx => by
          have := (abs_le.mp (hpt x hx)).2; linarith
        rw [h.right.expect_add, h.right.expect_const] at this
        linarith
    have := abs_add_le (m'.expect (after f k') - m'.expect g) (m'.expect g - m.expect g)
    rw [show m'.expect (after f k') - m'.expect g + (m'.expect g - m.expect g) =
      m'.expect (after f k') - m.expect g by ring] at this
    linarith

theorem expect_attempt (m : RandR α) (f : Py (Py α) → ℝ) : m.attempt.expect f = m.expect fun x => f (.ok x) := by
  induction m with
  | done r => rfl
  | choice p k ih => simp only [attempt, expect, ih]
  | unif k ih => simp only [attempt, expect, ih]

theorem Near.attempt {m m' : RandR α} {ε : ℝ} (h : Near ε m m') : Near ε m.attempt m'.attempt := by
  refine ⟨h.left.attempt, h.right.attempt, fun x hx => ?_, fun f hf => ?_⟩
  · rw [outcome_attempt] at hx ⊢
    obtain ⟨r, hr, e⟩ := hx
    exact ⟨r, h.sub r hr, e⟩
  · rw [expect_attempt, expect_attempt]
    exact h.close _ fun x => hf _

theorem Near.probOf {m m' : RandR α} {ε : ℝ} (h : Near ε m m') (E : Py α → Prop) :
    |m'.probOf E - m.probOf E| ≤ ε := by
  unfold RandR.probOf
  exact h.close _ fun x => by split <;> norm_num

end RandR

open RandR

theorem orRaise_near {α β : Type} {r : Py α} {h : HeadSampler} {k k' : α → RandR (Py β × HeadSampler)} {ε : ℝ}
    (hε : 0 ≤ ε) (hk : ∀ a, r = .ok a → Near ε (k a) (k' a)) : Near ε (orRaise r h k) (orRaise r h k') := by
  cases r with
  | ok a => exact hk a rfl
  | error e => exact (Near.refl (Discrete.proper_done _)).mono hε

/-! ### Drawing numbers -/

theorem pyChoiceIdx_discrete (n : ℕ) : (pyChoiceIdx n).Discrete := by
  have hp := pyChoiceIdx_proper n
  unfold pyChoiceIdx at hp ⊢
  split
  · exact Discrete.proper_done _
  · rename_i h
    rw [if_neg h] at hp
    exact Discrete.choice hp fun _ => Discrete.proper_done _

theorem outcome_pyChoiceIdx {n : ℕ} {x : Py ℕ} (hn : n ≠ 0) (h : (pyChoiceIdx n).Outcome x) : ∃ k < n, x = .ok k := by
  unfold pyChoiceIdx at h
  rw [if_neg hn] at h
  obtain ⟨i, hi, -, h⟩ := h
  rw [List.length_replicate] at hi
  exact ⟨i, hi, h⟩

theorem drawNumbers_discrete (M : ℕ) : ∀ n, (drawNumbers M n).Discrete
  | 0 => Discrete.proper_done _
  | n + 1 => Discrete.bind (pyChoiceIdx_discrete M) fun _ _ =>
      Discrete.bind (drawNumbers_discrete M n) fun _ _ => Discrete.proper_done _

theorem drawNumbers_outcome {M : ℕ} (hM : M ≠ 0) : ∀ (n : ℕ) {x : Py (List ℕ)}, (drawNumbers M n).Outcome x →
    ∃ l, x = .ok l ∧ l.length = n ∧ ∀ k ∈ l, k < M
  | 0, x, h => ⟨[], h, rfl, by simp⟩
  | n + 1, x, h => by
    rw [drawNumbers, RandR.bind_eq, RandR.outcome_bind] at h
    rcases h with ⟨k, hk, h⟩ | ⟨e, he, -⟩
    · obtain ⟨k', hk', e⟩ := outcome_pyChoiceIdx hM hk
      cases e
      rw [RandR.bind_eq, RandR.outcome_bind] at h
      rcases h with ⟨l, hl, h⟩ | ⟨e, he, -⟩
      · obtain ⟨l', e, hlen, hlt⟩ := drawNumbers_outcome hM n hl
        cases e
        refine ⟨k :: l, h, by simp [hlen], ?_⟩
        intro x hx
        rcases List.mem_cons.mp hx with rfl | hx
        · exact hk'
        · exact hlt x hx
      · obtain ⟨l', e', -⟩ := drawNumbers_outcome hM n he
        cases e'
    · obtain ⟨k', -, e'⟩ := outcome_pyChoiceIdx hM he
      cases e'

theorem expect_pyChoiceIdx {M : ℕ} (hM : M ≠ 0) (f : Py ℕ → ℝ) :
    (pyChoiceIdx M).expect f = (∑ k : Fin M, f (.ok k)) / M := by
  rw [law_pyChoiceIdx hM f, ← Finset.mul_sum, Finset.sum_range]
  ring

theorem expect_drawNumbers {M : ℕ} (hM : M ≠ 0) : ∀ (n : ℕ) (f : Py (List ℕ) → ℝ),
    (drawNumbers M n).expect f = averageOver M n fun l => f (.ok l)
  | 0, f => by rw [averageOver_zero]; rfl
  | n + 1, f => by
    rw [averageOver_succ, drawNumbers, RandR.bind_eq, RandR.expect_bind, expect_pyChoiceIdx hM]
    congr 1
    apply Finset.sum_congr rfl
    intro k _
    show RandR.expect f (RandR.bind _ _) = _
    rw [RandR.expect_bind, expect_drawNumbers hM n]
    rfl

end Verif
