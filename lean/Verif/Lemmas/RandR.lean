/-
Lemmas on random programs with real draws.
-/
import Verif.Model.RandR
import Mathlib.MeasureTheory.Integral.IntervalIntegral.Basic
import Mathlib.Algebra.BigOperators.Fin

namespace Verif
namespace RandR

theorem bind_eq {α β : Type} (m : RandR α) (f : α → RandR β) : (m >>= f) = m.bind f := rfl
theorem pure_eq {α : Type} (a : α) : (pure a : RandR α) = done (.ok a) := rfl

@[simp] theorem outcome_done {α : Type} (r x : Py α) : (done r).Outcome x ↔ x = r := Iff.rfl

theorem outcome_bind {α β : Type} (m : RandR α) (f : α → RandR β) (x : Py β) :
    (m.bind f).Outcome x ↔
      (∃ a, m.Outcome (.ok a) ∧ (f a).Outcome x) ∨ (∃ e, m.Outcome (.error e) ∧ x = .error e) := by
  induction m with
  | done r =>
    rcases r with e | a
    · simp only [bind, Outcome]
      constructor
      · intro h; exact Or.inr ⟨e, rfl, h⟩
      · rintro (⟨a, ha, -⟩ | ⟨e', he, hx⟩)
        · cases ha
        · cases he; exact hx
    · simp only [bind, Outcome]
      constructor
      · intro h; exact Or.inl ⟨a, rfl, h⟩
      · rintro (⟨a', ha, hx⟩ | ⟨e', he, -⟩)
        · cases ha; exact hx
        · cases he
  | choice p k ih =>
    simp only [bind, Outcome]
    constructor
    · rintro ⟨i, hi, hp, h⟩
      rcases (ih i).mp h with ⟨a, ha, hx⟩ | ⟨e, he, hx⟩
      · exact Or.inl ⟨a, ⟨i, hi, hp, ha⟩, hx⟩
      · exact Or.inr ⟨e, ⟨i, hi, hp, he⟩, hx⟩
    · rintro (⟨a, ⟨i, hi, hp, ha⟩, hx⟩ | ⟨e, ⟨i, hi, hp, he⟩, hx⟩)
      · exact ⟨i, hi, hp, (ih i).mpr (Or.inl ⟨a, ha, hx⟩)⟩
      · exact ⟨i, hi, hp, (ih i).mpr (Or.inr ⟨e, he, hx⟩)⟩
  | unif k ih =>
    simp only [bind, Outcome]
    constructor
    · rintro ⟨i, hi, hp, h⟩
      rcases (ih i).mp h with ⟨a, ha, hx⟩ | ⟨e, he, hx⟩
      · exact Or.inl ⟨a, ⟨i, hi, hp, ha⟩, hx⟩
      · exact Or.inr ⟨e, ⟨i, hi, hp, he⟩, hx⟩
    · rintro (⟨a, ⟨i, hi, hp, ha⟩, hx⟩ | ⟨e, ⟨i, hi, hp, he⟩, hx⟩)
      · exact ⟨i, hi, hp, (ih i).mpr (Or.inl ⟨a, ha, hx⟩)⟩
      · exact ⟨i, hi, hp, (ih i).mpr (Or.inr ⟨e, he, hx⟩)⟩

/-- What a continuation contributes to an expectation. -/
noncomputable def after {α β : Type} (f : Py β → ℝ) (k : α → RandR β) : Py α → ℝ
  | .ok a => (k a).expect f
  | .error e => f (.error e)

theorem expect_bind {α β : Type} (f : Py β → ℝ) (m : RandR α) (k : α → RandR β) :
    (m.bind k).expect f = m.expect (after f k) := by
  induction m with
  | done r => cases r <;> rfl
  | choice p g ih => simp only [bind, expect, ih]
  | unif g ih => simp only [bind, expect, ih]

end RandR

open RandR

/-- Integrating a function that jumps once. -/
theorem integral_threshold (r a b : ℝ) :
    ∫ u in (0 : ℝ)..1, (if u < r then a else b) = max 0 (min 1 r) * a + (1 - max 0 (min 1 r)) * b := by
  set t := max 0 (min 1 r) with ht
  have h0 : 0 ≤ t := le_max_left _ _
  have h1 : t ≤ 1 := max_le (by norm_num) (min_le_left _ _)
  have e1 : ∫ u in (0 : ℝ)..t, (if u < r then a else b) = ∫ u in (0 : ℝ)..t, a := by
    apply intervalIntegral.integral_congr_ae
    have hne : ∀ᵐ u : ℝ, u ≠ t := by simp [MeasureTheory.ae_iff]
    filter_upwards [hne] with u hu hmem
    rw [Set.uIoc_of_le h0] at hmem
    have hlt : u < t := lt_of_le_of_ne hmem.2 hu
    have : u < r := by
      have h2 : u < min 1 r := by
        rcases lt_max_iff.mp (ht ▸ hlt) with h | h
        · exact absurd hmem.1 (not_lt.mpr h.le)
        · exact h
      exact lt_of_lt_of_le h2 (min_le_right _ _)
    rw [if_pos this]
  have e2 : ∫ u in t..1, (if u < r then a else b) = ∫ u in t..1, b := by
    apply intervalIntegral.integral_congr_ae
    have hne : ∀ᵐ u : ℝ, u ≠ 1 := by simp [MeasureTheory.ae_iff]
    filter_upwards [hne] with u hu1 hmem
    rw [Set.uIoc_of_le h1] at hmem
    have hlt : u < 1 := lt_of_le_of_ne hmem.2 hu1
    have : ¬ u < r := by
      intro hr
      have h2 : u < min 1 r := lt_min hlt hr
      have h3 : min 1 r ≤ t := le_max_right _ _
      linarith [hmem.1]
    rw [if_neg this]
  have i1 : IntervalIntegrable (fun u => if u < r then a else b) MeasureTheory.volume 0 t := by
    refine (intervalIntegrable_const (c := a)).congr_ae ?_
    have hne : ∀ᵐ u : ℝ, u ≠ t := by simp [MeasureTheory.ae_iff]
    refine (MeasureTheory.ae_restrict_iff' measurableSet_uIoc).mpr ?_
    filter_upwards [hne] with u hu hmem
    rw [Set.uIoc_of_le h0] at hmem
    have hlt : u < t := lt_of_le_of_ne hmem.2 hu
    have h2 : u < min 1 r := by
      rcases lt_max_iff.mp (ht ▸ hlt) with h | h
      · exact absurd hmem.1 (not_lt.mpr h.le)
      · exact h
    rw [if_pos (lt_of_lt_of_le h2 (min_le_right _ _))]
  have i2 : IntervalIntegrable (fun u => if u < r then a else b) MeasureTheory.volume t 1 := by
    refine (intervalIntegrable_const (c := b)).congr_ae ?_
    have hne : ∀ᵐ u : ℝ, u ≠ 1 := by simp [MeasureTheory.ae_iff]
    refine (MeasureTheory.ae_restrict_iff' measurableSet_uIoc).mpr ?_
    filter_upwards [hne] with u hu1 hmem
    rw [Set.uIoc_of_le h1] at hmem
    have hlt : u < 1 := lt_of_le_of_ne hmem.2 hu1
    have : ¬ u < r := by
      intro hr
      have h2 : u < min 1 r := lt_min hlt hr
      have h3 : min 1 r ≤ t := le_max_right _ _
      linarith [hmem.1]
    rw [if_neg this]
  rw [← intervalIntegral.integral_add_adjacent_intervals i1 i2, e1, e2]
  simp only [intervalIntegral.integral_const, smul_eq_mul, sub_zero]

theorem integrable_threshold (r a b : ℝ) :
    IntervalIntegrable (fun u : ℝ => if u < r then a else b) MeasureTheory.volume 0 1 := by
  have hm : Measurable (fun u : ℝ => if u < r then a else b) :=
    Measurable.ite measurableSet_Iio measurable_const measurable_const
  refine (intervalIntegrable_const (c := |a| + |b|)).mono_fun hm.aestronglyMeasurable ?_
  refine Filter.Eventually.of_forall fun u => ?_
  have h1 := abs_nonneg a
  have h2 := abs_nonneg b
  simp only [Real.norm_eq_abs]
  rw [abs_of_nonneg (add_nonneg h1 h2)]
  split <;> linarith

end Verif
