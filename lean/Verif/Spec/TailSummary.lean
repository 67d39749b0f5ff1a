/-
Specification vocabulary for the summary of tail scores.
-/
import Verif.Model.TailSummary
import Verif.Spec.Quantile

namespace Verif

/-- The table entry that belongs to some numbers. -/
structure Summarises (xs : List ℚ) (s : ColSummary) : Prop where
  /-- How many numbers there are. -/
  count : s.count = xs.length
  /-- Without numbers there are no statistics. -/
  empty : xs = [] → s.mean = none ∧ s.min = none ∧ s.q25 = none ∧ s.q50 = none ∧ s.q75 = none ∧ s.max = none
  /-- The mean times the number of numbers is their sum. -/
  mean : xs ≠ [] → ∃ m, s.mean = some m ∧ m * xs.length = xs.sum
  /-- The smallest number. -/
  min : xs ≠ [] → ∃ a ∈ xs, s.min = some a ∧ ∀ x ∈ xs, a ≤ x
  /-- The largest number. -/
  max : xs ≠ [] → ∃ a ∈ xs, s.max = some a ∧ ∀ x ∈ xs, x ≤ a
  /-- The quartiles. -/
  quartiles : xs ≠ [] → ∃ a b c, s.q25 = some a ∧ s.q50 = some b ∧ s.q75 = some c ∧
    Quantile.IsQuantile xs (1 / 4) a ∧ Quantile.IsQuantile xs (1 / 2) b ∧ Quantile.IsQuantile xs (3 / 4) c
  /-- One number has no deviation. -/
  short : xs.length < 2 → s.std = none
  /-- The square of the deviation is the sum of the squared distances from the mean, divided by one less than the
  number of numbers. -/
  std : 2 ≤ xs.length → ∃ m d, s.mean = some m ∧ s.std = some d ∧ 0 ≤ d ∧
    d ^ 2 * ((xs.length : ℝ) - 1) = ((xs.map fun x => (x - m) ^ 2).sum : ℚ)

/-- The numbers of a column. -/
def numbersOf (col : List (Option ℚ)) : List ℚ := col.filterMap id

end Verif
