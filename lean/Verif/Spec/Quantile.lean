/-
Specification vocabulary for quantiles.
-/
import Verif.Model.Quantile

namespace Verif

namespace Quantile

/-- `a` is the value at place `k` (from 0) when the values are put in increasing order: at most `k` values
are smaller, and more than `k` are at most `a`. -/
def AtPlace (xs : List ℚ) (k : ℕ) (a : ℚ) : Prop :=
  a ∈ xs ∧ xs.countP (fun v => decide (v < a)) ≤ k ∧ k < xs.countP (fun v => decide (v ≤ a))

/-- `r` is the `q`-quantile: with `k` and `t` the integral and fractional part of `(n - 1) q`, the point that
divides the way from the value at place `k` to the next one in the ratio `t : 1 - t`. -/
def IsQuantile (xs : List ℚ) (q r : ℚ) : Prop :=
  ∃ k : ℕ, ∃ t lo hi : ℚ, ((xs.length : ℚ) - 1) * q = k + t ∧ 0 ≤ t ∧ t < 1 ∧ AtPlace xs k lo ∧
    (if t = 0 then hi = lo else AtPlace xs (k + 1) hi) ∧ r = lo + t * (hi - lo)

end Quantile

end Verif
