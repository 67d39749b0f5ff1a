/-
`numpy.quantile` and the functions of `corset/utils_data.py` that turn numbers into zeros and ones with it.

Simplifications: exact rationals instead of doubles (numpy computes in `float64`); no `nan`.
-/
import Verif.Py

namespace Verif

namespace Quantile

/-- The values in increasing order. -/
def sorted (xs : List ℚ) : List ℚ := xs.mergeSort fun a b => decide (a ≤ b)

/-- `numpy.quantile(xs, q)` with linear interpolation: `ValueError` if `q` is not in `[0, 1]`, `IndexError`
if there are no values (numpy 1.22 and later; older versions warn and return `nan`). -/
def quantile (xs : List ℚ) (q : ℚ) : Py ℚ :=
  if q < 0 ∨ 1 < q then .error .valueError
  else if xs = [] then .error .indexError
  else
    let v := ((xs.length - 1 : ℕ) : ℚ) * q
    let k := ⌊v⌋.toNat
    let t := v - (k : ℚ)
    let lo := (sorted xs).getD k 0
    let hi := (sorted xs).getD (min (k + 1) (xs.length - 1)) 0
    .ok (lo + t * (hi - lo))

/-- The two masked assignments of `generate_synthetic_dataset` on the flattened matrix of counts
(`corset/utils_data.py:392-393`): the second quantile is that of the matrix changed by the first assignment. -/
def thresholdCounts (D : List ℤ) (density : ℚ) : Py (List ℤ) := do
  let q ← quantile (D.map fun v : ℤ => (v : ℚ)) density
  let D' := D.map fun v : ℤ => if (v : ℚ) < q then 1 else v
  let q' ← quantile (D'.map fun v : ℤ => (v : ℚ)) density
  return D'.map fun v : ℤ => if q' ≤ (v : ℚ) then 0 else v

/-- The loop over a numeric column (`corset/utils_data.py:594-602`): 0 up to the quantile, 1 above. -/
def binarise (col : List ℚ) (sparsity : ℚ) : Py (List ℚ) := do
  let q ← quantile col sparsity
  return col.map fun v => if v ≤ q then 0 else 1

/-- The same loop of the `genbase` reader (`corset/utils_data.py:713-723`): 0 below the quantile, 1 from it
on. -/
def binariseBelow (col : List ℚ) (sparsity : ℚ) : Py (List ℚ) := do
  let q ← quantile col sparsity
  return col.map fun v => if v < q then 0 else 1

end Quantile

end Verif
