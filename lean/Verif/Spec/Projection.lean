/-
Specification vocabulary for the viewer script.
-/
import Verif.Spec.Plot
import Verif.Model.Projection

namespace Verif

namespace Biclus

/-- The rows with the same k-means label as row `x`. -/
def rowsLike (A : Dense ℚ) (labels : List ℕ) (x : ℕ) : Finset ℕ :=
  (Finset.range A.rows).filter fun r => labels.getD r 0 = labels.getD x 0

/-- More than the share `t` of the rows with the label of `x` are not zero in column `y`. -/
def Supported (A : Dense ℚ) (labels : List ℕ) (t : ℝ) (x y : ℕ) : Prop :=
  t * ((rowsLike A labels x).card : ℝ) < (((rowsLike A labels x).filter fun r => A.at_ r y ≠ 0).card : ℝ)

end Biclus

end Verif
