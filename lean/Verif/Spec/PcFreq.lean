/-
Specification vocabulary for `PCFrequencySampler`.
-/
import Verif.Spec.Surs
import Verif.Spec.Graph
import Verif.Model.PcFreq

namespace Verif

/-- The samples a threshold asks for: the label sets that are a single label or a clique of probability at
least `alpha`. -/
noncomputable def probableSets (g : UGraph ℚ) (L : ℕ) (alpha : ℚ) : Finset (Finset ℕ) :=
  open Classical in (Finset.range L).powerset.filter fun T => g.Probable alpha T

end Verif
