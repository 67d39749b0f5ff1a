/-
Specification vocabulary for interrupted fits.
-/
import Verif.Model.InterruptFit
import Verif.Spec.Learner

namespace Verif

/-- A fit of the object `o` on `X` and `Y` passes through the point `pc` of its loop, where the selected rules and the
samplers are as in `st`. -/
def FitPoint (env : LearnEnv) (p : Params) (lr : Learner) (o : LearnObj) (X Y : Cmp) (pc : LoopPc)
    (st : LearnState) : Prop :=
  ∃ s, tailFit env.toHeadEnv o.minLabelProba true o.history Y = .ok s ∧
    LoopPoint env p lr X X.flip Y.flip { sampler := (s, o.heads), selected := o.selected, pool := [] } pc st

end Verif
