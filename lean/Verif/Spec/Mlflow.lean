/-
Specification vocabulary for the experiment helpers: which experiments a store has.
-/
import Verif.Model.Mlflow

namespace Verif

namespace Mlflow

/-- The store has an experiment of that name. -/
def Has (s : Store) (name : String) : Prop := ∃ e ∈ s, e.name = name

/-- No two experiments of the store have the same name. -/
def Distinct (s : Store) : Prop := ∀ e ∈ s, ∀ e' ∈ s, e.name = e'.name → e = e'

/-- The ids that the store hands out during a schedule are no names of experiments: neither of those that are there
nor of the one that is asked for. -/
def IdsAreNotNames (s : Store) (name : String) (schedule : List (ℕ × String)) : Prop :=
  ∀ t ∈ schedule, t.2 ≠ name ∧ ¬ Has s t.2

/-- How often process `k` is scheduled. -/
def turns (schedule : List (ℕ × String)) (k : ℕ) : ℕ := (schedule.filter fun t => t.1 = k).length

/-- The process has come to an end. -/
def Finished : Proc → Prop
  | .done _ => True
  | _ => False

end Mlflow

end Verif
