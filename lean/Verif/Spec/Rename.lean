/-
Specification vocabulary for the numbering of features and labels.
-/
import Verif.Spec.RowOrder
import Mathlib.Logic.Equiv.Defs

namespace Verif

/-- The matrix in which the column `j` of `M` has the number `τ j`: every stored column index is replaced. -/
def Cmp.renumber (M : Cmp) (τ : Equiv.Perm ℕ) : Cmp := { M with indices := M.indices.map τ }

/-- A new numbering of the columns of `M`. -/
def NumberingOf (M : Cmp) (τ : Equiv.Perm ℕ) : Prop := ∀ j, τ j < M.nMinor ↔ j < M.nMinor

/-- The new number of a feature or of a label; negative numbers, which number nothing, stay. -/
def newNumber (τ : Equiv.Perm ℕ) : ℤ → ℤ
  | .ofNat j => (τ j : ℕ)
  | .negSucc j => .negSucc j

/-- The rule with new numbers for the features (`τ`) and the labels (`ρ`). -/
def Rule.renumber (τ ρ : Equiv.Perm ℕ) (r : Rule) : Rule :=
  Rule.new (r.head.map (newNumber τ)) (r.tail.map (newNumber ρ))

/-- Sets of rules are traversed alike whether the rules have the old or the new numbers. Only ties between best
candidates are broken by this order. -/
def OrdersRenumbered (τ ρ : Equiv.Perm ℕ) (env env' : LearnEnv) : Prop :=
  ∀ l l' : List BRule, l'.map BRule.toRule = l.map (fun b => b.toRule.renumber τ ρ) →
    (env'.setOrder l').map BRule.toRule = (env.setOrder l).map fun b => b.toRule.renumber τ ρ

/-- What was learned (`learned`), with new numbers. -/
def renumberLearned (τ ρ : Equiv.Perm ℕ) : Py (Option (List Rule × ℝ)) → Py (Option (List Rule × ℝ))
  | .ok (some (rules, obj)) => .ok (some (rules.map (Rule.renumber τ ρ), obj))
  | .ok none => .ok none
  | .error e => .error e

/-- The same for a learner with two rounds of fitting (`learnedDivMax`). -/
def renumberDivMax (τ ρ : Equiv.Perm ℕ) : Py (Option (List Rule × ℝ × ℝ × ℝ × List Rule × List Rule)) →
    Py (Option (List Rule × ℝ × ℝ × ℝ × List Rule × List Rule))
  | .ok (some (rules, obj, obj1, obj2, rules1, rules2)) =>
    .ok (some (rules.map (Rule.renumber τ ρ), obj, obj1, obj2, rules1.map (Rule.renumber τ ρ),
      rules2.map (Rule.renumber τ ρ)))
  | .ok none => .ok none
  | .error e => .error e

end Verif
