/-
Specification vocabulary for the order of the training records.
-/
import Verif.Spec.Learner
import Verif.Model.Sparse

namespace Verif

/-- The matrix with the given rows of `M`, in the given order (`M[order]`). -/
def Cmp.reorder (M : Cmp) (order : List ℕ) : Cmp := Cmp.ofLines M.nMinor (order.map M.entries)

/-- A permutation of the row numbers of `M`. -/
def OrderOf (M : Cmp) (order : List ℕ) : Prop := order.Perm (List.range M.nMajor)

/-- A list with every row number of `M` exactly `k` times, in any order. -/
def CopiesOf (k : ℕ) (M : Cmp) (order : List ℕ) : Prop := ∀ i, order.count i = if i < M.nMajor then k else 0

/-- `M'` says the same of the same records as `M`: it may store the entries of a row in another order, and it may
have further columns, which are empty. -/
structure SameRecords (M M' : Cmp) : Prop where
  binary : M'.Binary
  rows : M'.nMajor = M.nMajor
  cols : M.nMinor ≤ M'.nMinor
  stored : ∀ i j, M'.Stored i j ↔ M.Stored i j

/-- Sets of rules are traversed in an order that depends on the rules, that is on their heads and tails (from
which `Rule.__hash__` and `Rule.__eq__` are computed, `corset/rule.py:142-148`), and not on the data they are
bound to; the two environments agree on that order. Only ties between best candidates are broken by it. -/
def OrdersAlike (env env' : LearnEnv) : Prop :=
  ∀ l l' : List BRule, l.map BRule.toRule = l'.map BRule.toRule →
    (env.setOrder l).map BRule.toRule = (env'.setOrder l').map BRule.toRule

/-- What a call of `fit` learned: the rules, as heads and tails in the order of their selection, and the
objective. -/
def learned : Py (Option (LearnObj × ℝ)) → Py (Option (List Rule × ℝ))
  | .ok (some r) => .ok (some (r.1.selected.map BRule.toRule, r.2))
  | .ok none => .ok none
  | .error e => .error e

/-- The same for a learner with two rounds of fitting, which leaves the better selection, the smaller objective, and
both objectives and selections. -/
def learnedDivMax : Py (Option (LearnObj × FitResult)) → Py (Option (List Rule × ℝ × ℝ × ℝ × List Rule × List Rule))
  | .ok (some r) => .ok (some (r.1.selected.map BRule.toRule, r.2.obj, r.2.objRound1, r.2.objRound2,
      r.2.round1.map BRule.toRule, r.2.round2.map BRule.toRule))
  | .ok none => .ok none
  | .error e => .error e

/-- The same rules with `c` times the objective. -/
def scaleLearned (c : ℝ) : Py (Option (List Rule × ℝ)) → Py (Option (List Rule × ℝ))
  | .ok (some r) => .ok (some (r.1, c * r.2))
  | .ok none => .ok none
  | .error e => .error e

/-- The same selections with `c` times the objectives. -/
def scaleDivMax (c : ℝ) : Py (Option (List Rule × ℝ × ℝ × ℝ × List Rule × List Rule)) →
    Py (Option (List Rule × ℝ × ℝ × ℝ × List Rule × List Rule))
  | .ok (some (sel, obj, obj1, obj2, r1, r2)) => .ok (some (sel, c * obj, c * obj1, c * obj2, r1, r2))
  | .ok none => .ok none
  | .error e => .error e

end Verif
