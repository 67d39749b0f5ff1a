/-
Model of `update_row_weights` (`corset/samplers/uncovered_area.py:55-67`) statement by statement, for calls
that are interrupted: by a `KeyboardInterrupt`, by a signal handler that raises, or by an exception of the
call itself. The object then stays as the statements executed so far left it.

Simplification: a statement is executed as a whole. `row_weights[row_id] -= n` reads and writes one entry of
an array; an interruption in between has the effect of one before it.
-/
import Verif.Model.Uncovered

namespace Verif

/-- Where a running call of `update_row_weights` is. -/
inductive UpdPc
  /-- at the head of the loop over the rows, `uncovered_area.py:61`, with these rows left -/
  | rows (todo : List ℕ)
  /-- at the head of the loop over the labels, `uncovered_area.py:62`, with these labels of row `r` left -/
  | labels (r : ℕ) (els : List ℤ) (todo : List ℕ)
  /-- the weight of row `r` was decreased, the counter of `el` not yet deleted, `uncovered_area.py:65` -/
  | forget (r : ℕ) (el : ℤ) (els : List ℤ) (todo : List ℕ)
  /-- before `_update_row_probas()`, `uncovered_area.py:66` -/
  | normalise
  /-- before `update_history.append`, `uncovered_area.py:67` -/
  | record
  /-- the call has returned -/
  | returned

/-- One statement of `update_row_weights(affected, new_set)`, `corset/samplers/uncovered_area.py:61-67`, or the
exception it raises. -/
def updStep (affected : List ℕ) (newSet : List ℤ) : UpdPc → UState → Py (UpdPc × UState)
  | .rows [], st => .ok (.normalise, st)
  | .rows (r :: rs), st => .ok (.labels r newSet rs, st)
  | .labels _ [] rs, st => .ok (.rows rs, st)
  | .labels r (el :: els) rs, st =>
    match st.counters[r]? with
    | none => .error .indexError
    | some c =>
      match c el with
      | none => .ok (.labels r els rs, st)
      | some n =>
        match st.weights[r]? with
        | none => .error .indexError
        | some w => .ok (.forget r el els rs, { st with weights := st.weights.set r (w - n) })
  | .forget r el els rs, st =>
    match st.counters[r]? with
    | none => .error .indexError
    | some c => .ok (.labels r els rs, { st with counters := st.counters.set r (c.del el) })
  | .normalise, st => .ok (.record, { st with probas := rowProbas st.weights })
  | .record, st => .ok (.returned, { st with history := st.history ++ [(affected, newSet)] })
  | .returned, st => .ok (.returned, st)

/-- The points a call of `update_row_weights(affected, new_set)` on the object `st` passes through, with the
object as it is then. -/
inductive UpdPoint (affected : List ℕ) (newSet : List ℤ) (st : UState) : UpdPc → UState → Prop
  | start : UpdPoint affected newSet st (.rows affected) st
  | step {pc pc' : UpdPc} {obj obj' : UState} (h : UpdPoint affected newSet st pc obj)
      (hs : updStep affected newSet pc obj = .ok (pc', obj')) : UpdPoint affected newSet st pc' obj'

end Verif
