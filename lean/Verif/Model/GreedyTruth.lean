/-
The ground truth functions and the batches of the two greedy head samplers. Both classes have the same code.
-/
import Verif.Model.GreedyHead
import Mathlib.Data.Finset.Sort

namespace Verif

namespace GreedyHead

/-- The attributes of the record `pr.1` that `pr.2` does not have, `set(self.rows[pos]) - set(self.rows[neg])`
(`prune_and_greedy.py:160, 175`, `cftp_and_greedy.py:200, 215`). -/
def separating (rows : List (Finset ℕ)) (pr : ℕ × ℕ) : Py (Finset ℕ) := do
  let a ← pyGet rows pr.1
  let b ← pyGet rows pr.2
  return a \ b

/-- `get_ground_truth_proba_for_pairs` (`prune_and_greedy.py:151-167`, `cftp_and_greedy.py:191-207`). The keys are
different, so the second loop divides every entry once. -/
def pairTruth (rows : List (Finset ℕ)) (pos neg : List ℕ) : Py (List ((ℕ × ℕ) × ℚ)) := do
  let cnt ← (pos ×ˢ neg).mapM fun pr => do
    let s ← separating rows pr
    return (pr, (s.card : ℚ))
  counter2proba cnt

/-- `get_ground_truth_proba_for_samples` (`prune_and_greedy.py:169-184`, `cftp_and_greedy.py:209-224`). -/
def attributeTruth (order : Finset ℕ → List ℕ) (rows : List (Finset ℕ)) (pos neg : List ℕ) : Py (List (ℕ × ℚ)) := do
  let ls ← (pos ×ˢ neg).mapM fun pr => do
    let s ← separating rows pr
    return order s
  counter2proba ((tallyOf ls.flatten).map fun e => (e.1, (e.2 : ℚ)))

/-- `self._pos_list`, `self._neg_list` and `self.rows` (`prune_and_greedy.py:41-42`, `cftp_and_greedy.py:56-57`): the lists
are sorted; they are no attributes before a `fit` has got so far. -/
def withLists {α : Type} (rows : Option (List (Finset ℕ))) (labels : Option (Finset ℕ × Finset ℕ))
    (f : List (Finset ℕ) → List ℕ → List ℕ → Py α) : Py α :=
  match labels, rows with
  | some l, some rows => f rows (l.1.sort (· ≤ ·)) (l.2.sort (· ≤ ·))
  | _, _ => .error .attributeError

/-- `PruneGreedy.get_ground_truth_proba_for_pairs` (`prune_and_greedy.py:151-167`). -/
def Prune.pairTruth (s : Prune) : Py (List ((ℕ × ℕ) × ℚ)) := withLists s.rows s.labels GreedyHead.pairTruth

/-- `PruneGreedy.get_ground_truth_proba_for_samples` (`prune_and_greedy.py:169-184`). -/
def Prune.attributeTruth (order : Finset ℕ → List ℕ) (s : Prune) : Py (List (ℕ × ℚ)) :=
  withLists s.rows s.labels (GreedyHead.attributeTruth order)

/-- `CFTP_Greedy.get_ground_truth_proba_for_pairs` (`cftp_and_greedy.py:191-207`). -/
def Coupled.pairTruth (s : Coupled) : Py (List ((ℕ × ℕ) × ℚ)) := withLists s.rows s.labels GreedyHead.pairTruth

/-- `CFTP_Greedy.get_ground_truth_proba_for_samples` (`cftp_and_greedy.py:209-224`). -/
def Coupled.attributeTruth (order : Finset ℕ → List ℕ) (s : Coupled) : Py (List (ℕ × ℚ)) :=
  withLists s.rows s.labels (GreedyHead.attributeTruth order)

/-- `CFTP_Greedy.sample_a_pair` (`cftp_and_greedy.py:103-110`). -/
noncomputable def Coupled.samplePair (s : Coupled) : RandR (Option (ℕ × ℕ) × Coupled) :=
  match s.cftp with
  | some c => do
    let r ← c.sample s.lists
    return (r.1, { s with lists := r.2 })
  | none => .raise .attributeError

/-- `CFTP_Greedy.sample(k)` (`cftp_and_greedy.py:132-133`); the sets of different calls may be traversed differently. -/
noncomputable def Coupled.sample : List (ℕ → Finset ℕ → List ℕ) → Coupled → RandR (List (Option (Finset ℕ)) × Coupled)
  | [], s => pure ([], s)
  | order :: orders, s => do
    let r ← s.sampleOnce order
    let rest ← Coupled.sample orders r.2
    return (r.1 :: rest.1, rest.2)

end GreedyHead

end Verif
