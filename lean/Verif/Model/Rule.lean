/-
`corset/rule.py`: decision rules, their binding to a dataset and their statistics.
-/
import Verif.Model.Sparse
import Mathlib.Data.EReal.Basic
import Mathlib.Data.Finset.Prod
import Mathlib.Analysis.SpecialFunctions.Log.Basic

namespace Verif

/-- A rule `head -> tail` before binding: only the two item tuples (`corset/rule.py:21-28`). -/
structure Rule where
  head : List ℤ
  tail : List ℤ
  deriving DecidableEq, Repr

/-- `Rule.__init__` (`corset/rule.py:22-28`): both collections are sorted; duplicates are kept. -/
def Rule.new (head tail : List ℤ) : Rule :=
  { head := head.mergeSort (fun a b => decide (a ≤ b)),
    tail := tail.mergeSort (fun a b => decide (a ≤ b)) }

/-- `Rule.__eq__` (`corset/rule.py:147-148`). -/
def Rule.eq (a b : Rule) : Bool := decide (a.head = b.head) && decide (a.tail = b.tail)

/-- `Rule.__hash__` (`corset/rule.py:150-151`) for an arbitrary hash function on pairs of tuples. -/
def Rule.hash (h : List ℤ × List ℤ → ℕ) (a : Rule) : ℕ := h (a.head, a.tail)

/-- A rule after `bind_dataset`: the attributes set by `corset/rule.py:31-77`. The `*_size`
attributes are the cardinalities of the corresponding sets. The references to `X` and `Y`
themselves are not kept, since no later method of the rule reads them. -/
structure BRule extends Rule where
  N : ℕ
  D : ℕ
  L : ℕ
  tailVec : List Bool
  headVec : List Bool
  numPositives : ℕ
  headSupport : Finset ℕ
  tailSupport : Finset ℕ
  support : Finset ℕ

/-- `Rule._check_head` (`corset/rule.py:46-50`). -/
def checkHead (D : ℕ) : List ℤ → Py Unit
  | [] => .ok ()
  | el :: rest => if el < 0 ∨ el ≥ (D : ℤ) then .error .valueError else checkHead D rest

/-- `np.logical_and` of two vectors (`corset/rule.py:75`). Lengths that differ raise `ValueError`
(numpy would also broadcast a vector of length 1; that case is not modelled). -/
def logicalAnd (a b : List Bool) : Py (List Bool) :=
  if a.length = b.length then .ok (List.zipWith (· && ·) a b) else .error .valueError

/-- `Rule.bind_dataset` (`corset/rule.py:31-77`) for CSC matrices `X` (features) and `Y` (labels):
`X.shape = (X.nMinor, X.nMajor)`. -/
def bindDataset (r : Rule) (X Y : Cmp) : Py BRule := do
  checkHead X.nMajor r.head
  let tailVec ← conjunctiveCollapseV2 Y r.tail
  let headVec ← conjunctiveCollapseV2 X r.head
  let headSupport := binaryVectorToSet headVec
  if headSupport.card = 0 then
    .error .valueError
  else
    let tailSupport := binaryVectorToSet tailVec
    let mask ← logicalAnd headVec tailVec
    return { head := r.head, tail := r.tail, N := X.nMinor, D := X.nMajor, L := Y.nMajor,
             tailVec := tailVec, headVec := headVec, numPositives := tailVec.countP (· = true),
             headSupport := headSupport, tailSupport := tailSupport,
             support := binaryVectorToSet mask }

namespace BRule

/-- `true_positive_rate` = `precision` (`corset/rule.py:79-90`). -/
def precision (r : BRule) : Py ℚ := pyDiv r.support.card r.headSupport.card

/-- `recall` (`corset/rule.py:92-94`). `num_positives` is a numpy integer, so a zero denominator
gives `nan` with a warning instead of an exception; the model reports it as `ZeroDivisionError`. -/
def recallRate (r : BRule) : Py ℚ := pyDiv r.support.card r.numPositives

/-- `base_rate` (`corset/rule.py:96-101`). -/
def baseRate (r : BRule) : Py ℚ := pyDiv r.tailSupport.card r.N

/-- `label_area` (`corset/rule.py:118-119`). -/
def labelArea (r : BRule) : ℕ := r.support.card * r.tail.length

/-- `extract_label_occs` (`corset/rule.py:126-127`): `set(product(rule.support, rule.tail))`. -/
def labelOccs (r : BRule) : Finset (ℕ × ℤ) := r.support ×ˢ r.tail.toFinset

/-- `marginal_coverage` (`corset/rule.py:121-140`). The sanity check on a negative cardinality
(lines 135-138) is unreachable and omitted. -/
def marginalCoverage (r : BRule) (refs : List BRule) : ℕ :=
  (refs.foldl (fun cur ref => cur \ ref.labelOccs) r.labelOccs).card

end BRule

/-- `jaccard_distance` (`corset/rule.py:8-18`), and `Rule.distance` (`corset/rule.py:115-116`). -/
def jaccardDistance (r1 r2 : BRule) : Py ℚ := do
  let inter : ℤ := (r1.support ∩ r2.support).card * (r1.tail.toFinset ∩ r2.tail.toFinset).card
  let union : ℤ := r1.support.card * r1.tail.length + r2.support.card * r2.tail.length - inter
  let q ← pyDiv inter union
  return 1 - q

/-- `scipy.special.rel_entr`, the summand of `scipy.stats.entropy(pk, qk)`. -/
noncomputable def relEntr (x y : ℝ) : EReal :=
  if 0 < x ∧ 0 < y then ((x * Real.log (x / y) : ℝ) : EReal)
  else if x = 0 ∧ 0 ≤ y then 0
  else ⊤

/-- `scipy.stats.entropy([p0, p1], [q0, q1])`: both vectors are normalised, then the `rel_entr`
terms are added. -/
noncomputable def scipyEntropy (p0 p1 q0 q1 : ℝ) : EReal :=
  relEntr (p0 / (p0 + p1)) (q0 / (q0 + q1)) + relEntr (p1 / (p0 + p1)) (q1 / (q0 + q1))

/-- `Rule.KL` (`corset/rule.py:103-113`). -/
noncomputable def BRule.KL (r : BRule) : Py EReal := do
  let p ← r.precision
  let q ← r.baseRate
  if p < q then return 0
  else return scipyEntropy p (1 - p) q (1 - q)

/-- `Rule.__getstate__` (`corset/rule.py:157-158`). -/
def BRule.getState (r : BRule) : List ℤ × List ℤ := (r.head, r.tail)

/-- `Rule.__setstate__` (`corset/rule.py:153-155`): the unpickled object has a head and a tail and
nothing else. -/
def Rule.setState (d : List ℤ × List ℤ) : Rule := { head := d.1, tail := d.2 }

end Verif
