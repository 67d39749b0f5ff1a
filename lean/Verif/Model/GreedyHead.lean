/-
The two greedy head samplers: `PruneGreedy` (`corset/samplers/prune_and_greedy.py`) and `CFTP_Greedy`
(`corset/samplers/cftp_and_greedy.py`). Both modules import `dmrs`, the former name of the package; the model takes
that import to give the present `utils` and `PRETTI`.

Simplifications: the order in which a set is traversed is any order, which may differ from traversal to traversal;
gains are exact rationals instead of doubles.
-/
import Verif.Model.Head

namespace Verif

namespace GreedyHead

/-! ### The greedy choice -/

/-- `for attribute in sampling_universe: ... if gain > max_gain: best_attr = attribute; max_gain = gain`
(`prune_and_greedy.py:113-117, 127-131`, `cftp_and_greedy.py:153-157, 167-171`); `none` is the state in which
`max_gain` is `-inf`. -/
def scanBest (gain : ℕ → Py ℚ) : List ℕ → Option (ℕ × ℚ) → Py (Option (ℕ × ℚ))
  | [], b => .ok b
  | a :: l, b => do
    let g ← gain a
    match b with
    | none => scanBest gain l (some (a, g))
    | some (b₀, m) => if m < g then scanBest gain l (some (a, g)) else scanBest gain l (some (b₀, m))

/-- The `while` loop (`prune_and_greedy.py:124-142`, `cftp_and_greedy.py:164-181`). `U` is the sampling universe, `cov` the
current coverage, `ch` the chosen attributes with their gains, `limit` is `early_stop_epsilon * len(positives)`, `r` counts
the traversals. The first argument bounds the number of rounds; a round takes an attribute out of the universe, so its
size is enough (`greedyLoop_fuel`). -/
def greedyLoop (order : ℕ → Finset ℕ → List ℕ) (inv : List (Finset ℕ)) (next : Finset ℕ → ℕ → Py ℚ) (limit : ℚ) :
    ℕ → ℕ → Finset ℕ → Finset ℕ → List (ℕ × ℚ) → Py (List (ℕ × ℚ))
  | 0, _, _, _, ch => .ok ch
  | n + 1, r, U, cov, ch =>
    if U = ∅ then .ok ch
    else do
      let b ← scanBest (next cov) (order r U) none
      match b with
      | none => .ok ch
      | some (a, g) => do
        let s ← pyGet inv a
        if ((cov ∩ s).card : ℚ) < limit then .ok ch
        else greedyLoop order inv next limit n (r + 1) (U.erase a) (cov ∩ s) (ch ++ [(a, g)])

/-- `np.argmax` (`prune_and_greedy.py:144`, `cftp_and_greedy.py:184`): the first position of a largest entry. -/
def argmaxFirst (l : List ℚ) : ℕ := l.findIdx fun x => l.all fun y => y ≤ x

/-- `greedy_choice` (`prune_and_greedy.py:98-147`, `cftp_and_greedy.py:137-187`), given the gain of the first attribute and
of a further attribute. With an empty universe `best_attr` is never bound. -/
def greedyChoice (order : ℕ → Finset ℕ → List ℕ) (inv : List (Finset ℕ)) (first : ℕ → Py ℚ)
    (next : Finset ℕ → ℕ → Py ℚ) (limit : ℚ) (U : Finset ℕ) : Py (Finset ℕ) := do
  let b ← scanBest first (order 0 U) none
  match b with
  | none => .error .unboundLocalError
  | some (a, g) => do
    let s ← pyGet inv a
    let ch ← greedyLoop order inv next limit (U.erase a).card 1 (U.erase a) s [(a, g)]
    return ((ch.map Prod.fst).take (argmaxFirst (ch.map Prod.snd) + 1)).toFinset

/-- `Counter(all_attributes)[a]` (`prune_and_greedy.py:188-201`, `cftp_and_greedy.py:228-241`). -/
def frequency (rows : List (Finset ℕ)) (a : ℕ) : ℕ := rows.countP fun r => a ∈ r

/-! ### `PruneGreedy` -/

/-- The attributes of a `PruneGreedy`. -/
structure Prune where
  gamma : ℚ
  eps : ℚ
  rows : Option (List (Finset ℕ))
  inv : Option (List (Finset ℕ))
  /-- number of columns; no attribute before `fit` -/
  D : Option ℕ
  /-- `_positives` and `_negagives` -/
  labels : Option (Finset ℕ × Finset ℕ)

/-- `__init__` (`prune_and_greedy.py:23-30`). -/
def Prune.init (gamma eps : ℚ) : Prune :=
  { gamma := gamma, eps := eps, rows := none, inv := none, D := none, labels := none }

/-- `fit` (`prune_and_greedy.py:54-69`), with `_check_data` (`:44-49`) and `_compute_pos_and_neg_info` (`:35-42`): what
is raised, and the object afterwards. The rows and the inverted index of the first matrix are kept. The attribute
frequencies are not used by this class. -/
def Prune.fit (s : Prune) (X : Cmp) (y : List ℤ) : Py Unit × Prune :=
  let s' := { s with rows := some (s.rows.getD (convertMatrixToSetsV2 X)), inv := some (s.inv.getD (buildIndex X)),
                     D := some X.nMinor }
  match checkLabels y with
  | .error e => (.error e, s')
  | .ok () => (.ok (), { s' with labels := some ((posIndices y).toFinset, (negIndices y).toFinset) })

/-- `prune_attributes` (`prune_and_greedy.py:71-77`). -/
def pruneAttributes (inv : List (Finset ℕ)) (pos : Finset ℕ) : List ℕ → Py (Finset ℕ)
  | [] => .ok ∅
  | a :: l => do
    let s ← pyGet inv a
    let rest ← pruneAttributes inv pos l
    return if 0 < (s ∩ pos).card then insert a rest else rest

/-- The gain of the first attribute (`prune_and_greedy.py:114`). -/
def pruneFirst (inv : List (Finset ℕ)) (pos neg : Finset ℕ) (gamma : ℚ) (a : ℕ) : Py ℚ := do
  let s ← pyGet inv a
  return ((s ∩ pos).card : ℚ) - gamma * ((s ∩ neg).card : ℚ)

/-- The gain of a further attribute (`prune_and_greedy.py:128`). -/
def pruneNext (inv : List (Finset ℕ)) (pos neg : Finset ℕ) (gamma : ℚ) (cov : Finset ℕ) (a : ℕ) : Py ℚ := do
  let s ← pyGet inv a
  return ((cov ∩ s ∩ pos).card : ℚ) - gamma * ((cov ∩ s ∩ neg).card : ℚ)

/-- `sample_once` (`prune_and_greedy.py:81-90`). Before `fit` there is no attribute `D`; without positives (after a `fit`
that failed) `intersection(None)` is a `TypeError`, unless there are no columns. -/
def Prune.sampleOnce (order : ℕ → Finset ℕ → List ℕ) (s : Prune) : Py (Finset ℕ) :=
  match s.D, s.inv with
  | some D, some inv =>
    match s.labels with
    | none =>
      if D = 0 then .error .unboundLocalError
      else do
        let _ ← pyGet inv 0
        .error .typeError
    | some (pos, neg) => do
      let res ← pruneAttributes inv pos (List.range D)
      greedyChoice order inv (pruneFirst inv pos neg s.gamma) (pruneNext inv pos neg s.gamma) (s.eps * pos.card)
        (if res.card = 0 then Finset.range D else res)
  | _, _ => .error .attributeError

/-- `sample(k)` (`prune_and_greedy.py:93-94`); the sets of different calls may be traversed differently. -/
def Prune.sample (orders : ℕ → ℕ → Finset ℕ → List ℕ) (s : Prune) (k : ℕ) : Py (List (Finset ℕ)) :=
  (List.range k).mapM fun i => s.sampleOnce (orders i)

/-! ### `CFTP_Greedy` -/

/-- The attributes of a `CFTP_Greedy`. -/
structure Coupled where
  gamma : ℚ
  eps : ℚ
  rows : Option (List (Finset ℕ))
  inv : Option (List (Finset ℕ))
  /-- `_positives` and `_negagives` -/
  labels : Option (Finset ℕ × Finset ℕ)
  cftp : Option Cftp
  lists : CftpState

/-- `__init__` (`cftp_and_greedy.py:23-29`). -/
def Coupled.init (gamma eps : ℚ) : Coupled :=
  { gamma := gamma, eps := eps, rows := none, inv := none, labels := none, cftp := none, lists := Cftp.reset }

/-- One entry of `_weight_dict` (`cftp_and_greedy.py:34-44`). -/
noncomputable def coupledWeight (rows : List (Finset ℕ)) (pos : List ℕ) (i : ℕ) : Py ℝ :=
  if i ∈ pos then do
    let row ← pyGet rows i
    return (row.card : ℝ)
  else .ok 1

/-- `_compute_weight_dict` and `_construct_cftp` (`cftp_and_greedy.py:34-46, 67-77`): the coupling on the rows themselves. -/
noncomputable def coupledCftp (rows : List (Finset ℕ)) (n : ℕ) (y : List ℤ) : Py Cftp := do
  let w ← (List.range n).mapM (coupledWeight rows (posIndices y))
  checkKeys n (posIndices y ++ negIndices y)
  return { posList := posIndices y, negList := negIndices y, wPos := fun i => w.getD i 0,
           wNeg := fun i => w.getD i 0, W := fun p n => ((rows.getD p ∅ \ rows.getD n ∅).card : ℝ), maxIters := 1024 }

/-- `fit` (`cftp_and_greedy.py:82-98`): what is raised, and the object afterwards. -/
noncomputable def Coupled.fit (s : Coupled) (X : Cmp) (y : List ℤ) : Py Unit × Coupled :=
  let rows := s.rows.getD (convertMatrixToSetsV2 X)
  let s' := { s with rows := some rows, inv := some (s.inv.getD (buildIndex X)) }
  match checkLabels y with
  | .error e => (.error e, s')
  | .ok () =>
    let s'' := { s' with labels := some ((posIndices y).toFinset, (negIndices y).toFinset) }
    match coupledCftp rows X.nMajor y with
    | .error e => (.error e, s'')
    | .ok c => (.ok (), { s'' with cftp := some c, lists := Cftp.reset })

/-- A quotient of Python floats. -/
def pyDiv (a b : ℚ) : Py ℚ := if b = 0 then .error .zeroDivisionError else .ok (a / b)

/-- The gain of the first attribute (`cftp_and_greedy.py:154`). -/
def coupledFirst (rows inv : List (Finset ℕ)) (pos neg : Finset ℕ) (gamma : ℚ) (a : ℕ) : Py ℚ := do
  let s ← pyGet inv a
  let p ← pyDiv ((s ∩ pos).card : ℚ) (frequency rows a)
  let n ← pyDiv (gamma * ((s ∩ neg).card : ℚ)) (frequency rows a)
  return p - n

/-- The gain of a further attribute (`cftp_and_greedy.py:168`). -/
def coupledNext (rows inv : List (Finset ℕ)) (pos neg : Finset ℕ) (gamma : ℚ) (cov : Finset ℕ) (a : ℕ) : Py ℚ := do
  let s ← pyGet inv a
  let p ← pyDiv ((cov ∩ s ∩ pos).card : ℚ) (frequency rows a)
  let n ← pyDiv (gamma * ((cov ∩ s ∩ neg).card : ℚ)) (frequency rows a)
  return p - n

/-- `greedy_choice(dpos, dneg)` (`cftp_and_greedy.py:137-187`) for the pair of records `pr`. -/
def Coupled.choose (order : ℕ → Finset ℕ → List ℕ) (s : Coupled) (rows inv : List (Finset ℕ))
    (labels : Finset ℕ × Finset ℕ) (pr : ℕ × ℕ) : Py (Finset ℕ) :=
  greedyChoice order inv (coupledFirst rows inv labels.1 labels.2 s.gamma)
    (coupledNext rows inv labels.1 labels.2 s.gamma) (s.eps * labels.1.card) (rows.getD pr.1 ∅ \ rows.getD pr.2 ∅)

/-- `sample_a_pair` and `sample_once` (`cftp_and_greedy.py:103-128`); without a successful `fit` there is no attribute `cftp`. -/
noncomputable def Coupled.sampleOnce (order : ℕ → Finset ℕ → List ℕ) (s : Coupled) :
    RandR (Option (Finset ℕ) × Coupled) :=
  match s.cftp, s.rows, s.inv, s.labels with
  | some c, some rows, some inv, some labels => do
    let r ← c.sample s.lists
    match r.1 with
    | none => pure (none, { s with lists := r.2 })
    | some pr => do
      let A ← .lift (s.choose order rows inv labels pr)
      return (some A, { s with lists := r.2 })
  | _, _, _, _ => .raise .attributeError

end GreedyHead

end Verif
