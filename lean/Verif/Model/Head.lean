/-
Model of the head sampler `CFTPDiscriminativitySampler` (`corset/samplers/discrim.py`), of
`BoleyCFTPDiscriminativitySampler` (`corset/samplers/boley_discrim.py`) and of the helpers they use from
`corset/utils.py`.
-/
import Verif.Model.Cftp
import Verif.Spec.Graph

namespace Verif

/-! ### Counters -/

/-- `cnt[k] += 1` on a `Counter`. -/
def tallyAdd {α : Type} [DecidableEq α] : List (α × ℕ) → α → List (α × ℕ)
  | [], k => [(k, 1)]
  | (a, n) :: r, k => if a = k then (a, n + 1) :: r else (a, n) :: tallyAdd r k

/-- The loop `for k in items: cnt[k] += 1` on an empty `Counter`. -/
def tallyOf {α : Type} [DecidableEq α] (items : List α) : List (α × ℕ) := items.foldl tallyAdd []

/-- `counter2proba`, `corset/utils.py:93-98`, on a dictionary given as its list of items; the division
by a zero total is only reached when there is an item. Counts may be any numbers. -/
def counter2proba {α : Type} (counter : List (α × ℚ)) : Py (List (α × ℚ)) :=
  counter.mapM fun e =>
    if (counter.map Prod.snd).sum = 0 then .error .zeroDivisionError
    else .ok (e.1, e.2 / (counter.map Prod.snd).sum)

/-! ### The head sampler -/

/-- What the language or the libraries leave open: how sets are traversed, how ties in `find_ordering`
are broken, and the recursion bound of the clique enumeration. -/
structure HeadEnv where
  order : Finset ℕ → List ℕ
  ordering : List (Finset ℤ) → List ℤ
  depth : ℕ

/-- The attributes of a `CFTPDiscriminativitySampler` that matter. `space` is `None` until the first
`fit`; `newRows` does not exist until then. The `CFTP` object is split into its constant part and its
lists. -/
structure HeadSampler where
  minProba : ℚ
  doPrune : Bool
  /-- `proposal_distribution == 'tight'`; otherwise it is `'original'` -/
  tight : Bool
  space : Option (List (Finset ℤ))
  newRows : Option (List (List ℕ))
  cftp : Option Cftp
  lists : CftpState

/-- `__init__`, `corset/samplers/discrim.py:30-42`. -/
def HeadSampler.init (doPrune : Bool) (minProba : ℚ) (tight : Bool) : HeadSampler :=
  { minProba := minProba, doPrune := doPrune, tight := tight, space := none, newRows := none,
    cftp := none, lists := Cftp.reset }

/-- `_check_data`, `corset/samplers/discrim.py:79-84`, `corset/samplers/boley_discrim.py:82-87`,
`corset/samplers/cftp_and_greedy.py:59-64`, `corset/samplers/prune_and_greedy.py:44-49`: the labels must be exactly {0, 1}. -/
def checkLabels (y : List ℤ) : Py Unit :=
  if y.toFinset = {0, 1} then .ok () else .error .assertionError

/-- `_pos_list`, `corset/samplers/discrim.py:72-76`, `corset/samplers/boley_discrim.py:74-78`. -/
def posIndices (y : List ℤ) : List ℕ := (List.range y.length).filter fun i => decide (0 < y.getD i 0)

/-- `_neg_list`, `corset/samplers/discrim.py:72-77`, `corset/samplers/boley_discrim.py:74-80`. -/
def negIndices (y : List ℤ) : List ℕ := (List.range y.length).filter fun i => decide (y.getD i 0 = 0)

/-- `build_sample_space_and_generate_rows`, `corset/samplers/discrim.py:98-107`. The back end is
`dfs_v2`. -/
def buildSpaceAndRows (env : HeadEnv) (s : HeadSampler) (X : Cmp) :
    Py (List (Finset ℤ) × List (List ℕ)) := do
  let g ← buildGraph X.flip
  let cliques ← buildSampleSpace ratOps g s.minProba s.doPrune .dfsV2 env.order env.depth
  let rows ← prettiNewRows X (cliques.map intSet) (env.ordering (cliques.map intSet))
  return (cliques.map intSet, rows)

/-- The conditional build in `fit`, `corset/samplers/discrim.py:117-119`. -/
def spaceAndRows (env : HeadEnv) (s : HeadSampler) (X : Cmp) :
    Py (List (Finset ℤ) × List (List ℕ)) :=
  match s.space, s.newRows with
  | none, _ => buildSpaceAndRows env s X
  | some _, none => .error .attributeError
  | some space, some rows => .ok (space, rows)

/-- One entry of `_weight_dict`, `corset/samplers/discrim.py:49-70`. The square root of a negative
number is NaN in numpy and 0 here; `C57` shows that it is not taken of one. -/
noncomputable def headWeight (tight : Bool) (spaceSize : ℕ) (rows : List (List ℕ)) (pos : List ℕ) (i : ℕ) :
    Py ℝ :=
  if tight then
    if i ∈ pos then do
      let row ← pyGet rows i
      return (row.length : ℝ)
    else .ok 1
  else
    if i ∈ pos then do
      let row ← pyGet rows i
      return Real.sqrt row.length
    else do
      let row ← pyGet rows i
      return Real.sqrt ((spaceSize : ℝ) - row.length)

/-- `_construct_cftp`, `corset/samplers/discrim.py:86-96`: the constructor of `CFTP` looks up the weight
of every listed record; `KeyError` when the labels are longer than the data. -/
def checkKeys (n : ℕ) (idx : List ℕ) : Py Unit :=
  if ∀ i ∈ idx, i < n then .ok () else .error .keyError

/-- `fit`, `corset/samplers/discrim.py:110-125`. An exception is reported without the attributes that
were already assigned. -/
noncomputable def headFit (env : HeadEnv) (s : HeadSampler) (X : Cmp) (y : List ℤ) : Py HeadSampler := do
  checkLabels y
  let sr ← spaceAndRows env s X
  let w ← (List.range X.nMajor).mapM (headWeight s.tight sr.1.length sr.2 (posIndices y))
  checkKeys X.nMajor (posIndices y ++ negIndices y)
  return { s with
    space := some sr.1
    newRows := some sr.2
    cftp := some { posList := posIndices y, negList := negIndices y, wPos := fun i => w.getD i 0,
                   wNeg := fun i => w.getD i 0, W := discrimWeight sr.2, maxIters := 1024 }
    lists := Cftp.reset }

/-- `random.choice(list(dpos.difference(dneg)))`, `corset/samplers/discrim.py:149-154`. -/
noncomputable def choosePattern (order : Finset ℕ → List ℕ) (rows : List (List ℕ)) (pr : ℕ × ℕ) : RandR ℕ := do
  let i ← pyChoiceIdx (order (recordAt rows pr.1 \ recordAt rows pr.2)).length
  return (order (recordAt rows pr.1 \ recordAt rows pr.2)).getD i 0

/-- `sample_once(return_sample_index=True)`, `corset/samplers/discrim.py:136-163`, with the lists the
`CFTP` object has afterwards. -/
noncomputable def headSampleIdx (order : Finset ℕ → List ℕ) (c : Cftp) (rows : List (List ℕ))
    (st : CftpState) : RandR (Option ℕ × CftpState) := do
  let r ← c.sample st
  match r.1 with
  | none => pure (none, r.2)
  | some pr => do
    let id ← choosePattern order rows pr
    return (some id, r.2)

/-- `sample_a_pair()` and `sample_once()`, `corset/samplers/discrim.py:127-163`, on a fitted sampler; without `fit` the object
has no attribute `cftp`. -/
noncomputable def headSampleOnce (env : HeadEnv) (s : HeadSampler) :
    RandR (Option (Finset ℤ) × HeadSampler) :=
  match s.cftp, s.newRows, s.space with
  | some c, some rows, some space => do
    let r ← headSampleIdx env.order c rows s.lists
    match r.1 with
    | none => pure (none, { s with lists := r.2 })
    | some id => do
      let T ← .lift (pyGet space id)
      return (some T, { s with lists := r.2 })
  | _, _, _ => .raise .attributeError

/-- `sample(k)`, `corset/samplers/discrim.py:165-169`. -/
noncomputable def headSample (env : HeadEnv) : ℕ → HeadSampler → RandR (List (Option (Finset ℤ)) × HeadSampler)
  | 0, s => pure ([], s)
  | k + 1, s => do
    let r ← headSampleOnce env s
    let rest ← headSample env k r.2
    return (r.1 :: rest.1, rest.2)

/-- `get_ground_truth_proba_for_pairs`, `corset/samplers/discrim.py:171-187`. -/
def groundTruthPairs (rows : List (List ℕ)) (pos neg : List ℕ) : Py (List ((ℕ × ℕ) × ℚ)) :=
  counter2proba ((pos ×ˢ neg).map fun pr => (pr, ((recordAt rows pr.1 \ recordAt rows pr.2).card : ℚ)))

/-- `get_ground_truth_proba_for_samples`, `corset/samplers/discrim.py:189-204`. -/
def groundTruthSamples (order : Finset ℕ → List ℕ) (rows : List (List ℕ)) (pos neg : List ℕ) :
    Py (List (ℕ × ℚ)) :=
  counter2proba ((tallyOf ((pos ×ˢ neg).flatMap fun pr => order (recordAt rows pr.1 \ recordAt rows pr.2))).map
    fun e => (e.1, (e.2 : ℚ)))

/-! ### `CFTP.sample` with details -/

/-- What `CFTP.sample(return_details=True)` returns: a bare `None`, or the pair (or `None`) with
`num_iterations`. -/
inductive Detailed
  | bareNone
  | withDetails (D : Option (ℕ × ℕ)) (numIterations : ℕ)

namespace Cftp

/-- The end of `sample(return_details=True)`, `corset/samplers/cftp.py:166-171`: `history` is unbound if
the loop never simulated. -/
def finishDetailed (D : Option (ℕ × ℕ)) (history : Option ℕ) : RandR (Detailed × CftpState) :=
  match history with
  | none => .raise .unboundLocalError
  | some n => pure (.withDetails D n, reset)

open Classical in
/-- The loop of `sample(return_details=True)`, `corset/samplers/cftp.py:141-171`. `history` is the length
of the last history: one entry per simulated step. -/
noncomputable def sampleLoopDetailed (c : Cftp) (i : ℕ) (history : Option ℕ) (s : CftpState) :
    RandR (Detailed × CftpState) :=
  if 2 ^ i > c.maxIters then finishDetailed none history
  else if c.posWeights.sum = 0 ∨ c.negWeights.sum = 0 then pure (.bareNone, s)
  else do
    let s' ← c.addData (2 ^ i) s
    let D ← .lift (c.simulate s')
    match D with
    | some pr => finishDetailed (some pr) (some (CftpState.draws s').length)
    | none => c.sampleLoopDetailed (i + 1) (some (CftpState.draws s').length) s'
termination_by c.maxIters - i
decreasing_by
  have : i < 2 ^ i := Nat.lt_two_pow_self
  omega

/-- `sample(return_details=True)`, `corset/samplers/cftp.py:134-171`. -/
noncomputable def sampleDetailed (c : Cftp) (s : CftpState) : RandR (Detailed × CftpState) :=
  c.sampleLoopDetailed 0 none s

end Cftp

/-- `sample_once(return_sample_index=True, return_cftp_details=True)`,
`corset/samplers/discrim.py:136-163`. The result is `None` or a sample with the number of iterations;
unpacking a bare `None` raises `TypeError`. -/
noncomputable def headSampleDetailed (order : Finset ℕ → List ℕ) (c : Cftp) (rows : List (List ℕ))
    (st : CftpState) : RandR (Option (ℕ × ℕ) × CftpState) := do
  let r ← c.sampleDetailed st
  match r.1 with
  | .bareNone => .raise .typeError
  | .withDetails none _ => pure (none, r.2)
  | .withDetails (some pr) n => do
    let id ← choosePattern order rows pr
    return (some (id, n), r.2)

end Verif
