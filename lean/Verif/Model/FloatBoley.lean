/-
`BoleyCFTPDiscriminativitySampler` in double precision, with overflow.

`Model/Local.lean` computes the weights of this sampler, which are powers of two less one, with exact numbers. The
program computes them as numpy `float64` values. This file models the same methods with doubles that round and that
overflow to infinity, as numpy does without raising. Numbers are not negative here.

Simplification: there is no underflow. The powers of two that `numpy.power` computes in `float64` are exact.
-/
import Verif.Model.FloatCftp
import Verif.Model.Local

namespace Verif

/-- A numpy `float64` value that is not negative: a number, infinity, or NaN. -/
inductive Dbl where
  | num (x : ℝ)
  | inf
  | nan

namespace Dbl

open Classical in
/-- The value an operation with exact result `x` gives: the nearest double, infinity from `2¹⁰²⁴` on. -/
noncomputable def round (x : ℝ) : Dbl := if fl x < 2 ^ 1024 then num (fl x) else inf

/-- `numpy.power(2, n, dtype=numpy.float64)`. -/
noncomputable def pow2 (n : ℕ) : Dbl := round (2 ^ n)

/-- `x - 1`. -/
noncomputable def sub1 : Dbl → Dbl
  | num x => round (x - 1)
  | inf => inf
  | nan => nan

/-- `x + y`. -/
noncomputable def add : Dbl → Dbl → Dbl
  | num x, num y => round (x + y)
  | nan, _ => nan
  | _, nan => nan
  | _, _ => inf

open Classical in
/-- `x * y`. -/
noncomputable def mul : Dbl → Dbl → Dbl
  | num x, num y => round (x * y)
  | nan, _ => nan
  | _, nan => nan
  | num x, inf => if x = 0 then nan else inf
  | inf, num y => if y = 0 then nan else inf
  | inf, inf => inf

open Classical in
/-- `x / y`. -/
noncomputable def div : Dbl → Dbl → Dbl
  | num x, num y => if y = 0 then (if x = 0 then nan else inf) else round (x / y)
  | nan, _ => nan
  | _, nan => nan
  | num _, inf => num 0
  | inf, num _ => inf
  | inf, inf => nan

/-- `u < x` for a number `u`. -/
def Above (u : ℝ) : Dbl → Prop
  | num x => u < x
  | inf => True
  | nan => False

/-- `x < 0`. -/
def Negative : Dbl → Prop
  | num x => x < 0
  | _ => False

/-- `x >= 0`. -/
def NonNegative : Dbl → Prop
  | num x => 0 ≤ x
  | inf => True
  | nan => False

/-- An order of additions. -/
inductive Tree where
  | leaf (x : Dbl)
  | node (a b : Tree)

/-- The summands. -/
def Tree.leaves : Tree → List Dbl
  | .leaf x => [x]
  | .node a b => a.leaves ++ b.leaves

/-- The sum. -/
noncomputable def Tree.eval : Tree → Dbl
  | .leaf x => x
  | .node a b => add a.eval b.eval

/-- `numpy.sum` adds pairwise, in blocks, with several accumulators; the model leaves open in which order. -/
structure Order where
  tree : List Dbl → Tree
  leaves : ∀ l, l ≠ [] → (tree l).leaves.Perm l

/-- `numpy.sum`. -/
noncomputable def Order.sum (S : Order) (l : List Dbl) : Dbl := if l = [] then num 0 else (S.tree l).eval

/-- The numbers in a list, if it has nothing else. -/
def numbers : List Dbl → Option (List ℝ)
  | [] => some []
  | num x :: l => (numbers l).map (x :: ·)
  | _ :: _ => none

end Dbl

/-- `numpy.random.choice(items, size=len(ks), p=p)` when the generator's next variates are `k / 2⁵³` for `k` in
`ks`. The probabilities are checked even if nothing is drawn: NaN is rejected, and infinity because the sum is not 1. -/
noncomputable def choicesD (items : List ℕ) (p : List Dbl) (ks : List ℕ) : Py (List ℕ) :=
  match Dbl.numbers p with
  | none => .error .valueError
  | some q => do
    let _ ← choiceF q 0
    choicesF items q ks

/-- What the constructor of `BoleyCFTP` is given, `corset/samplers/boley_cftp.py:12-31`, and that of `CFTP` when the weights
are doubles, `corset/samplers/cftp.py:8-27`. In place of the rows there is the weight of a pair that the two classes
compute from them; in all else their methods agree. -/
structure CftpD where
  posList : List ℕ
  negList : List ℕ
  wPos : ℕ → Dbl
  wNeg : ℕ → Dbl
  /-- the true weight of a pair -/
  weight : ℕ → ℕ → Dbl
  maxIters : ℕ

/-- The true weight of a pair in `BoleyCFTP`, `corset/samplers/boley_cftp.py:105-112`. -/
noncomputable def boleyWeightD (rows : List (Finset ℕ)) (p n : ℕ) : Dbl :=
  (Dbl.pow2 (rows.getD p ∅ \ rows.getD n ∅).card).sub1.mul (Dbl.pow2 (rows.getD p ∅ ∩ rows.getD n ∅).card)

namespace CftpD

/-- `self.pos_weights`, `corset/samplers/boley_cftp.py:33` and `corset/samplers/cftp.py:29`. -/
def posWeights (c : CftpD) : List Dbl := c.posList.map c.wPos

/-- `self.neg_weights`, `corset/samplers/boley_cftp.py:34` and `corset/samplers/cftp.py:30`. Those of `BoleyCFTP` are integers, all of them 1; their sum and the
quotients are the same as of doubles. -/
def negWeights (c : CftpD) : List Dbl := c.negList.map c.wNeg

/-- `self.pos_proba`, `corset/samplers/boley_cftp.py:39` and `corset/samplers/cftp.py:31`. -/
noncomputable def posProba (c : CftpD) (S : Dbl.Order) : List Dbl :=
  c.posWeights.map fun w => w.div (S.sum c.posWeights)

/-- `self.neg_proba`, `corset/samplers/boley_cftp.py:40` and `corset/samplers/cftp.py:32`. -/
noncomputable def negProba (c : CftpD) (S : Dbl.Order) : List Dbl :=
  c.negWeights.map fun w => w.div (S.sum c.negWeights)

/-- `expand_horizon`, `corset/samplers/boley_cftp.py:44-83` and `add_data`, `corset/samplers/cftp.py:36-77`. The result is the new lists and what is left of the
generator's outputs. -/
noncomputable def expandHorizon (c : CftpD) (S : Dbl.Order) (nIters : ℕ) (s : CftpState) (ω : List ℕ) :
    Py (CftpState × List ℕ) :=
  if nIters = 0 then .error .valueError
  else if nIters < s.us.length then .error .valueError
  else do
    let us := (ω.take (nIters - s.us.length)).map fun k : ℕ => (k : ℝ) / 2 ^ 53
    let ω₁ := ω.drop (nIters - s.us.length)
    let ps ← choicesD c.posList (c.posProba S) (ω₁.take (nIters - s.us.length))
    let ω₂ := ω₁.drop (nIters - s.us.length)
    let ns ← choicesD c.negList (c.negProba S) (ω₂.take (nIters - s.us.length))
    let s' ← Cftp.checkLengths nIters { us := us ++ s.us, ps := ps ++ s.ps, ns := ns ++ s.ns }
    return (s', ω₂.drop (nIters - s.us.length))

/-- The variables of the loop in `simulate_backwards`. -/
structure Chain where
  D : Option (ℕ × ℕ)
  wD : Dbl
  wDBar : Dbl

/-- Their initial values, `corset/samplers/boley_cftp.py:96-97` and `corset/samplers/cftp.py:90-91`. -/
noncomputable def start : Chain := { D := none, wD := .num 1, wDBar := .num 1 }

/-- The ratio, `corset/samplers/boley_cftp.py:122` and `corset/samplers/cftp.py:106`. -/
noncomputable def ratio (s : Chain) (wC wCBar : Dbl) : Dbl := (wC.mul s.wDBar).div (wCBar.mul s.wD)

open Classical in
/-- One iteration of the loop, `corset/samplers/boley_cftp.py:102-143` and `corset/samplers/cftp.py:96-127`. The warning is not modelled. -/
noncomputable def step (c : CftpD) (s : Chain) (d : ℕ × ℕ × ℝ) : Chain :=
  let wCBar := (c.wPos d.1).mul (c.wNeg d.2.1)
  let wC := c.weight d.1 d.2.1
  if (ratio s wC wCBar).Above d.2.2 then { D := some (d.1, d.2.1), wD := wC, wDBar := wCBar }
  else s

/-- `simulate_backwards(return_history=False)`, `corset/samplers/boley_cftp.py:90-148` and `corset/samplers/cftp.py:84-132`. -/
noncomputable def simulate (c : CftpD) (s : CftpState) : Option (ℕ × ℕ) :=
  ((Cftp.CftpState.draws s).foldl c.step start).D

open Classical in
/-- The loop of `sample`, `corset/samplers/boley_cftp.py:152-172` and `corset/samplers/cftp.py:141-165`. -/
noncomputable def sampleLoop (c : CftpD) (S : Dbl.Order) (i : ℕ) (s : CftpState) (ω : List ℕ) :
    Py (Option (ℕ × ℕ) × CftpState) :=
  if 2 ^ i > c.maxIters then .ok (none, Cftp.reset)
  else if S.sum c.posWeights = .num 0 ∨ S.sum c.negWeights = .num 0 then .ok (none, s)
  else do
    let r ← c.expandHorizon S (2 ^ i) s ω
    match c.simulate r.1 with
    | some pr => .ok (some pr, Cftp.reset)
    | none => c.sampleLoop S (i + 1) r.1 r.2
termination_by c.maxIters - i
decreasing_by
  have : i < 2 ^ i := Nat.lt_two_pow_self
  omega

/-- `sample`, `corset/samplers/boley_cftp.py:150-177` and `corset/samplers/cftp.py:134-171` without details. -/
noncomputable def sample (c : CftpD) (S : Dbl.Order) (s : CftpState) (ω : List ℕ) :
    Py (Option (ℕ × ℕ) × CftpState) :=
  c.sampleLoop S 0 s ω

end CftpD

/-- The attributes of a `BoleyCFTPDiscriminativitySampler` that matter. -/
structure BoleySamplerD where
  rows : Option (List (Finset ℕ))
  cftp : Option CftpD
  lists : CftpState

/-- `__init__`, `corset/samplers/boley_discrim.py:25-30`. -/
def BoleySamplerD.init : BoleySamplerD := { rows := none, cftp := none, lists := Cftp.reset }

/-- `if self._rows is None: self._populate_rows(X)`, `corset/samplers/boley_discrim.py:37-39,106-107`. -/
def boleyRowsD (s : BoleySamplerD) (X : Cmp) : List (Finset ℕ) :=
  match s.rows with
  | none => convertMatrixToSetsV2 X
  | some rows => rows

/-- One entry of `_weight_dict`, `corset/samplers/boley_discrim.py:49-63`. -/
noncomputable def boleyRowWeightD (rows : List (Finset ℕ)) (pos : List ℕ) (i : ℕ) : Py Dbl :=
  if i ∈ pos then do
    let row ← pyGet rows i
    return (Dbl.pow2 row.card).sub1
  else .ok (.num 1)

open Classical in
/-- `_check_overflow`, `corset/samplers/boley_discrim.py:65-70`. -/
noncomputable def boleyCheckOverflowD (w : List Dbl) : Py Unit :=
  if ∃ x ∈ w, x.Negative then .error .valueError else .ok ()

open Classical in
/-- The assertions in the constructor of `BoleyCFTP`, `corset/samplers/boley_cftp.py:33-37`. -/
noncomputable def boleyCheckWeightsD (w : List Dbl) (idx : List ℕ) : Py Unit :=
  if ∀ i ∈ idx, (w.getD i .nan).NonNegative then .ok () else .error .assertionError

/-- `fit`, `corset/samplers/boley_discrim.py:99-116`. -/
noncomputable def boleyFitD (s : BoleySamplerD) (X : Cmp) (y : List ℤ) : Py BoleySamplerD := do
  checkLabels y
  let w ← (List.range X.nMajor).mapM (boleyRowWeightD (boleyRowsD s X) (posIndices y))
  checkKeys X.nMajor (posIndices y)
  boleyCheckOverflowD w
  checkKeys X.nMajor (negIndices y)
  boleyCheckWeightsD w (posIndices y ++ negIndices y)
  return { rows := some (boleyRowsD s X)
           cftp := some { posList := posIndices y, negList := negIndices y, wPos := fun i => w.getD i .nan,
                          wNeg := fun i => w.getD i .nan, weight := boleyWeightD (boleyRowsD s X), maxIters := 1024 }
           lists := Cftp.reset }

/-- `sample_once`, `corset/samplers/boley_discrim.py:127-142`, when numpy's generator gives the numbers `ω` for the pair.
The pattern is then drawn with comparisons `rand() < 0.5` only, which hold for exactly half of the generator's
outputs, so its draws stay exact. -/
noncomputable def boleySampleOnceD (S : Dbl.Order) (order : Finset ℕ → List ℕ) (rounds : ℕ) (s : BoleySamplerD)
    (ω : List ℕ) : RandR (BoleyResult × BoleySamplerD) :=
  match s.cftp, s.rows with
  | some c, some rows => do
    let r ← .lift (c.sample S s.lists ω)
    match r.1 with
    | none => pure (.gaveUp, { s with lists := r.2 })
    | some pr => do
      let F ← boleyPattern order rows rounds pr
      return (.ofPattern F, { s with lists := r.2 })
  | _, _ => .raise .attributeError

end Verif
