/-
Model of coupling from the past (`corset/samplers/cftp.py`, `corset/samplers/boley_cftp.py`) and of the
discriminativity samplers built on it (`corset/samplers/discrim.py`, `corset/samplers/boley_discrim.py`).
-/
import Verif.Model.RandR
import Verif.Model.Trie
import Verif.Model.Graph
import Mathlib.Analysis.Real.Sqrt

namespace Verif

/-! ### Coupling from the past -/

/-- What the constructors of `CFTP` (`corset/samplers/cftp.py:8-34`) and `BoleyCFTP`
(`corset/samplers/boley_cftp.py:12-42`) are given. The two classes differ only in the true weight `W` of
a pair. The weight dictionaries and the data records are total functions here: the samplers pass
dictionaries that contain every listed index (`headFit`, `boleyFit`). -/
structure Cftp where
  posList : List ℕ
  negList : List ℕ
  wPos : ℕ → ℝ
  wNeg : ℕ → ℝ
  /-- true weight of a pair -/
  W : ℕ → ℕ → ℝ
  maxIters : ℕ

/-- The lists `u_list`, `C_pos_list`, `C_neg_list`. -/
structure CftpState where
  us : List ℝ
  ps : List ℕ
  ns : List ℕ

namespace Cftp

/-- `reset_state`, `corset/samplers/cftp.py:79-82`. -/
def reset : CftpState := { us := [], ps := [], ns := [] }

/-- `self.pos_weights`, `corset/samplers/cftp.py:29`. -/
def posWeights (c : Cftp) : List ℝ := c.posList.map c.wPos

/-- `self.neg_weights`, `corset/samplers/cftp.py:30`. -/
def negWeights (c : Cftp) : List ℝ := c.negList.map c.wNeg

/-- `self.pos_proba`, `corset/samplers/cftp.py:31`. numpy gives NaN for a zero sum, here the entries are
then 0; drawing from either raises `ValueError`. -/
noncomputable def posProba (c : Cftp) : List ℝ := c.posWeights.map (· / c.posWeights.sum)

/-- `self.neg_proba`, `corset/samplers/cftp.py:32`. -/
noncomputable def negProba (c : Cftp) : List ℝ := c.negWeights.map (· / c.negWeights.sum)

/-- The length check at the end of `add_data`, `corset/samplers/cftp.py:70-77`. -/
def checkLengths (nIters : ℕ) (s : CftpState) : Py CftpState :=
  if s.ps.length ≠ nIters ∨ s.ns.length ≠ nIters ∨ s.us.length ≠ nIters then .error .valueError
  else .ok s

/-- `add_data`, `corset/samplers/cftp.py:36-77`, and `expand_horizon`,
`corset/samplers/boley_cftp.py:44-83`: draw the missing uniforms, positives and negatives and put them
in front. Asking numpy for a negative number of draws raises `ValueError`. -/
noncomputable def addData (c : Cftp) (nIters : ℕ) (s : CftpState) : RandR CftpState :=
  if nIters = 0 then .raise .valueError
  else if nIters < s.us.length then .raise .valueError
  else do
    let us ← drawUniforms (nIters - s.us.length)
    let ps ← drawChoices c.posList c.posProba (nIters - s.us.length)
    let ns ← drawChoices c.negList c.negProba (nIters - s.us.length)
    .lift (checkLengths nIters { us := us ++ s.us, ps := ps ++ s.ps, ns := ns ++ s.ns })

/-- The variables of the loop in `simulate_backwards`. -/
structure Chain where
  D : Option (ℕ × ℕ)
  wD : ℝ
  wDBar : ℝ

/-- Their initial values, `corset/samplers/cftp.py:90-91`. -/
noncomputable def start : Chain := { D := none, wD := 1, wDBar := 1 }

open Classical in
/-- One iteration of the loop `corset/samplers/cftp.py:96-127`. A zero denominator is reported as
`ZeroDivisionError` (numpy floats would give infinity or NaN with a warning); `C56` shows that it does
not occur. -/
noncomputable def step (c : Cftp) (s : Chain) (d : ℕ × ℕ × ℝ) : Py Chain :=
  let wCBar := c.wPos d.1 * c.wNeg d.2.1
  let wC := c.W d.1 d.2.1
  if wCBar * s.wD = 0 then .error .zeroDivisionError
  else if d.2.2 < (wC * s.wDBar) / (wCBar * s.wD) then
    .ok { D := some (d.1, d.2.1), wD := wC, wDBar := wCBar }
  else .ok s

/-- The loop of `simulate_backwards` from given variables, over `zip(C_pos_list, C_neg_list, u_list)`. -/
noncomputable def run (c : Cftp) (s : Chain) (ds : List (ℕ × ℕ × ℝ)) : Py Chain := ds.foldlM c.step s

/-- `zip(self.C_pos_list, self.C_neg_list, self.u_list)`. -/
def CftpState.draws (s : CftpState) : List (ℕ × ℕ × ℝ) := s.ps.zip (s.ns.zip s.us)

/-- `simulate_backwards(return_history=False)`, `corset/samplers/cftp.py:84-132`. -/
noncomputable def simulate (c : Cftp) (s : CftpState) : Py (Option (ℕ × ℕ)) := do
  let r ← c.run start (CftpState.draws s)
  return r.D

open Classical in
/-- The loop of `sample`, `corset/samplers/cftp.py:141-160`, from a given value of `i` and with `D`
still `None`. The result is the pair (or `None`) and the state of the object when `sample` returns:
reset after the loop was left, unchanged by the early `return None`. -/
noncomputable def sampleLoop (c : Cftp) (i : ℕ) (s : CftpState) : RandR (Option (ℕ × ℕ) × CftpState) :=
  if 2 ^ i > c.maxIters then pure (none, reset)
  else if c.posWeights.sum = 0 ∨ c.negWeights.sum = 0 then pure (none, s)
  else do
    let s' ← c.addData (2 ^ i) s
    let D ← .lift (c.simulate s')
    match D with
    | some pr => pure (some pr, reset)
    | none => c.sampleLoop (i + 1) s'
termination_by c.maxIters - i
decreasing_by
  have : i < 2 ^ i := Nat.lt_two_pow_self
  omega

/-- `sample`, `corset/samplers/cftp.py:134-171` (without details) and
`corset/samplers/boley_cftp.py:150-177`. -/
noncomputable def sample (c : Cftp) (s : CftpState) : RandR (Option (ℕ × ℕ) × CftpState) := c.sampleLoop 0 s

end Cftp

/-- `data_records[i]` as a set, `corset/samplers/cftp.py:100-101`. -/
def recordAt (rows : List (List ℕ)) (i : ℕ) : Finset ℕ := (rows.getD i []).toFinset

/-- The true weight used by `CFTP`, `corset/samplers/cftp.py:104`. -/
def discrimWeight (rows : List (List ℕ)) (p n : ℕ) : ℝ := ((recordAt rows p \ recordAt rows n).card : ℝ)

/-- The true weight used by `BoleyCFTP`, `corset/samplers/boley_cftp.py:108-112`. Powers of two are
exact here; the code uses doubles and overflows to infinity from 1024 items on. -/
def boleyWeight (rows : List (Finset ℕ)) (p n : ℕ) : ℝ :=
  (2 ^ (rows.getD p ∅ \ rows.getD n ∅).card - 1) * 2 ^ (rows.getD p ∅ ∩ rows.getD n ∅).card

end Verif
