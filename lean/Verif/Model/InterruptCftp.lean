/-
Model of `CFTP.sample` (`corset/samplers/cftp.py:134-171`) and `BoleyCFTP.sample`
(`corset/samplers/boley_cftp.py:150-177`) statement by statement, for calls that are interrupted: the object then
keeps the lists as the statements executed so far left them.

Simplification: an assignment is executed as a whole. The simulation assigns no attribute, so an interruption
during it is one before it.
-/
import Verif.Model.Cftp

namespace Verif
namespace Cftp

/-- Where a running call of `sample` is. -/
inductive SamplePc
  /-- at the head of the loop, `cftp.py:141-153` -/
  | head (i : ℕ)
  /-- `u_list` was extended by `n` numbers, `C_pos_list` not yet, `cftp.py:50-63` -/
  | uniforms (i n : ℕ)
  /-- `C_pos_list` was extended, `C_neg_list` not yet by the records drawn for it, `cftp.py:66-67` -/
  | positives (i : ℕ) (ns : List ℕ)
  /-- before the check of the lengths, `cftp.py:69-77`, and the simulation -/
  | drawn (i : ℕ)
  /-- before `reset_state`, `cftp.py:166` -/
  | clear
  /-- `u_list` was emptied, `cftp.py:80` -/
  | clearPos
  /-- `u_list` and `C_pos_list` were emptied, `cftp.py:81` -/
  | clearNeg
  /-- the call has returned -/
  | returned

/-- The points a call of `sample` on an object with the lists `s` passes through, with the lists as they are
then: `corset/samplers/cftp.py:36-82, 134-166`, `corset/samplers/boley_cftp.py:44-88, 150-176`. -/
inductive SamplePoint (c : Cftp) (s : CftpState) : SamplePc → CftpState → Prop
  | start : SamplePoint c s (.head 0) s
  | giveUp {i : ℕ} {t : CftpState} (h : SamplePoint c s (.head i) t) (hi : 2 ^ i > c.maxIters) :
      SamplePoint c s .clear t
  | noWeight {i : ℕ} {t : CftpState} (h : SamplePoint c s (.head i) t) (hi : 2 ^ i ≤ c.maxIters)
      (hw : c.posWeights.sum = 0 ∨ c.negWeights.sum = 0) : SamplePoint c s .returned t
  | uniforms {i : ℕ} {t : CftpState} {us : List ℝ} (h : SamplePoint c s (.head i) t) (hi : 2 ^ i ≤ c.maxIters)
      (hw : ¬ (c.posWeights.sum = 0 ∨ c.negWeights.sum = 0)) (hl : t.us.length ≤ 2 ^ i)
      (hu : (drawUniforms (2 ^ i - t.us.length)).Outcome (.ok us)) :
      SamplePoint c s (.uniforms i (2 ^ i - t.us.length)) { t with us := us ++ t.us }
  | positives {i n : ℕ} {t : CftpState} {ps ns : List ℕ} (h : SamplePoint c s (.uniforms i n) t)
      (hp : (drawChoices c.posList c.posProba n).Outcome (.ok ps))
      (hn : (drawChoices c.negList c.negProba n).Outcome (.ok ns)) :
      SamplePoint c s (.positives i ns) { t with ps := ps ++ t.ps }
  | negatives {i : ℕ} {t : CftpState} {ns : List ℕ} (h : SamplePoint c s (.positives i ns) t) :
      SamplePoint c s (.drawn i) { t with ns := ns ++ t.ns }
  | again {i : ℕ} {t : CftpState} (h : SamplePoint c s (.drawn i) t) (hl : checkLengths (2 ^ i) t = .ok t)
      (hs : c.simulate t = .ok none) : SamplePoint c s (.head (i + 1)) t
  | found {i : ℕ} {t : CftpState} {pr : ℕ × ℕ} (h : SamplePoint c s (.drawn i) t)
      (hl : checkLengths (2 ^ i) t = .ok t) (hs : c.simulate t = .ok (some pr)) : SamplePoint c s .clear t
  | clearUs {t : CftpState} (h : SamplePoint c s .clear t) : SamplePoint c s .clearPos { t with us := [] }
  | clearPs {t : CftpState} (h : SamplePoint c s .clearPos t) : SamplePoint c s .clearNeg { t with ps := [] }
  | clearNs {t : CftpState} (h : SamplePoint c s .clearNeg t) : SamplePoint c s .returned { t with ns := [] }

/-- The statement at that point may raise: asking numpy for a negative number of draws, drawing with invalid
probabilities, the check of the lengths (`corset/samplers/cftp.py:43-77`), the simulation. -/
inductive SampleRaises (c : Cftp) : SamplePc → CftpState → PyErr → Prop
  | negative {i : ℕ} {t : CftpState} (hi : 2 ^ i ≤ c.maxIters)
      (hw : ¬ (c.posWeights.sum = 0 ∨ c.negWeights.sum = 0)) (hl : 2 ^ i < t.us.length) :
      SampleRaises c (.head i) t .valueError
  | choosePos {i n : ℕ} {t : CftpState} {e : PyErr}
      (hp : (drawChoices c.posList c.posProba n).Outcome (.error e)) : SampleRaises c (.uniforms i n) t e
  | chooseNeg {i n : ℕ} {t : CftpState} {ps : List ℕ} {e : PyErr}
      (hp : (drawChoices c.posList c.posProba n).Outcome (.ok ps))
      (hn : (drawChoices c.negList c.negProba n).Outcome (.error e)) : SampleRaises c (.uniforms i n) t e
  | lengths {i : ℕ} {t : CftpState} {e : PyErr} (hl : checkLengths (2 ^ i) t = .error e) :
      SampleRaises c (.drawn i) t e
  | simulation {i : ℕ} {t : CftpState} {e : PyErr} (hl : checkLengths (2 ^ i) t = .ok t)
      (hs : c.simulate t = .error e) : SampleRaises c (.drawn i) t e

end Cftp
end Verif
