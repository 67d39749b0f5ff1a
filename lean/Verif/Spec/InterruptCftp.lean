/-
Specification vocabulary for interrupted calls of `CFTP.sample`.
-/
import Verif.Model.InterruptCftp
import Verif.Model.Head

namespace Verif
namespace Cftp

/-- The lists hold no draw, or one complete draw. -/
def Usable (t : CftpState) : Prop :=
  t.us.length ≤ 1 ∧ t.ps.length = t.us.length ∧ t.ns.length = t.us.length

/-- The lists after further calls of `sample`, all of which raised. -/
inductive RaisedCalls (c : Cftp) (t : CftpState) : CftpState → Prop
  | none : RaisedCalls c t t
  | call {t1 t2 : CftpState} {pc : SamplePc} {e : PyErr} (h : RaisedCalls c t t1) (hp : SamplePoint c t1 pc t2)
      (hr : SampleRaises c pc t2 e) : RaisedCalls c t t2

end Cftp
end Verif
