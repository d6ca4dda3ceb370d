import Verif.Model.Accepting
import Verif.Spec.Request
import Verif.Spec.Number
/-!
# Clients and the connections they get
-/

namespace Httpd.Spec

open Httpd

/-- The connections made, in order. -/
def connected : List AcceptAct → List Nat
  | [] => []
  | .connect i :: tr => i :: connected tr
  | _ :: tr => connected tr

/-- The connections taken up, in order. -/
def takenUp : List AcceptAct → List Nat
  | [] => []
  | .accept i :: tr => i :: takenUp tr
  | _ :: tr => takenUp tr

/-- A client that sends no complete request: it stops inside one, or before the first byte, and stays; or it announces more of a body than it
sends, and leaves. -/
def Unfinished (lim : HttpLimits) (r : Reader) : Prop :=
  (∃ q : WireReq, q.WF lim.maxUrl lim.maxHeaderLine lim.maxHeadersCount ∧ r.flat <+: q.encode ∧ r.flat ≠ q.encode ∧ r.fin = .silent) ∨
  (∃ (w : WireHead) (v : Bytes) (n : Nat) (part : Bytes), w.WF lim.maxUrl lim.maxHeaderLine lim.maxHeadersCount ∧
    announced w.fields = some v ∧ Numeral v n ∧ n < 2 ^ 64 ∧ r.flat = w.encode ++ part ∧ part.length < n ∧ r.fin = .eof)

end Httpd.Spec
