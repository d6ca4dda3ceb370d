import Verif.Model.Turns
import Verif.Spec.Request
import Verif.Spec.Number
/-!
# Clients that leave in the middle of a body; turns
-/

namespace Httpd.Spec

open Httpd

/-- A client that sends a request head that announces a body, less than that of it, and leaves. -/
def LeavesInBody (lim : HttpLimits) (r : Reader) : Prop :=
  ∃ (w : WireHead) (v : Bytes) (n : Nat) (part : Bytes), w.WF lim.maxUrl lim.maxHeaderLine lim.maxHeadersCount ∧
    announced w.fields = some v ∧ Numeral v n ∧ n < 2 ^ 64 ∧ r.flat = w.encode ++ part ∧ part.length < n ∧ r.fin = .eof

end Httpd.Spec
