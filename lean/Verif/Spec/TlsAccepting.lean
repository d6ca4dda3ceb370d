import Verif.Model.TlsAccepting
/-!
# Clients of a TLS service and the connections they get
-/

namespace Httpd.Spec

open Httpd

/-- The connections made, in order. -/
def joined : List TlsAct → List Nat
  | [] => []
  | .connect i :: tr => i :: joined tr
  | _ :: tr => joined tr

/-- The connections taken up, in order. -/
def admitted : List TlsAct → List Nat
  | [] => []
  | .accept i :: tr => i :: admitted tr
  | _ :: tr => admitted tr

/-- The connections that got past the handshake, in order. -/
def through : List TlsAct → List Nat
  | [] => []
  | .shook i :: tr => i :: through tr
  | _ :: tr => through tr

end Httpd.Spec
