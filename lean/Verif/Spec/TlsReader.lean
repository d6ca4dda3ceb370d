import Verif.Spec.TlsWriter
import Verif.Model.TlsReader
/-!
# What a client says over TLS (C236, C237, C238)

Of the model only the types are used.
-/

namespace Httpd.Spec

/-- Nobody but the client can make a record that the server opens, and each one only in its place: `sent` are the records of the client. Nothing is said about
what other bytes do. -/
def Authentic (layer : RecordLayer) (sent : List TlsRecord) (o : TlsOpener) : Prop :=
  ∀ k b r rest, o.next k b = .record r rest → sent[k]? = some r ∧ b = layer.crypt k r ++ rest

/-- The records of the client can be opened, and while one is not there in whole it is waited for. -/
structure Opens (layer : RecordLayer) (sent : List TlsRecord) (o : TlsOpener) : Prop where
  whole : ∀ k r rest, sent[k]? = some r → o.next k (layer.crypt k r ++ rest) = .record r rest
  part : ∀ k r b, sent[k]? = some r → b <+: layer.crypt k r → b ≠ layer.crypt k r → b ≠ [] → o.next k b = .more

/-- The records before the one with which the client says that nothing follows. -/
def beforeGoodbye : List TlsRecord → List TlsRecord
  | [] => []
  | .closeNotify :: _ => []
  | .data b :: rs => .data b :: beforeGoodbye rs

/-- What the client says. -/
def spoken (rs : List TlsRecord) : Bytes := carried (beforeGoodbye rs)

end Httpd.Spec
