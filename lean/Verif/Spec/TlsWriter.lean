import Verif.Model.TlsWriter
/-!
# What a client sees of a connection over TLS (C233–C238)

Of the model only the type of records and the encryption are used.
-/

namespace Httpd.Spec

/-- What the client can decrypt of these bytes, from the record with this number on: as many records as are there in whole. -/
inductive Opened (layer : RecordLayer) : Nat → Bytes → List TlsRecord → Prop
  | rest (k : Nat) (b : Bytes) : (∀ r, ¬ layer.crypt k r <+: b) → Opened layer k b []
  | record (k : Nat) (r : TlsRecord) (b : Bytes) (rs : List TlsRecord) : Opened layer (k + 1) b rs → Opened layer k (layer.crypt k r ++ b) (r :: rs)

/-- The bytes of these records, the first one with this number. -/
def sealedFrom (layer : RecordLayer) : Nat → List TlsRecord → Bytes
  | _, [] => []
  | k, r :: rs => layer.crypt k r ++ sealedFrom layer (k + 1) rs

/-- The bytes they carry. -/
def carried : List TlsRecord → Bytes
  | [] => []
  | .data b :: rs => b ++ carried rs
  | .closeNotify :: rs => carried rs

/-- RFC 8446 section 6.1: the side that closes says so before. -/
def SaidGoodbye (rs : List TlsRecord) : Prop := rs.getLast? = some .closeNotify

end Httpd.Spec
