import Verif.Spec.Grammar
import Verif.Spec.Run
/-!
# Specification: requests as `read_body_normal` takes them

The body that follows a head with the fields `fs`, within `maxBody` bytes.
-/

namespace Httpd.Spec

/-- Some Transfer-Encoding value has `chunked` in it. -/
def Chunky (fs : List (Bytes × Bytes)) : Prop :=
  ∃ vs v, valuesIn (collect fs) b!"transfer-encoding" = some vs ∧ v ∈ vs ∧ b!"chunked" <:+: v

/-- The body at the front of a byte string, and what follows it: in chunks if the fields say so, whatever Content-Length says; and of the
announced length otherwise. -/
inductive BodyOf (maxBody : Nat) (closed : Bool) (fs : List (Bytes × Bytes)) : Bytes → Bytes → Bytes → Prop
  | chunks (s data rest : Bytes) : Chunky fs → ChunkText maxBody closed s data rest → BodyOf maxBody closed fs s data rest
  | counted (data rest : Bytes) : ¬ Chunky fs → Announces fs (some data.length) → data.length ≤ maxBody →
      BodyOf maxBody closed fs (data ++ rest) data rest

/-- A body that is not complete yet. -/
inductive BodyOpen (maxBody : Nat) (fs : List (Bytes × Bytes)) : Bytes → Prop
  | chunks (s : Bytes) : Chunky fs → ChunkOpen maxBody s → BodyOpen maxBody fs s
  | counted (s : Bytes) (n : Nat) : ¬ Chunky fs → Announces fs (some n) → n ≤ maxBody → s.length < n → BodyOpen maxBody fs s

/-- A body whose data break off: all that there is, where the client closed the connection. -/
inductive BodyCut (maxBody : Nat) (fs : List (Bytes × Bytes)) : Bytes → Prop
  | chunks (line s : Bytes) (n : Nat) : Chunky fs → Taken 10 128 true line s → SizeLine line n → n ≤ maxBody → s.length < n →
      BodyCut maxBody fs (line ++ s)
  | counted (s : Bytes) (n : Nat) : ¬ Chunky fs → Announces fs (some n) → n ≤ maxBody → s.length < n → BodyCut maxBody fs s

end Httpd.Spec
