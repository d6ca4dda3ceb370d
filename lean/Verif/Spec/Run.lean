import Verif.Spec.Grammar
import Verif.Base.RustInt
/-! # Specification: the requests in a sequence of bytes, and bodies sent in chunks as the server reads them -/

namespace Httpd.Spec

/-- A request: method, target, version, fields and body. -/
structure Req where
  w0 : Bytes
  w1 : Bytes
  w2 : Bytes
  fields : List (Bytes × Bytes)
  body : Bytes

/-- The bytes start with a request, and these are left. -/
def Req.At (maxUrl maxLine maxCount : Nat) (closed : Bool) (s : Bytes) (q : Req) (rest : Bytes) : Prop :=
  HeadText maxUrl maxLine maxCount closed s q.w0 q.w1 q.w2 q.fields (q.body ++ rest) ∧ Announces q.fields (some q.body.length)

/-- The bytes start with these requests, one after the other, and these bytes are left. -/
inductive Reqs (maxUrl maxLine maxCount : Nat) (closed : Bool) : Bytes → List Req → Bytes → Prop
  | stop (s : Bytes) : Reqs maxUrl maxLine maxCount closed s [] s
  | more (s s' rest : Bytes) (q : Req) (qs : List Req) : q.At maxUrl maxLine maxCount closed s s' →
      Reqs maxUrl maxLine maxCount closed s' qs rest → Reqs maxUrl maxLine maxCount closed s (q :: qs) rest

/-- The line of a chunk size: UTF-8 text, a *decimal* number below 2^64 between white space. -/
def SizeLine (line : Bytes) (n : Nat) : Prop :=
  ∃ cps a t b, decodeUtf8 line = some cps ∧ cps = a ++ t.map UInt8.toNat ++ b ∧ (∀ x ∈ a, isUnicodeWhitespace x = true) ∧
    (∀ x ∈ b, isUnicodeWhitespace x = true) ∧ Numeral t n ∧ n < 2 ^ 64

/-- A chunked body as the server reads it: one size line, so many bytes, and the rest of a line of at most two bytes. -/
inductive ChunkText (maxBody : Nat) (closed : Bool) : Bytes → Bytes → Bytes → Prop
  | mk (line data tail rest : Bytes) : Taken 10 128 closed line (data ++ (tail ++ rest)) → SizeLine line data.length →
      data.length ≤ maxBody → Taken 10 2 closed tail rest → (decodeUtf8 tail).isSome = true →
      ChunkText maxBody closed (line ++ (data ++ (tail ++ rest))) data rest

/-- A chunked body that is not complete yet. -/
inductive ChunkOpen (maxBody : Nat) : Bytes → Prop
  | line (s : Bytes) : 10 ∉ s → s.length < 128 → ChunkOpen maxBody s
  | data (line s : Bytes) (n : Nat) : Taken 10 128 false line s → SizeLine line n → n ≤ maxBody → s.length < n →
      ChunkOpen maxBody (line ++ s)
  | tail (line data s : Bytes) : Taken 10 128 false line (data ++ s) → SizeLine line data.length → data.length ≤ maxBody →
      10 ∉ s → s.length < 2 → ChunkOpen maxBody (line ++ (data ++ s))

end Httpd.Spec
