import Verif.Spec.Response
import Verif.Spec.Number
/-!
# Specification: how a client finds the answers in the bytes of a connection

It reads lines up to an empty one, looks for the only Content-Length line (RFC 9112, 6.3) and takes as many bytes as that says; then the next answer
begins. What the first line says does not matter for that.
-/

namespace Httpd.Spec

/-- The line says that the body has `n` bytes: `content-length` in any spelling, a colon, spaces or tabs, digits. -/
def LengthLine (l : Bytes) (n : Nat) : Prop :=
  ∃ name ws v, l = name ++ 58 :: (ws ++ v) ∧ 58 ∉ name ∧ lower name = b!"content-length" ∧ (∀ b ∈ ws, b = 32 ∨ b = 9) ∧
    v ≠ [] ∧ (∀ b ∈ v, IsDigit b) ∧ decValue v = n

/-- The bytes start with one answer: these lines, this body, and what follows. -/
def OneAnswer (s : Bytes) (lines : List Bytes) (body rest : Bytes) : Prop :=
  splitHead s = some (lines, body ++ rest) ∧ ∃ l, lines.filter (fun l => lineName l = b!"content-length") = [l] ∧ LengthLine l body.length

/-- All the answers in the bytes, and what is left when no further one is complete. -/
inductive Framed : Bytes → List (List Bytes × Bytes) → Bytes → Prop
  | stop (s : Bytes) : (¬ ∃ lines body rest, OneAnswer s lines body rest) → Framed s [] s
  | more (s : Bytes) (lines : List Bytes) (body rest : Bytes) (outs : List (List Bytes × Bytes)) (left : Bytes) :
      OneAnswer s lines body rest → Framed rest outs left → Framed s ((lines, body) :: outs) left

end Httpd.Spec
