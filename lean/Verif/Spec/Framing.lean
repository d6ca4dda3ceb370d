import Verif.Spec.Request
/-!
# Specification: how a request says where its body ends

RFC 9110, 8.6: `Content-Length = 1*DIGIT`. RFC 9112, 6.1 and 6.3: the body is in chunks if `chunked` is the last transfer coding; the names of
codings are compared without regard to case.
-/

namespace Httpd.Spec

/-- `1*DIGIT`. -/
def LengthText (v : Bytes) : Prop := v ≠ [] ∧ ∀ b ∈ v, IsDigit b

/-- `chunked` is the last coding of these Transfer-Encoding values: the last value is, or ends after a comma in, this word with optional
spaces and tabs around it. -/
def LastChunked (vs : List Bytes) : Prop :=
  ∃ init v front a w b, vs = init ++ [v] ∧ v = front ++ a ++ w ++ b ∧ (front = [] ∨ ∃ f, front = f ++ [44]) ∧
    (∀ x ∈ a ++ b, x = 32 ∨ x = 9) ∧ lower w = b!"chunked"

end Httpd.Spec
