import Verif.Spec.Request
/-!
# Specification: what some header fields and methods ask for (RFC 9110, RFC 9112)
-/

namespace Httpd.Spec

/-- The parts of a list of comma-separated elements. -/
def elements : Bytes → List Bytes
  | [] => [[]]
  | b :: s => if b = 44 then [] :: elements s else
      match elements s with
      | [] => [[b]]
      | e :: es => (b :: e) :: es

/-- An element without the spaces and tabs around it, in lower case. -/
def element (s : Bytes) : Bytes :=
  lower ((s.dropWhile (fun b => b = 32 ∨ b = 9)).reverse.dropWhile (fun b => b = 32 ∨ b = 9)).reverse

/-- A field of name `k` lists the element `opt` (both in lower case). -/
def Lists (fs : List Field) (k opt : Bytes) : Prop := ∃ v ∈ valuesOf fs k, opt ∈ (elements v).map element

instance (fs : List Field) (k opt : Bytes) : Decidable (Lists fs k opt) := inferInstanceAs (Decidable (∃ v ∈ valuesOf fs k, _))

/-- RFC 9112, 9.3: the connection persists after a request. -/
def Persists (q : WireReq) : Prop :=
  ¬ Lists q.head.fields b!"connection" b!"close" ∧
  (q.head.w2 = b!"HTTP/1.1" ∨ (q.head.w2 = b!"HTTP/1.0" ∧ Lists q.head.fields b!"connection" b!"keep-alive"))

instance (q : WireReq) : Decidable (Persists q) := inferInstanceAs (Decidable (_ ∧ _))

/-- How many of a list of requests are to be answered: those up to the first after which the connection does not persist. -/
def toAnswer : List WireReq → Nat
  | [] => 0
  | q :: qs => 1 + (if Persists q then toAnswer qs else 0)

/-- RFC 9110, 10.1.1: the client wants to hear `100 Continue` before it sends the content. -/
def WantsContinue (q : WireReq) : Prop := Lists q.head.fields b!"expect" b!"100-continue"

end Httpd.Spec
