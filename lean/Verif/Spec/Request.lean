import Verif.Spec.Head
import Verif.Spec.Number
/-! # Specification: requests as a client sends them -/

namespace Httpd.Spec

/-- A request: a head and the body bytes that follow it. -/
structure WireReq where
  head : WireHead
  body : Bytes

/-- The bytes on the wire. -/
def WireReq.encode (q : WireReq) : Bytes := q.head.encode ++ q.body

/-- The first Content-Length value sent, if any. -/
def announced (fs : List Field) : Option Bytes := (valuesOf fs b!"content-length").head?

/-- A well-formed request within the limits: its head is, and its (first) Content-Length header announces exactly the body
that follows; without such a header there is no body. -/
structure WireReq.WF (maxUrl maxLine maxCount : Nat) (q : WireReq) : Prop where
  head_wf : q.head.WF maxUrl maxLine maxCount
  body_len : q.body.length < 2 ^ 64
  announce : match announced q.head.fields with
    | some v => Numeral v q.body.length
    | none => q.body = []

/-- The bytes of a list of requests sent back to back. -/
def encodeAll (qs : List WireReq) : Bytes := (qs.map WireReq.encode).flatten

end Httpd.Spec
