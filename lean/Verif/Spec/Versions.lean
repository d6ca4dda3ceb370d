import Verif.Spec.Run
/-! # The requests in what a client sends (C244) -/

namespace Httpd.Spec

/-- These are the complete requests at the start of the bytes, and no further one follows. -/
def AllRequests (maxUrl maxLine maxCount : Nat) (closed : Bool) (s : Bytes) (qs : List Req) : Prop :=
  ∃ rest, Reqs maxUrl maxLine maxCount closed s qs rest ∧ ¬ ∃ q rest', Req.At maxUrl maxLine maxCount closed rest q rest'

end Httpd.Spec
