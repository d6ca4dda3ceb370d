import Verif.Spec.Run
/-! # Specification: bytes that end inside the body of a request -/

namespace Httpd.Spec

/-- These bytes are all there is of `k` complete requests, one after the other, then a complete head, and then fewer bytes than it announces. -/
def CutInBody (maxUrl maxLine maxCount : Nat) (s : Bytes) (k : Nat) : Prop :=
  ∃ qs rest w0 w1 w2 fs part n, Reqs maxUrl maxLine maxCount true s qs rest ∧ qs.length = k ∧ HeadText maxUrl maxLine maxCount true rest w0 w1 w2 fs part ∧
    Announces fs (some n) ∧ part.length < n

end Httpd.Spec
