import Verif.Spec.Appender
import Verif.Model.Clock
/-!
# What rotation should do
-/

namespace Httpd.Spec

open Httpd

/-- Calls of a rotating appender. -/
inductive RotOp
  | write (b : Bytes) (m : Moment)
  | flush

/-- Carry out calls on a rotating appender; says whether all of them succeeded. -/
def rotPerform (d : Disk) (r : Rotator) : List RotOp → Outcome (Disk × Rotator × Bool)
  | [] => .value (d, r, true)
  | .write b m :: ops =>
    match rotAppend d r m b with
    | .value (d, r, ok) =>
      match rotPerform d r ops with
      | .value (d, r, oks) => .value (d, r, ok && oks)
      | .error => .error
      | .panic => .panic
    | .error => .error
    | .panic => .panic
  | .flush :: ops =>
    match rotFlush d r with
    | (d, r, ok) =>
      match rotPerform d r ops with
      | .value (d, r, oks) => .value (d, r, ok && oks)
      | .error => .error
      | .panic => .panic

/-- The records written. -/
def records : List RotOp → List Bytes
  | [] => []
  | .write b _ :: ops => b :: records ops
  | .flush :: ops => records ops

/-- The number of the local day (or hour) of a time. -/
def period (z : Zone) (p t : Int) : Int := z.localTime t / p

/-- A time zone works as it should: a local time that comes once gives that time, one that does not come gives none, one that comes
more than once is ambiguous. -/
def LawfulZone (z : Zone) : Prop :=
  ∀ l, match z.fromLocal l with
    | .single u => ∀ v, z.localTime v = l ↔ v = u
    | .none => ∀ v, z.localTime v ≠ l
    | .ambiguous => ∃ u v, u ≠ v ∧ z.localTime u = l ∧ z.localTime v = l

end Httpd.Spec

namespace Httpd.Spec

open Httpd

/-- A write by a rotating appender, with the time at which it works out when to rotate next. -/
structure Timed where
  record : Bytes
  moment : Moment
  later : Int

/-- The times of writes go on from time `t`, `next` is the end of the local day (hour) and the date is that of the local day (hour). -/
def InTime (z : Zone) (p : Int) (date : Int → Str) : Int → List Timed → Prop
  | _, [] => True
  | t, w :: ws =>
    t ≤ w.moment.now ∧ (w.moment.now : Int) ≤ w.later ∧ w.moment.next = endOf z p w.later ∧
    w.moment.stamp = date (period z p w.moment.now) ∧ InTime z p date w.later ws

/-- The times at which the name of the log file came to mean another file. -/
def rotatedAt (d : Disk) (r : Rotator) : List Timed → List Int
  | [] => []
  | w :: ws =>
    match rotAppend d r w.moment w.record with
    | .value (d', r', _) => (if d'.fs.names r.fp = d.fs.names r.fp then [] else [(w.moment.now : Int)]) ++ rotatedAt d' r' ws
    | _ => []

/-- The day (hour) of time `t` starts at one time, and is over once 24 hours (one hour) have passed from there. -/
def NotLong (z : Zone) (p t : Int) : Prop :=
  ∃ u, z.fromLocal (z.localTime t / p * p) = .single u ∧ ∀ v, u + p ≤ v → period z p t < period z p v

end Httpd.Spec
