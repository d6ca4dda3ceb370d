import Verif.Spec.Rotation
import Verif.Model.LogChain
/-!
# What rotation may lose
-/

namespace Httpd.Spec

open Httpd

/-- What became of the bytes written to a log file between two rotations: the name of the file that they are in now, those that are in it, and
those that are not. -/
structure LogPart where
  name : Str
  kept : Bytes
  lost : Bytes

/-- All that was written is, in order, in differently named files, at most `n + 1` of them: the first holds what the log file held before and
then the first part, each further one holds the next part and nothing else. Of each part at most `size` bytes are missing, at its end; of the
last part nothing is missing. -/
def LossAtMost (n size : Nat) (before after : Disk) (fp : Str) (out : Bytes) : Prop :=
  ∃ (first : LogPart) (rest : List LogPart), out = ((first :: rest).map (fun p => p.kept ++ p.lost)).flatten ∧
    content after first.name = content before fp ++ first.kept ∧ (∀ p ∈ rest, content after p.name = p.kept) ∧
    ((first :: rest).map (·.name)).Nodup ∧ (∀ p ∈ first :: rest, p.lost.length ≤ size) ∧
    (∀ p, (first :: rest).getLast? = some p → p.lost = []) ∧ rest.length ≤ n

/-- Differently named files: the first holds what the log file held before and then its part, each further one its part and nothing else. Of each
part at most `size` bytes are missing, at its end; of the last part nothing is missing. -/
def LogFiles (size : Nat) (before after : Disk) (fp : Str) (first : LogPart) (rest : List LogPart) : Prop :=
  content after first.name = content before fp ++ first.kept ∧ (∀ p ∈ rest, content after p.name = p.kept) ∧
  ((first :: rest).map (·.name)).Nodup ∧ (∀ p ∈ first :: rest, p.lost.length ≤ size) ∧
  (∀ p, (first :: rest).getLast? = some p → p.lost = [])

/-- The times at which the name of the log file came to mean another file, or none. -/
def rotTimes (d : Disk) (r : Rotator) : List RotOp → List Nat
  | [] => []
  | .write b m :: ops =>
    match rotAppend d r m b with
    | .value (d', r', _) => (if d'.fs.names r.fp = d.fs.names r.fp then [] else [m.now]) ++ rotTimes d' r' ops
    | _ => []
  | .flush :: ops => rotTimes (rotFlush d r).1 (rotFlush d r).2.1 ops

/-- Whenever the time for a rotation has come, the dated names are free. -/
def FreeNames (d : Disk) (r : Rotator) : List RotOp → Prop
  | [] => True
  | .write b m :: ops =>
    (m.now < r.rotateAt ∨ ∀ i, i < 10 → d.fs.names (rotatedName r m i) = none) ∧
    match rotAppend d r m b with
    | .value (d, r, _) => FreeNames d r ops
    | _ => True
  | .flush :: ops => FreeNames (rotFlush d r).1 (rotFlush d r).2.1 ops

/-- A timed write as an operation; `none` is a flush. -/
def timedOp : Option Timed → RotOp
  | some w => .write w.record w.moment
  | none => .flush

/-- Whenever it is time for one of the files to rotate, its dated names are free. -/
def FreeDests (st : Disk × List Dest) (moments : Nat → Moment) : List (Nat × FileCall) → Prop
  | [] => True
  | call :: calls =>
    (∀ r, st.2[call.1]? = some (.rotating r) → call.2 = .flush ∨ (moments 0).now < r.rotateAt ∨
      ∀ i, i < 10 → st.1.fs.names (rotatedName r (moments 0) i) = none) ∧
    match callDest st (moments 0) call with
    | .value st => FreeDests st (fun i => moments (i + 1)) calls
    | _ => True

/-- The times at which a call of appender `i` made the name `fp` mean another file, or none. -/
def rotTimesOf (i : Nat) (fp : Str) (st : Disk × List Dest) (moments : Nat → Moment) : List (Nat × FileCall) → List Nat
  | [] => []
  | call :: calls =>
    match callDest st (moments 0) call with
    | .value st' =>
      (if call.1 = i ∧ st'.1.fs.names fp ≠ st.1.fs.names fp then [(moments 0).now] else []) ++ rotTimesOf i fp st' (fun i => moments (i + 1)) calls
    | _ => []

end Httpd.Spec
