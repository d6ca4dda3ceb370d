import Verif.Model.LogRun
/-!
# Model of what the logger says about its own failures (src/logging/consumer.rs:116-123, 187-194, 204-211, src/logging/rotation_file_appender.rs:165-189)

A failed write or flush of an appender, and a rotation that fails, are reported with `eprintln!`. `eprintln!` panics if standard error cannot
be written (Rust's standard library; a pipe whose reader is gone, a full disk). In `Model/LogRun` standard error can be written; here an oracle
says for each report whether it can. The texts of the errors are left out, and so is what is said in a call that panics for another reason.
Calls of a console fail as an oracle says.
-/

namespace Httpd

/-- What is reported: `rotation rename failed`, `rotation reopen failed`, `logging: write failed`, `logging: flush failed`. -/
inductive Report
  | rename
  | reopen
  | write
  | flush
deriving DecidableEq

/-- src/logging/rotation_file_appender.rs:125-191: what `rotate` says. -/
def rotateSays (d : Disk) (r : Rotator) (m : Moment) : List Report :=
  if m.now < r.rotateAt then []
  else
    match renameLoop r m d 10 0 with
    | none => [.rename]
    | some _ => if m.openOk then [] else [.reopen]

/-- The `Result` of a call of an appender: is it `Ok`? src/logging/file_appender.rs:30-36, src/logging/rotation_file_appender.rs:42-59,
src/logging/console_appender.rs:13-20. -/
def Dest.callOk (d : Disk) (m : Moment) (consoleOk : Bool) (c : FileCall) : Dest → Bool
  | .console => consoleOk
  | .file w =>
    match c with
    | .write b => (fileAppend d w b).2.2
    | .flush => (fileFlush d w).2.2
  | .rotating r =>
    match c with
    | .write b =>
      match rotAppend d r m b with
      | .value (_, _, ok) => ok
      | _ => false
    | .flush => (rotFlush d r).2.2

/-- What is said in a call of an appender: first what a rotation says, then what the consumer says about an `Err`. -/
def Dest.says (d : Disk) (m : Moment) (consoleOk : Bool) (c : FileCall) (x : Dest) : List Report :=
  (match x, c with
    | .rotating r, .write b => rotateSays (fileAppend d r.inner b).1 { r with inner := (fileAppend d r.inner b).2.1 } m
    | _, _ => []) ++
  (if x.callOk d m consoleOk c then []
    else match c with
      | .write _ => [.write]
      | .flush => [.flush])

/-- What is said in a call of one of the appenders. -/
def saysOf (st : Disk × List Dest) (m : Moment) (consoleOk : Bool) (call : Nat × FileCall) : List Report :=
  match st.2[call.1]? with
  | none => []
  | some x => x.says st.1 m consoleOk call.2

/-- The calls of a run, one after the other, with what is said. `err i` says whether the `i`-th of the coming reports can be written; a
report that cannot be written ends the thread, before the next call is made. -/
def callLoud (st : Disk × List Dest) (moments : Nat → Moment) (con err : Nat → Bool) :
    List (Nat × FileCall) → Outcome (Disk × List Dest) × List Report
  | [] => (.value st, [])
  | call :: calls =>
    match callDest st (moments 0) call with
    | .value st' =>
      let say := saysOf st (moments 0) (con 0) call
      if (List.range say.length).all err then
        match callLoud st' (fun i => moments (i + 1)) (fun i => con (i + 1)) (fun i => err (say.length + i)) calls with
        | (o, rs) => (o, say ++ rs)
      else (.panic, say.take ((List.range say.length).takeWhile err).length)
    | .error => (.error, [])
    | .panic => (.panic, [])

/-- A logger, and how many reports there were. -/
structure Loud where
  logger : Logger
  said : Nat

/-- `LoggerStep` (`Model/LogRun`) with reports: the consumer panics also if a report cannot be written, and that can be in a flush
(src/logging/dispatcher.rs:104-107). -/
inductive LoudStep (k : Consumer) (text : Nat → Option Bytes) (moments : Nat → Moment) (con err : Nat → Bool) (enabled : Item → Bool) :
    Loud → Log.Act Item → Loud → Prop
  /-- everything but the work of the consumer on a record or a flush -/
  | other (s : Loud) (a : Log.Act Item) (l : Log.Sys Item) : Log.Step enabled s.logger.sys a l → (∀ t r, a ≠ .write t r) → a ≠ .flush → a ≠ .crash →
      LoudStep k text moments con err enabled s a { s with logger := { s.logger with sys := l } }
  /-- src/logging/dispatcher.rs:109-122: `clock` is the time of the record. -/
  | write (s : Loud) (t : Nat) (item : Item) (clock : Nat) (bufs : List Bytes) (w : Writes) (dests : Disk × List Dest) (rs : List Report)
      (l : Log.Sys Item) : Log.Step enabled s.logger.sys (.write t item) l → (∀ txt, text clock = some txt → item.time = txt) →
      k.handleAt (text clock) item s.logger.bufs = .ok bufs w →
      callLoud s.logger.dests (fun i => moments (s.logger.used + i)) (fun i => con (s.logger.used + i)) (fun i => err (s.said + i))
        (callsOfWrites w) = (.value dests, rs) →
      LoudStep k text moments con err enabled s (.write t item)
        ⟨{ sys := l, bufs := bufs, dests := dests, used := s.logger.used + w.length }, s.said + rs.length⟩
  /-- src/logging/dispatcher.rs:104-106, 125-126 -/
  | flush (s : Loud) (dests : Disk × List Dest) (rs : List Report) (l : Log.Sys Item) : Log.Step enabled s.logger.sys .flush l →
      callLoud s.logger.dests (fun i => moments (s.logger.used + i)) (fun i => con (s.logger.used + i)) (fun i => err (s.said + i))
        ((List.range k.appenders.length).map (fun i => (i, .flush))) = (.value dests, rs) →
      LoudStep k text moments con err enabled s .flush
        ⟨{ s.logger with sys := l, dests := dests, used := s.logger.used + k.appenders.length }, s.said + rs.length⟩
  /-- a panic over a record -/
  | crash (s : Loud) (t : Nat) (item : Item) (clock : Nat) (l : Log.Sys Item) : s.logger.sys.consumer = .writing t item →
      (∀ txt, text clock = some txt → item.time = txt) →
      (k.handleAt (text clock) item s.logger.bufs = .panic ∨
        ∃ bufs w, k.handleAt (text clock) item s.logger.bufs = .ok bufs w ∧
          (callLoud s.logger.dests (fun i => moments (s.logger.used + i)) (fun i => con (s.logger.used + i)) (fun i => err (s.said + i))
            (callsOfWrites w)).1 = .panic) →
      Log.Step enabled s.logger.sys .crash l → LoudStep k text moments con err enabled s .crash { s with logger := { s.logger with sys := l } }
  /-- a panic in a flush -/
  | crashFlush (s : Loud) (n : Nat) (l : Log.Sys Item) : s.logger.sys.consumer = .flushing n →
      (callLoud s.logger.dests (fun i => moments (s.logger.used + i)) (fun i => con (s.logger.used + i)) (fun i => err (s.said + i))
        ((List.range k.appenders.length).map (fun i => (i, .flush)))).1 = .panic →
      Log.Step enabled s.logger.sys .crash l → LoudStep k text moments con err enabled s .crash { s with logger := { s.logger with sys := l } }

/-- A run and its trace. -/
inductive LoudRun (k : Consumer) (text : Nat → Option Bytes) (moments : Nat → Moment) (con err : Nat → Bool) (enabled : Item → Bool) (s : Loud) :
    List (Log.Act Item) → Loud → Prop
  | nil : LoudRun k text moments con err enabled s [] s
  | snoc {tr : List (Log.Act Item)} {t u : Loud} {a : Log.Act Item} : LoudRun k text moments con err enabled s tr t →
      LoudStep k text moments con err enabled t a u → LoudRun k text moments con err enabled s (tr ++ [a]) u

end Httpd
