import Verif.Model.Dispatcher
import Verif.Model.Logging
/-!
# Model of the consumer thread at work on the files of a whole configuration

`Model/Dispatcher` has the threads, `Model/Logging` the choice of appenders, `Model/Appender` one file. Here the three meet: the calls the
consumer thread makes during a run, and all the open log files of the configuration on one disk. In the first part log files that rotate are
left out (a daily appender is opened like any other file); the second part has them (`Rotator` in `Model/Appender` is about one of them).
-/

namespace Httpd

/-- A call of an appender: `writeall` with some bytes, or `flush` (src/logging/appender.rs). -/
inductive FileCall
  | write (b : Bytes)
  | flush
deriving DecidableEq

/-- src/logging/dispatcher.rs:100-128: the calls of appenders the consumer thread makes in a run, each with the position of the appender;
`none` = undefined behaviour. A record is handed to the appenders chosen for it (`Consumer.handle`); a flush goes to every appender in
order (src/logging/consumer.rs:197-213). -/
def Consumer.calls (k : Consumer) : List (Log.Act Item) → List Bytes → Unchecked (List (Nat × FileCall))
  | [], _ => some []
  | .write _ item :: tr, bufs =>
    match k.handle item bufs with
    | none => none
    | some (bufs', w) => (k.calls tr bufs').map (w.map (fun x => (x.1, .write x.2)) ++ ·)
  | .flush :: tr, bufs => (k.calls tr bufs).map ((List.range k.appenders.length).map (fun i => (i, .flush)) ++ ·)
  | _ :: tr, bufs => k.calls tr bufs

/-- An open log file, and whether all calls on it succeeded so far (the program only prints failures). -/
structure OpenLog where
  w : BufW
  ok : Bool

/-- src/config/logging.rs:102-174, for all sections: open the files of all appenders, in order. `none` stands for a console. -/
def openLogs (d : Disk) : List AppenderInit → Disk × List (Option OpenLog)
  | [] => (d, [])
  | a :: as =>
    match a.path with
    | none => match openLogs d as with
      | (d, ws) => (d, none :: ws)
    | some fp => match fileNew d fp a.bufsize with
      | (d, w) => match openLogs d as with
        | (d, ws) => (d, some ⟨w, true⟩ :: ws)

/-- One call of an appender (src/logging/file_appender.rs:30-36). A console does nothing to the disk. -/
def callLog (st : Disk × List (Option OpenLog)) (call : Nat × FileCall) : Disk × List (Option OpenLog) :=
  match st.2[call.1]? with
  | some (some o) =>
    match (match call.2 with
      | .write b => fileAppend st.1 o.w b
      | .flush => fileFlush st.1 o.w) with
    | (d, w, ok) => (d, st.2.set call.1 (some ⟨w, o.ok && ok⟩))
  | _ => st

/-- The calls of a run, one after the other: futures are awaited in order (src/logging/consumer.rs:116-123, 187-194, 204-211). -/
def callLogs (st : Disk × List (Option OpenLog)) (calls : List (Nat × FileCall)) : Disk × List (Option OpenLog) := calls.foldl callLog st

/-! ## Files that rotate -/

/-- What an appender writes to: the console, a file, or a file that rotates. -/
inductive Dest
  | console
  | file (w : BufW)
  | rotating (r : Rotator)

/-- src/config/logging.rs:106-171: make one appender; `at'` is the end of the day in which a daily file is opened. `none` = `Err`. -/
def openDest (d : Disk) (at' : Nat) (a : AppenderInit) : Option (Disk × Dest) :=
  match a.path with
  | none => some (d, .console)
  | some fp =>
    if a.daily then (rotNew d fp a.bufsize at').map (fun x => (x.1, .rotating x.2))
    else some ((fileNew d fp a.bufsize).1, .file (fileNew d fp a.bufsize).2)

/-- src/config/logging.rs:106-171, for all sections. -/
def openDests (d : Disk) (ends : Nat → Nat) : List AppenderInit → Option (Disk × List Dest)
  | [] => some (d, [])
  | a :: as =>
    match openDest d (ends 0) a with
    | none => none
    | some (d, x) =>
      match openDests d (fun i => ends (i + 1)) as with
      | none => none
      | some (d, xs) => some (d, x :: xs)

/-- One call of an appender (src/logging/file_appender.rs:30-36, src/logging/rotation_file_appender.rs:42-59), at some moment. `panic` ends the
consumer thread. Failures are only printed (src/logging/consumer.rs:116-123, 187-194, 204-211). -/
def Dest.call (d : Disk) (m : Moment) (c : FileCall) : Dest → Outcome (Disk × Dest)
  | .console => .value (d, .console)
  | .file w =>
    match c with
    | .write b => .value ((fileAppend d w b).1, .file (fileAppend d w b).2.1)
    | .flush => .value ((fileFlush d w).1, .file (fileFlush d w).2.1)
  | .rotating r =>
    match c with
    | .write b =>
      match rotAppend d r m b with
      | .value (d, r, _) => .value (d, .rotating r)
      | .error => .error
      | .panic => .panic
    | .flush => .value ((rotFlush d r).1, .rotating (rotFlush d r).2.1)

/-- One call of one of the appenders. -/
def callDest (st : Disk × List Dest) (m : Moment) (call : Nat × FileCall) : Outcome (Disk × List Dest) :=
  match st.2[call.1]? with
  | none => .value st
  | some x =>
    match x.call st.1 m call.2 with
    | .value (d, x) => .value (d, st.2.set call.1 x)
    | .error => .error
    | .panic => .panic

/-- The calls of a run, one after the other; `moments` says what each of them sees of the world. -/
def callDests (st : Disk × List Dest) (moments : Nat → Moment) : List (Nat × FileCall) → Outcome (Disk × List Dest)
  | [] => .value st
  | call :: calls =>
    match callDest st (moments 0) call with
    | .value st => callDests st (fun i => moments (i + 1)) calls
    | .error => .error
    | .panic => .panic

end Httpd
