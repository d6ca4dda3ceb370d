import Verif.Model.LogChain
import Verif.Model.TimeFormat
/-!
# Model of the logger at work (src/logging/dispatcher.rs:87-128, src/logging/consumer.rs)

In `Model/Dispatcher` the consumer thread may panic over any record. Here it does exactly when the work on the record does: the time of the
record is rendered (`Model/TimeFormat`), and the appenders chosen for it are called one after the other (`Model/LogChain`). So a run of this
model is a run of `Model/Dispatcher` in which panics have a cause. Standard error can be written here, so reporting a failed write does not
panic; `Model/Print` is about the other case.

The world outside is a sequence of moments, one for each call of an appender; a run says how many of them have been used.
-/

namespace Httpd

/-- The threads and the channel, the consumer's buffers, the disk with the appenders, and how many calls of appenders there were. -/
structure Logger where
  sys : Log.Sys Item
  bufs : List Bytes
  dests : Disk × List Dest
  used : Nat

/-- The start: nothing logged; `dests` are the appenders as opened. -/
def loggerStart (k : Consumer) (dests : Disk × List Dest) (progs : Nat → List (Log.Call Item)) : Logger :=
  { sys := Log.start progs, bufs := k.bufs, dests := dests, used := 0 }

/-- The writes of a record as calls of appenders. -/
def callsOfWrites (w : Writes) : List (Nat × FileCall) := w.map (fun x => (x.1, .write x.2))

/-- One action. `text` is the text of a local clock (`Config.timeText`), `moments` what each call of an appender sees of the world. A record for
which the consumer reads outside a vector (`Handled.ub`) has no step. What the calls before a panic do to the disk is not represented: the
thread is gone, and nothing is written any more. -/
inductive LoggerStep (k : Consumer) (text : Nat → Option Bytes) (moments : Nat → Moment) (enabled : Item → Bool) :
    Logger → Log.Act Item → Logger → Prop
  /-- everything but the work of the consumer on a record or a flush -/
  | other (s : Logger) (a : Log.Act Item) (l : Log.Sys Item) : Log.Step enabled s.sys a l → (∀ t r, a ≠ .write t r) → a ≠ .flush → a ≠ .crash →
      LoggerStep k text moments enabled s a { s with sys := l }
  /-- src/logging/dispatcher.rs:109-122: `clock` is the time of the record. -/
  | write (s : Logger) (t : Nat) (item : Item) (clock : Nat) (bufs : List Bytes) (w : Writes) (dests : Disk × List Dest) (l : Log.Sys Item) :
      Log.Step enabled s.sys (.write t item) l → (∀ txt, text clock = some txt → item.time = txt) →
      k.handleAt (text clock) item s.bufs = .ok bufs w →
      callDests s.dests (fun i => moments (s.used + i)) (callsOfWrites w) = .value dests →
      LoggerStep k text moments enabled s (.write t item) { sys := l, bufs := bufs, dests := dests, used := s.used + w.length }
  /-- src/logging/dispatcher.rs:104-106, 125-126 -/
  | flush (s : Logger) (dests : Disk × List Dest) (l : Log.Sys Item) : Log.Step enabled s.sys .flush l →
      callDests s.dests (fun i => moments (s.used + i)) ((List.range k.appenders.length).map (fun i => (i, .flush))) = .value dests →
      LoggerStep k text moments enabled s .flush { s with sys := l, dests := dests, used := s.used + k.appenders.length }
  /-- the same with a panic -/
  | crash (s : Logger) (t : Nat) (item : Item) (clock : Nat) (l : Log.Sys Item) : s.sys.consumer = .writing t item →
      (∀ txt, text clock = some txt → item.time = txt) →
      (k.handleAt (text clock) item s.bufs = .panic ∨
        ∃ bufs w, k.handleAt (text clock) item s.bufs = .ok bufs w ∧
          callDests s.dests (fun i => moments (s.used + i)) (callsOfWrites w) = .panic) →
      Log.Step enabled s.sys .crash l → LoggerStep k text moments enabled s .crash { s with sys := l }

/-- A run and its trace. -/
inductive LoggerRun (k : Consumer) (text : Nat → Option Bytes) (moments : Nat → Moment) (enabled : Item → Bool) (s : Logger) :
    List (Log.Act Item) → Logger → Prop
  | nil : LoggerRun k text moments enabled s [] s
  | snoc {tr : List (Log.Act Item)} {t u : Logger} {a : Log.Act Item} : LoggerRun k text moments enabled s tr t →
      LoggerStep k text moments enabled t a u → LoggerRun k text moments enabled s (tr ++ [a]) u

end Httpd
