import Verif.Base.Bytes
/-!
# Model of src/logging/console_appender.rs: what appears on standard output

Every console appender has its own `tokio::io::Stdout` (console_appender.rs:41), and all of them end in the one `std::io::Stdout` of
the process. As documented for tokio 1, a `tokio::io::Stdout` copies at most 2 MiB of what it is given and lets a blocking thread
write it with `write_all`; it takes nothing more until that has been done. The blocking threads of different appenders run at the same
time (dispatcher.rs:88-89 allows one for every appender), so what is in flight is written in any order. `std::io::Stdout` is locked for
the time of a `write_all`; below the lock is a `LineWriter` with 1024 bytes.

A transition system: one step is the consumer thread handing something to an appender, or a blocking thread finishing. Writes to the
terminal (or whatever standard output is) succeed. Only console appenders are in the model, numbered in any way.
-/

namespace Httpd.Console

/-- `std::io::Stdout`: what has left the process, and what `LineWriter` holds back. -/
structure Out where
  shown : Bytes
  held : Bytes
deriving DecidableEq

/-- The capacity of the `LineWriter` of standard output. -/
def lineCap : Nat := 1024

/-- `BufWriter::write_all` of std: make room if there is not enough, then keep the bytes, or write them if they fill the buffer. -/
def bufferTail (o : Out) (t : Bytes) : Out :=
  let o := if lineCap < o.held.length + t.length then ⟨o.shown ++ o.held, []⟩ else o
  if lineCap ≤ t.length then ⟨o.shown ++ o.held ++ t, []⟩ else ⟨o.shown, o.held ++ t⟩

/-- `LineWriter::write_all`: everything up to the last line feed is written, after what was held back; the rest is buffered. -/
def lineWrite (o : Out) (b : Bytes) : Out :=
  let lines := (b.reverse.dropWhile (· != 10)).reverse
  let tail := (b.reverse.takeWhile (· != 10)).reverse
  if lines.isEmpty then bufferTail o tail else bufferTail ⟨o.shown ++ o.held ++ lines, []⟩ tail

/-- `LineWriter::flush`. -/
def lineFlush (o : Out) : Out := ⟨o.shown ++ o.held, []⟩

/-- What a blocking thread does for a `tokio::io::Stdout`. -/
inductive Job
  | write (b : Bytes)
  | flush
deriving DecidableEq

/-- The most a `tokio::io::Stdout` takes at once: 2 MiB. -/
def maxChunk : Nat := 2097152

/-- What the consumer thread asks of an appender: console_appender.rs:14-16 `writeall`, 18-20 `flush`. -/
inductive Call
  | write (i : Nat) (b : Bytes)
  | flush (i : Nat)
deriving DecidableEq

/-- The calls still to be made (the first one may be under way), what is in flight per appender, whether an appender has been written
to since its last flush, and standard output. -/
structure State where
  todo : List Call
  busy : Nat → Option Job
  needFlush : Nat → Bool
  out : Out

/-- Change one value of a function. -/
def upd {α : Type} (f : Nat → α) (i : Nat) (a : α) : Nat → α := fun j => if j = i then a else f j

/-- The start: nothing written. -/
def State.init (calls : List Call) : State := ⟨calls, fun _ => none, fun _ => false, ⟨[], []⟩⟩

/-- One step. -/
inductive Step : State → State → Prop
  /-- `write_all` has nothing left to write. -/
  | written {s : State} {i : Nat} {rest : List Call} (h : s.todo = .write i [] :: rest) : Step s { s with todo := rest }
  /-- `poll_write` of an idle `Stdout`: at most 2 MiB are copied and handed to a blocking thread. -/
  | hand {s : State} {i : Nat} {b : Bytes} {rest : List Call} (h : s.todo = .write i b :: rest) (hb : b ≠ [])
      (hi : s.busy i = none) :
      Step s ⟨.write i (b.drop maxChunk) :: rest, upd s.busy i (some (.write (b.take maxChunk))), upd s.needFlush i true, s.out⟩
  /-- `poll_flush` of an idle `Stdout` that has been written to. -/
  | handFlush {s : State} {i : Nat} {rest : List Call} (h : s.todo = .flush i :: rest) (hi : s.busy i = none)
      (hn : s.needFlush i = true) : Step s ⟨s.todo, upd s.busy i (some .flush), upd s.needFlush i false, s.out⟩
  /-- `poll_flush` returns. -/
  | flushed {s : State} {i : Nat} {rest : List Call} (h : s.todo = .flush i :: rest) (hi : s.busy i = none)
      (hn : s.needFlush i = false) : Step s { s with todo := rest }
  /-- A blocking thread has written. -/
  | wrote {s : State} {i : Nat} {b : Bytes} (h : s.busy i = some (.write b)) :
      Step s ⟨s.todo, upd s.busy i none, s.needFlush, lineWrite s.out b⟩
  /-- A blocking thread has flushed. -/
  | didFlush {s : State} {i : Nat} (h : s.busy i = some .flush) :
      Step s ⟨s.todo, upd s.busy i none, s.needFlush, lineFlush s.out⟩

/-- Any number of steps. -/
inductive Run : State → State → Prop
  | refl (s : State) : Run s s
  | snoc {s t u : State} : Run s t → Step t u → Run s u

end Httpd.Console
