/-!
# Model of src/logging/dispatcher.rs: logging threads, the channel, the consumer thread and the shutdown guard

A labelled transition system: one step is one action of one thread that another thread can observe. Any number of threads run
programs made of `log` and `flush` calls. The channel (`std::sync::mpsc::channel`) is a queue without bound; its only `Sender` is in
the leaked `Dispatcher`. The atomics are sequentially consistent, as in the source. Sleeping is left out: a thread that polls a flag
steps on once the flag is set.

What a record is does not matter here; `R` is the type of records. The work of the consumer on one message is one step, `write` or
`flush`, the completion of the calls of src/logging/consumer.rs. It may panic instead (`crash`).

Logging after the guard was dropped uses freed memory (dispatcher.rs:46-50 frees the logger that the `log` crate still refers to).
Such runs are not in the model: `log` and `flush` need the guard.
-/

namespace Httpd.Log

/-- A call a thread makes: `log::log!` with a record, or `log::logger().flush()`. -/
inductive Call (R : Type)
  | log (r : R)
  | flush

/-- src/logging/dispatcher.rs:6-9 `Message`, with the thread that sent it. The `Arc<AtomicBool>` of a flush is a number. -/
inductive Msg (R : Type)
  | item (t : Nat) (r : R)
  | flush (lock : Nat)

/-- Where a thread is: between calls, in the loop of dispatcher.rs:32-37, or ended by a panic. -/
inductive Phase
  | ready
  | waiting (lock : Nat)
  | panicked
deriving DecidableEq

/-- Where the consumer thread is (dispatcher.rs:87-128): at `for msg in rx`, in `consume`, in the flush of line 106, before the store of
line 107, before the store of line 123, before the flush of line 126, ended, or ended by a panic. -/
inductive Consuming (R : Type)
  | idle
  | writing (t : Nat) (r : R)
  | flushing (lock : Nat)
  | storing (lock : Nat)
  | closing
  | lastFlush
  | done
  | dead

/-- The shutdown guard: not dropped, in the loop of dispatcher.rs:52-57, or its `drop` has returned. -/
inductive Guard
  | live
  | waiting
  | returned
deriving DecidableEq

/-- The state shared by all threads. -/
structure Sys (R : Type) where
  /-- The calls each thread still has to make. -/
  progs : Nat → List (Call R)
  phases : Nat → Phase
  queue : List (Msg R)
  /-- How many flush flags were made so far; flag `n` exists if `n < nlocks`. -/
  nlocks : Nat
  locks : Nat → Bool
  consumer : Consuming R
  /-- `ShutdownGuard::signal`. -/
  signal : Bool
  guard : Guard

/-- Actions. -/
inductive Act (R : Type)
  /-- A thread sends a record. -/
  | send (t : Nat) (r : R)
  /-- The macro drops a record that is more verbose than the maximum level. -/
  | skip (t : Nat) (r : R)
  /-- A `log` or `flush` call panics because there is no receiver. -/
  | panic (t : Nat)
  /-- A thread sends a flush message. -/
  | flushCall (t : Nat) (lock : Nat)
  /-- A thread's `flush` returns. -/
  | flushRet (t : Nat) (lock : Nat)
  /-- The consumer takes a message. -/
  | recv
  /-- The consumer has handed a record to the appenders. -/
  | write (t : Nat) (r : R)
  /-- The consumer has flushed all appenders. -/
  | flush
  /-- The consumer sets the flag of a flush. -/
  | store (lock : Nat)
  /-- The consumer finds the channel empty and closed. -/
  | closed
  /-- The consumer sets the shutdown signal. -/
  | signal
  /-- The consumer panics. -/
  | crash
  /-- The guard is dropped: the logger is freed, and with it the sender. -/
  | drop
  /-- `drop` returns. -/
  | dropRet

/-- A function changed at one place. -/
def update {A : Type} (f : Nat → A) (i : Nat) (v : A) : Nat → A := fun j => if j = i then v else f j

/-- dispatcher.rs:61-133 `init`: nothing sent, the consumer thread at the start of its loop. -/
def start {R : Type} (progs : Nat → List (Call R)) : Sys R :=
  { progs := progs, phases := fun _ => .ready, queue := [], nlocks := 0, locks := fun _ => false, consumer := .idle, signal := false,
    guard := .live }

/-- One action. `enabled` says whether a record passes the maximum level set by `log::set_max_level` (dispatcher.rs:130). -/
inductive Step {R : Type} (enabled : R → Bool) : Sys R → Act R → Sys R → Prop
  /-- dispatcher.rs:20-24 `log`, with a receiver. -/
  | send (s : Sys R) (t : Nat) (r : R) (rest : List (Call R)) : s.guard = .live → s.phases t = .ready → s.progs t = .log r :: rest →
      enabled r = true → s.consumer ≠ .dead →
      Step enabled s (.send t r) { s with progs := update s.progs t rest, queue := s.queue ++ [.item t r] }
  /-- The macro of the `log` crate: a record above the maximum level is not logged. -/
  | skip (s : Sys R) (t : Nat) (r : R) (rest : List (Call R)) : s.guard = .live → s.phases t = .ready → s.progs t = .log r :: rest →
      enabled r = false → Step enabled s (.skip t r) { s with progs := update s.progs t rest }
  /-- dispatcher.rs:23 and 30: `expect` when the receiver is gone. -/
  | logPanic (s : Sys R) (t : Nat) (r : R) (rest : List (Call R)) : s.guard = .live → s.phases t = .ready →
      s.progs t = .log r :: rest → enabled r = true → s.consumer = .dead →
      Step enabled s (.panic t) { s with phases := update s.phases t .panicked }
  | flushPanic (s : Sys R) (t : Nat) (rest : List (Call R)) : s.guard = .live → s.phases t = .ready → s.progs t = .flush :: rest →
      s.consumer = .dead → Step enabled s (.panic t) { s with phases := update s.phases t .panicked }
  /-- dispatcher.rs:27-30. -/
  | flushCall (s : Sys R) (t : Nat) (rest : List (Call R)) : s.guard = .live → s.phases t = .ready → s.progs t = .flush :: rest →
      s.consumer ≠ .dead →
      Step enabled s (.flushCall t s.nlocks)
        { s with progs := update s.progs t rest, phases := update s.phases t (.waiting s.nlocks),
                 queue := s.queue ++ [.flush s.nlocks], nlocks := s.nlocks + 1 }
  /-- dispatcher.rs:32-35. -/
  | flushRet (s : Sys R) (t n : Nat) : s.phases t = .waiting n → s.locks n = true →
      Step enabled s (.flushRet t n) { s with phases := update s.phases t .ready }
  /-- dispatcher.rs:102 with a record. -/
  | recvItem (s : Sys R) (t : Nat) (r : R) (q : List (Msg R)) : s.consumer = .idle → s.queue = .item t r :: q →
      Step enabled s .recv { s with queue := q, consumer := .writing t r }
  /-- dispatcher.rs:102 with a flush message. -/
  | recvFlush (s : Sys R) (n : Nat) (q : List (Msg R)) : s.consumer = .idle → s.queue = .flush n :: q →
      Step enabled s .recv { s with queue := q, consumer := .flushing n }
  /-- dispatcher.rs:109-112. -/
  | write (s : Sys R) (t : Nat) (r : R) : s.consumer = .writing t r → Step enabled s (.write t r) { s with consumer := .idle }
  /-- dispatcher.rs:104-106. -/
  | flush (s : Sys R) (n : Nat) : s.consumer = .flushing n → Step enabled s .flush { s with consumer := .storing n }
  /-- dispatcher.rs:107. -/
  | store (s : Sys R) (n : Nat) : s.consumer = .storing n →
      Step enabled s (.store n) { s with consumer := .idle, locks := update s.locks n true }
  /-- dispatcher.rs:102: the iterator ends when the channel is empty and the sender is gone. -/
  | closed (s : Sys R) : s.consumer = .idle → s.queue = [] → s.guard ≠ .live → Step enabled s .closed { s with consumer := .closing }
  /-- dispatcher.rs:123. -/
  | signal (s : Sys R) : s.consumer = .closing → Step enabled s .signal { s with consumer := .lastFlush, signal := true }
  /-- dispatcher.rs:125-126. -/
  | lastFlush (s : Sys R) : s.consumer = .lastFlush → Step enabled s .flush { s with consumer := .done }
  /-- A panic while writing a record: the receiver is dropped and the messages with it. -/
  | crash (s : Sys R) (t : Nat) (r : R) : s.consumer = .writing t r → Step enabled s .crash { s with consumer := .dead, queue := [] }
  /-- A panic in the flush of line 106 (src/logging/consumer.rs:206: `eprintln!` panics if standard error cannot be written). A panic in
  the flush of line 126 has no effect that a thread can observe: it is a run in which that flush never comes. -/
  | crashFlush (s : Sys R) (n : Nat) : s.consumer = .flushing n → Step enabled s .crash { s with consumer := .dead, queue := [] }
  /-- dispatcher.rs:47-50. -/
  | drop (s : Sys R) : s.guard = .live → Step enabled s .drop { s with guard := .waiting }
  /-- dispatcher.rs:52-55. -/
  | dropRet (s : Sys R) : s.guard = .waiting → s.signal = true → Step enabled s .dropRet { s with guard := .returned }

/-- Runs from a state, with their actions in order. -/
inductive Run {R : Type} (enabled : R → Bool) (s : Sys R) : List (Act R) → Sys R → Prop
  | nil : Run enabled s [] s
  | snoc {tr : List (Act R)} {s1 s2 : Sys R} {a : Act R} : Run enabled s tr s1 → Step enabled s1 a s2 → Run enabled s (tr ++ [a]) s2

/-- Is this an action of the consumer thread (other than a panic)? -/
def Act.ofConsumer {R : Type} : Act R → Bool
  | .recv | .write .. | .flush | .store .. | .closed | .signal => true
  | _ => false

end Httpd.Log
