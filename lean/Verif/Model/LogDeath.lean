import Verif.Model.Main
import Verif.Model.Dispatcher
/-!
# Model of multi-thread mode together with the logger (src/main.rs:203-224 and 270-290, src/logging/dispatcher.rs)

`Model/Main` has the join loop without what it logs, `Model/Dispatcher` the logger without the process. Here is their product: the tasks
of the services, the main thread, and the threads of the logger. The main thread is thread 0 of `Log.Sys`; it logs only when it joins a
service that failed (src/main.rs:212, 216). All other threads that log are on the runtime.

A panic in the join loop leaves `block_on`; on the way out of `main` the runtime is dropped, and its tasks with it, then `_g` (line 272),
whose `drop` waits (dispatcher.rs:52-57), and only then does the process end, with status 101. Cargo.toml does not set `panic = "abort"`.
On the normal way the same things happen in the same order and the status is 0. Worker threads are taken to stop when the runtime is
dropped.
-/

namespace Httpd

/-- Where the main thread is: in the join loop, on its way out of `main` (with the status the process will have), gone. -/
inductive MainAt
  | joining
  | leaving (code : Nat)
  | exited (code : Nat)
deriving DecidableEq

/-- The process: the tasks of the services, by number (none once the runtime is dropped), the main thread, and the logger. -/
structure Whole (R : Type) where
  tasks : List TaskState
  main : MainAt
  log : Log.Sys R

/-- The actions. -/
inductive WholeAct (R : Type)
  /-- the task of service `i` ends -/
  | finish (i : Nat) (o : TaskEnd)
  /-- one round of the join loop; it takes service `i` out of the set -/
  | join (i : Nat) (o : TaskEnd)
  /-- the join loop ends, and with it the runtime -/
  | ret
  /-- the guard is dropped -/
  | drop
  /-- the process ends -/
  | exit
  /-- the logger, or a thread of the runtime that logs or flushes -/
  | log (a : Log.Act R)

/-- The thread an action of the logger belongs to, if it is not the consumer or the guard. -/
def actThread {R : Type} : Log.Act R → Option Nat
  | .send t _ | .skip t _ | .panic t | .flushCall t _ | .flushRet t _ => some t
  | _ => none

/-- Is this the guard's? -/
def actGuard {R : Type} : Log.Act R → Bool
  | .drop | .dropRet => true
  | _ => false

/-- The logger with `r` as the next record of the main thread. -/
def withRecord {R : Type} (l : Log.Sys R) (r : R) : Log.Sys R := { l with progs := Log.update l.progs 0 [.log r] }

/-- src/main.rs:204-207 and 272: `n` services, and the programs of the other threads. -/
def wholeStart {R : Type} (n : Nat) (progs : Nat → List (Log.Call R)) : Whole R :=
  { tasks := List.replicate n .running, main := .joining, log := Log.start (Log.update progs 0 []) }

/-- One action. `record i o` is what src/main.rs:212 or 216 logs about service `i`. -/
inductive WholeStep {R : Type} (enabled : R → Bool) (record : Nat → TaskEnd → R) : Whole R → WholeAct R → Whole R → Prop
  | finish (s : Whole R) (i : Nat) (o : TaskEnd) : s.main = .joining → s.tasks[i]? = some .running →
      WholeStep enabled record s (.finish i o) { s with tasks := s.tasks.set i (.ended o) }
  /-- src/main.rs:218: nothing to log. -/
  | joinOk (s : Whole R) (i : Nat) : s.main = .joining → s.tasks[i]? = some (.ended .ok) →
      WholeStep enabled record s (.join i .ok) { s with tasks := s.tasks.set i (.joined .ok) }
  /-- src/main.rs:211-217: the record goes to the logger, or is dropped because of its level. -/
  | joinLog (s : Whole R) (i : Nat) (o : TaskEnd) (a : Log.Act R) (l : Log.Sys R) : s.main = .joining → s.tasks[i]? = some (.ended o) →
      o ≠ .ok → Log.Step enabled (withRecord s.log (record i o)) a l → a = .send 0 (record i o) ∨ a = .skip 0 (record i o) →
      WholeStep enabled record s (.join i o) { s with tasks := s.tasks.set i (.joined o), log := l }
  /-- The same with a logger that panics: the main thread unwinds, the runtime is dropped. -/
  | joinPanic (s : Whole R) (i : Nat) (o : TaskEnd) (l : Log.Sys R) : s.main = .joining → s.tasks[i]? = some (.ended o) → o ≠ .ok →
      Log.Step enabled (withRecord s.log (record i o)) (.panic 0) l →
      WholeStep enabled record s (.join i o) { tasks := [], main := .leaving 101, log := l }
  /-- src/main.rs:209: no task is left; 222-225. -/
  | ret (s : Whole R) : s.main = .joining → (∀ t ∈ s.tasks, ∃ o, t = .joined o) →
      WholeStep enabled record s .ret { s with tasks := [], main := .leaving 0 }
  /-- src/main.rs:290: `_g` is dropped (dispatcher.rs:46-50). -/
  | drop (s : Whole R) (c : Nat) (l : Log.Sys R) : s.main = .leaving c → Log.Step enabled s.log .drop l →
      WholeStep enabled record s .drop { s with log := l }
  /-- The drop returns (dispatcher.rs:52-57), the process ends. -/
  | exit (s : Whole R) (c : Nat) (l : Log.Sys R) : s.main = .leaving c → Log.Step enabled s.log .dropRet l →
      WholeStep enabled record s .exit { s with main := .exited c, log := l }
  /-- The consumer thread, as long as the process is there; the other threads, as long as the runtime is. -/
  | log (s : Whole R) (a : Log.Act R) (l : Log.Sys R) : (∀ c, s.main ≠ .exited c) → actGuard a = false →
      (∀ t, actThread a = some t → t ≠ 0 ∧ s.main = .joining) → Log.Step enabled s.log a l →
      WholeStep enabled record s (.log a) { s with log := l }

/-- A run and its trace. -/
inductive WholeRun {R : Type} (enabled : R → Bool) (record : Nat → TaskEnd → R) (s : Whole R) : List (WholeAct R) → Whole R → Prop
  | nil : WholeRun enabled record s [] s
  | snoc {tr : List (WholeAct R)} {t u : Whole R} {a : WholeAct R} : WholeRun enabled record s tr t → WholeStep enabled record t a u →
      WholeRun enabled record s (tr ++ [a]) u

end Httpd
