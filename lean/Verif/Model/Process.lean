import Verif.Model.Main
/-!
# Model of the end of `main` in per-core mode (src/main.rs:227-290, src/logging/dispatcher.rs:41-60)

`PerCoreStep` (Model/Main.lean) stops where `run_per_core` returns. Here the rest of `main` follows: its locals are dropped in
reverse order, first the guard `_g` of the logger (line 272; `ShutdownGuard::drop` frees the `Dispatcher` to which `log`'s global
pointer goes on pointing, dispatcher.rs:47-50, and then waits for the logging thread), then the configuration (line 271, to which the
`&'static Config` of line 273 goes on pointing); only then does the process exit. Until then the threads of the services, which nobody
has joined, go on. With `?` in line 283 the same happens when `run_per_core` fails.

A thread that is blocked in `lock.read()` while the main thread waits for the lock or holds it is one that has not yet taken a step;
`returned` is the state in which the main thread has given the lock back.
-/

namespace Httpd

/-- Where the main thread is. The first five as in `MainState`. -/
inductive Phase
  | spawning (k : Nat)
  | polling
  | waiting
  | returned
  | failed
  /-- the dispatcher of the logger is freed -/
  | unlogged
  /-- the configuration is freed, too -/
  | unconfigured
  | exited
deriving DecidableEq

/-- The process. `badLogs` counts the records sent through the freed dispatcher, `badReads` the reads of the freed configuration. -/
structure Life where
  main : Phase
  threads : List ThreadState
  badLogs : Nat
  badReads : Nat
deriving DecidableEq

/-- The start of `run_per_core`. -/
def Life.start : Life := ⟨.spawning 0, [], 0, 0⟩

/-- The logger's dispatcher has been freed. -/
def Phase.noLogger : Phase → Bool
  | .unlogged | .unconfigured | .exited => true
  | _ => false

/-- The configuration has been freed. -/
def Phase.noConfig : Phase → Bool
  | .unconfigured | .exited => true
  | _ => false

/-- The actions. -/
inductive LifeAct
  | spawn | spawnFail | spawnDone | poll | giveUp | enter
  /-- `_g` is dropped -/
  | freeLogger
  /-- the configuration is dropped -/
  | freeConfig
  | exit
  /-- thread `i` takes the read lock (src/main.rs:234) and goes on to `run` -/
  | take (i : Nat)
  /-- thread `i` ends -/
  | release (i : Nat)
  /-- thread `i`, in `run` or below it, logs -/
  | log (i : Nat)
  /-- thread `i`, in `run` or below it, reads its configuration -/
  | read (i : Nat)
deriving DecidableEq

/-- No thread holds the read lock. -/
def Life.free (s : Life) : Prop := ∀ t ∈ s.threads, t ≠ .holding

/-- One action, with `n` services. -/
inductive LifeStep (n : Nat) : Life → LifeAct → Life → Prop
  | spawn (s : Life) (k : Nat) : s.main = .spawning k → k < n →
      LifeStep n s .spawn { s with main := .spawning (k + 1), threads := s.threads ++ [.spawned] }
  | spawnFail (s : Life) (k : Nat) : s.main = .spawning k → k < n → LifeStep n s .spawnFail { s with main := .failed }
  | spawnDone (s : Life) : s.main = .spawning n → LifeStep n s .spawnDone { s with main := .polling }
  | poll (s : Life) : s.main = .polling → s.free → LifeStep n s .poll s
  | giveUp (s : Life) : s.main = .polling → ¬ s.free → LifeStep n s .giveUp { s with main := .waiting }
  | enter (s : Life) : s.main = .waiting → s.free → LifeStep n s .enter { s with main := .returned }
  | freeLogger (s : Life) : s.main = .returned ∨ s.main = .failed → LifeStep n s .freeLogger { s with main := .unlogged }
  | freeConfig (s : Life) : s.main = .unlogged → LifeStep n s .freeConfig { s with main := .unconfigured }
  | exit (s : Life) : s.main = .unconfigured → LifeStep n s .exit { s with main := .exited }
  | take (s : Life) (i : Nat) : s.main ≠ .exited → s.threads[i]? = some .spawned →
      LifeStep n s (.take i) { s with threads := s.threads.set i .holding }
  | release (s : Life) (i : Nat) : s.main ≠ .exited → s.threads[i]? = some .holding →
      LifeStep n s (.release i) { s with threads := s.threads.set i .ended }
  | log (s : Life) (i : Nat) : s.main ≠ .exited → s.threads[i]? = some .holding →
      LifeStep n s (.log i) { s with badLogs := s.badLogs + if s.main.noLogger then 1 else 0 }
  | read (s : Life) (i : Nat) : s.main ≠ .exited → s.threads[i]? = some .holding →
      LifeStep n s (.read i) { s with badReads := s.badReads + if s.main.noConfig then 1 else 0 }

/-- A run and its trace. -/
inductive LifeRun (n : Nat) : Life → List LifeAct → Life → Prop
  | nil (s : Life) : LifeRun n s [] s
  | snoc {s t u : Life} {tr : List LifeAct} {a : LifeAct} : LifeRun n s tr t → LifeStep n t a u → LifeRun n s (tr ++ [a]) u

end Httpd
