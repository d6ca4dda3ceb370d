import Verif.Model.Main
/-!
# Model of Ctrl-C: the accept loops of src/main.rs (80-104, 117-165), the connections they spawn, and the end of `run_multi_threads`

Each round of an accept loop builds two futures, `listener.accept()` and `tokio::signal::ctrl_c()`, and `tokio::select!` polls them in a
random order until one is ready; the other one is dropped. `ctrl_c()` (tokio 1) registers a receiver when it is first polled, and installs
the process's handler for SIGINT the first time any of them does; a receiver sees the signals that arrive after it was registered and
before it was dropped. A signal that arrives while a loop has no receiver is lost for that loop.

Connections are tasks of the runtime; when `run_multi_threads` ends, the runtime is dropped (src/main.rs:225) and with it every task that
has not ended. The join set is not represented: when the last loop has ended, the function can return (`C76_all_services`).
Registering a receiver and binding are assumed to succeed.
-/

namespace Httpd

/-- An accept loop: at the start of a round without a receiver for the signal; waiting with one; waiting, the receiver has got a
signal; ended. -/
inductive LoopState
  | fresh | armed | woken | ended
deriving DecidableEq

/-- A connection: its task runs, has ended by itself, was dropped together with the runtime. -/
inductive ConnState
  | open | finished | aborted
deriving DecidableEq

/-- The process in multi-thread mode. -/
structure Proc where
  loops : List LoopState
  conns : List ConnState
  /-- tokio's handler for SIGINT is installed -/
  installed : Bool
  /-- `run_multi_threads` has returned -/
  returned : Bool
  /-- SIGINT has killed the process (no handler was installed) -/
  killed : Bool
deriving DecidableEq

/-- `n` services. -/
def Proc.start (n : Nat) : Proc := ⟨List.replicate n .fresh, [], false, false, false⟩

/-- What a signal does to a loop. -/
def LoopState.signal : LoopState → LoopState
  | .armed => .woken
  | s => s

/-- What dropping the runtime does to a connection. -/
def ConnState.drop : ConnState → ConnState
  | .open => .aborted
  | s => s

/-- The actions. -/
inductive ProcAct
  /-- loop `i` polls `ctrl_c()`, nothing is ready -/
  | arm (i : Nat)
  /-- loop `i` finds a connection ready before it finds a signal: it spawns a task and begins a new round -/
  | accept (i : Nat)
  /-- loop `i` finds the signal -/
  | stop (i : Nat)
  /-- a connection's task ends -/
  | finish (c : Nat)
  /-- the user presses Ctrl-C -/
  | sigint
  /-- `run_multi_threads` returns -/
  | ret
deriving DecidableEq

/-- The process is still there. -/
def Proc.alive (s : Proc) : Prop := s.returned = false ∧ s.killed = false

/-- One action. -/
inductive ProcStep : Proc → ProcAct → Proc → Prop
  | arm (s : Proc) (i : Nat) : s.alive → s.loops[i]? = some .fresh →
      ProcStep s (.arm i) { s with loops := s.loops.set i .armed, installed := true }
  | accept (s : Proc) (i : Nat) (l : LoopState) : s.alive → s.loops[i]? = some l → l ≠ .ended →
      ProcStep s (.accept i) { s with loops := s.loops.set i .fresh, conns := s.conns ++ [.open] }
  | stop (s : Proc) (i : Nat) : s.alive → s.loops[i]? = some .woken →
      ProcStep s (.stop i) { s with loops := s.loops.set i .ended }
  | finish (s : Proc) (c : Nat) : s.alive → s.conns[c]? = some .open →
      ProcStep s (.finish c) { s with conns := s.conns.set c .finished }
  | sigint (s : Proc) : s.alive → s.installed = true → ProcStep s .sigint { s with loops := s.loops.map .signal }
  | kill (s : Proc) : s.alive → s.installed = false → ProcStep s .sigint { s with killed := true }
  | ret (s : Proc) : s.alive → (∀ l ∈ s.loops, l = .ended) →
      ProcStep s .ret { s with returned := true, conns := s.conns.map .drop }

/-- A run and its trace. -/
inductive ProcRun : Proc → List ProcAct → Proc → Prop
  | nil (s : Proc) : ProcRun s [] s
  | snoc {s t u : Proc} {tr : List ProcAct} {a : ProcAct} : ProcRun s tr t → ProcStep t a u → ProcRun s (tr ++ [a]) u

end Httpd
