import Verif.Model.Accepting
/-!
# Model of several services that share the limit on open files (src/main.rs:80-105, 192-226, 229-252)

As Model/Accepting.lean, for all services of the process: each has its listener and its accept loop, the file descriptors are those of the process. `svc i` is the service that client `i`
connects to. What Model/Accepting.lean leaves out is left out here, too; and whether a task ends is not a matter of this model.
-/

namespace Httpd

inductive SharedAct
  /-- a client connects -/
  | connect (i : Nat)
  /-- `accept` of service `k` returns a connection and its task is spawned -/
  | accept (k i : Nat)
  /-- `accept` of service `k` fails -/
  | fail (k : Nat)
  /-- the task of a connection ends -/
  | finish (i : Nat)
deriving DecidableEq

/-- The kernel's queue of one listener; `pending` has all of them, the oldest first. -/
def Accepting.queue (svc : Nat → Nat) (s : Accepting) (k : Nat) : List Nat := s.pending.filter (fun i => svc i = k)

/-- One action. -/
inductive SharedStep (limit : Nat) (svc : Nat → Nat) : Accepting → SharedAct → Accepting → Prop
  | connect (s : Accepting) (i : Nat) : i ∉ s.pending → i ∉ s.serving → i ∉ s.gone → SharedStep limit svc s (.connect i) { s with pending := s.pending ++ [i] }
  /-- src/main.rs:82-91 -/
  | accept (s : Accepting) (k i : Nat) : (s.queue svc k).head? = some i → s.serving.length < limit →
      SharedStep limit svc s (.accept k i) { s with pending := s.pending.erase i, serving := s.serving ++ [i] }
  /-- src/main.rs:92-97: whatever the error, the loop goes round -/
  | fail (s : Accepting) (k : Nat) : s.queue svc k ≠ [] → limit ≤ s.serving.length → SharedStep limit svc s (.fail k) s
  /-- src/main.rs:86-89 -/
  | finish (s : Accepting) (i : Nat) : i ∈ s.serving → SharedStep limit svc s (.finish i) { s with serving := s.serving.erase i, gone := s.gone ++ [i] }

/-- Any number of actions. -/
inductive SharedRun (limit : Nat) (svc : Nat → Nat) : List SharedAct → Accepting → Prop
  | nil : SharedRun limit svc [] .start
  | snoc {tr : List SharedAct} {s s' : Accepting} {a : SharedAct} : SharedRun limit svc tr s → SharedStep limit svc s a s' → SharedRun limit svc (tr ++ [a]) s'

end Httpd
