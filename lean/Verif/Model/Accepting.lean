import Verif.Model.System
import Verif.Model.ConnLog
/-!
# Model of accepting with a limit on open files (src/main.rs:80-105)

Model/Main.lean takes the results of `listener.accept()` as given. Here they come from the kernel: it completes connections and queues them
at the listener; `accept` takes the first of the queue and needs a free file descriptor for it. With none free the call fails at once
(`EMFILE`), the queue stays as it is, and so does the readiness of the listener, so that the next call fails at once, too. A descriptor
is free again when the task of a connection has ended and dropped its stream.

`limit` is the number of descriptors left for connections. Left out: the bound on the length of the kernel's queue, other errors of `accept`,
Ctrl-C (Model/Shutdown.lean), clients that give up while they are in the queue, and TLS (src/main.rs:109-166 accepts in the same way; a
handshake that does not end is given up after the timeout, Model/Main.lean).
-/

namespace Httpd

/-- Does the task of a connection end with this, so that src/main.rs:86-89 drops the stream? A WebSocket is dropped at once (src/ws.rs:3-10), HTTP/2
is a panic (src/http2.rs:10). -/
def Ending.over : Ending → Bool
  | .waiting | .stalled | .hang | .outOfFuel => false
  | _ => true

/-- The listener and the connections, by their numbers. -/
structure Accepting where
  /-- completed by the kernel, not accepted yet; the oldest first -/
  pending : List Nat
  /-- accepted, the task has not ended -/
  serving : List Nat
  /-- the task has ended -/
  gone : List Nat
deriving DecidableEq

/-- The service has just bound its listener. -/
def Accepting.start : Accepting := ⟨[], [], []⟩

inductive AcceptAct
  /-- a client connects -/
  | connect (i : Nat)
  /-- `accept` returns a connection and its task is spawned -/
  | accept (i : Nat)
  /-- `accept` fails -/
  | fail
  /-- the task of a connection ends -/
  | finish (i : Nat)
deriving DecidableEq

/-- One action. `over i` says whether the task of connection `i` ends. -/
inductive AcceptStep (limit : Nat) (over : Nat → Bool) : Accepting → AcceptAct → Accepting → Prop
  | connect (s : Accepting) (i : Nat) : i ∉ s.pending → i ∉ s.serving → i ∉ s.gone →
      AcceptStep limit over s (.connect i) { s with pending := s.pending ++ [i] }
  /-- src/main.rs:82-91 -/
  | accept (s : Accepting) (i : Nat) (rest : List Nat) : s.pending = i :: rest → s.serving.length < limit →
      AcceptStep limit over s (.accept i) { s with pending := rest, serving := s.serving ++ [i] }
  /-- src/main.rs:92-97: whatever the error, the loop goes round -/
  | fail (s : Accepting) : s.pending ≠ [] → limit ≤ s.serving.length → AcceptStep limit over s .fail s
  /-- src/main.rs:86-89 -/
  | finish (s : Accepting) (i : Nat) : i ∈ s.serving → over i = true →
      AcceptStep limit over s (.finish i) { s with serving := s.serving.erase i, gone := s.gone ++ [i] }

/-- Runs, with their actions in order. -/
inductive AcceptRun (limit : Nat) (over : Nat → Bool) (s : Accepting) : List AcceptAct → Accepting → Prop
  | nil : AcceptRun limit over s [] s
  | snoc {tr : List AcceptAct} {s1 s2 : Accepting} {a : AcceptAct} : AcceptRun limit over s tr s1 → AcceptStep limit over s1 a s2 →
      AcceptRun limit over s (tr ++ [a]) s2

/-- What `tokio::select!` yields in a run (Model/Main.lean). Without TLS there is no handshake. -/
def acceptEvents : List AcceptAct → List AcceptEvent
  | [] => []
  | .accept i :: tr => .conn i ⟨none, false⟩ :: acceptEvents tr
  | .fail :: tr => .acceptErr :: acceptEvents tr
  | .connect _ :: tr => acceptEvents tr
  | .finish _ :: tr => acceptEvents tr

/-- Does the task of connection `i` end? By what happens on it, Model/System.lean; without TLS. -/
def ServiceConfig.over {C K : Type} (x : World C K) (s : ServiceConfig) (i : Nat) : Bool :=
  (s.connection x ⟨i, false, true⟩).ending.over

/-- src/main.rs:92-97: the records of the accept loop; `err` is the text of the error. -/
def acceptLog (debug : Bool) (err : Bytes) : List AcceptAct → List Rec
  | [] => []
  | .fail :: tr => (if debug then [⟨.trace, [], b!"accept failed, " ++ err⟩] else []) ++ acceptLog debug err tr
  | _ :: tr => acceptLog debug err tr

end Httpd
