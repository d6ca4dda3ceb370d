import Verif.Model.Accepting
import Verif.Model.Tasks
/-!
# Model of accepting and serving together (src/main.rs:80-105, src/serve.rs:12-96)

Model/Tasks.lean has the tasks of all connections, but every connection has its task at once; Model/Accepting.lean has the queue at the listener and
the limit on open files, but the tasks just end or do not. Here both happen together: a client connects and may send at once, and end its stream,
while it is in the queue, since the kernel takes what it sends; its task takes turns from the moment it is accepted to the moment it ends, and only then the descriptor is free again.

The process has one service, without TLS. What the two models leave out is left out here, too.
-/

namespace Httpd

/-- The listener and the connections. A connection that has been made has its place in `server`, but its task starts when it is accepted. -/
structure Crowd where
  net : Accepting
  server : Server

/-- The service has just bound its listener. -/
def Crowd.start : Crowd := ⟨.start, .start⟩

inductive CrowdAct
  /-- at the listener -/
  | net (a : AcceptAct)
  /-- on a connection -/
  | conn (i : Nat) (a : ServerAct)
deriving DecidableEq

/-- The steps. -/
inductive Crowd.Step {K : Type} (limit : Nat) (c : Codec K) (setup : Nat → Setup K) : Crowd → CrowdAct → Crowd → Prop
  /-- the kernel completes a connection -/
  | connect (s : Crowd) (i : Nat) (net' : Accepting) (server' : Server) : AcceptStep limit (fun _ => true) s.net (.connect i) net' →
      Server.Step c setup s.server (i, .accept) server' → Step limit c setup s (.net (.connect i)) ⟨net', server'⟩
  /-- src/main.rs:82-91: the task is spawned -/
  | accept (s : Crowd) (i : Nat) (net' : Accepting) : AcceptStep limit (fun _ => true) s.net (.accept i) net' →
      Step limit c setup s (.net (.accept i)) { s with net := net' }
  /-- src/main.rs:92-97 -/
  | fail (s : Crowd) (net' : Accepting) : AcceptStep limit (fun _ => true) s.net .fail net' → Step limit c setup s (.net .fail) { s with net := net' }
  /-- src/main.rs:87-90, src/serve.rs:31-96: the task has done everything, `serve` returns or panics, and the stream is dropped -/
  | finish (s : Crowd) (i : Nat) (t : Task) (net' : Accepting) : s.server.task i = some t → t.done = (t.acts c (setup i)).length →
      (serve c (setup i).lim (setup i).env t.reader).2.over = true → AcceptStep limit (fun _ => true) s.net (.finish i) net' →
      Step limit c setup s (.net (.finish i)) { s with net := net' }
  /-- the client sends or ends its stream, or the task takes a turn: src/serve.rs:31-96 -/
  | conn (s : Crowd) (i : Nat) (a : ServerAct) (server' : Server) : a ≠ .accept → (a.ofTask = true → i ∈ s.net.serving) →
      Server.Step c setup s.server (i, a) server' → Step limit c setup s (.conn i a) { s with server := server' }

/-- Any number of steps. -/
inductive Crowd.Run {K : Type} (limit : Nat) (c : Codec K) (setup : Nat → Setup K) : List CrowdAct → Crowd → Prop
  | nil : Run limit c setup [] .start
  | snoc {tr : List CrowdAct} {s s' : Crowd} {a : CrowdAct} : Run limit c setup tr s → Crowd.Step limit c setup s a s' → Run limit c setup (tr ++ [a]) s'

end Httpd
