import Verif.Model.ConnLog
import Verif.Model.System
/-!
# Model of many connections at the same time (src/main.rs:60-166, src/serve.rs:12-96)

Every accepted connection is a task of its own (`tokio::spawn`, src/main.rs:87-90 and 130-157). The tasks, of all services of the process, take turns
in any order; each of them reads its own stream, writes to its own stream, and hands records to the log, which is the only thing they share that
changes: a service is used through `&self` and holds nothing but its configuration (src/services/helloworld.rs:10, src/services/fs.rs:7-9).

A task does what `serveActs` says for the bytes that it has read so far, one act after the other; only then it reads again, if it waits for bytes
(the calls in src/serve.rs:35-90 are awaited one after the other). Handing a record to the log is a `send` on an unbounded channel
(src/logging/dispatcher.rs:19-23), which does not wait.

Simplifications: a read of the socket takes one segment; an answer is one act; the log is alive (what happens otherwise is C174) and
takes records of every level; accepting is not
in here (C180, C188).
-/

namespace Httpd

/-- What a connection brings along: the limits of its service, what it meets outside, and what it logs. -/
structure Setup (K : Type) where
  lim : HttpLimits
  env : Nat → Env K
  log : LogEnv K

/-- src/main.rs:178-189 and src/serve.rs:27-30: what a connection of the service `s` brings along, if its client takes what it is sent. The buffers are taken to
be allocated. -/
structure Setup.Serves {K : Type} (x : Setup K) (s : ServiceConfig) : Prop where
  lim : x.lim = s.http.limits
  env : ∀ j, (x.env j).http = s.service.kind.http ∧ (x.env j).write = .ok

/-- A connection: the segments that have arrived, how the client ended the stream (`silent`: it did not), how many segments the task has read,
whether it has seen the end, and how many acts it has performed. -/
structure Task where
  arrived : List Seg
  fin : StreamEnd
  fetched : Nat
  sawEnd : Bool
  done : Nat
deriving DecidableEq, Repr

/-- A connection just accepted. -/
def Task.new : Task := ⟨[], .silent, 0, false, 0⟩

/-- What the task has read so far. -/
def Task.reader (t : Task) : Reader := ⟨[], t.arrived.take t.fetched, if t.sawEnd then t.fin else .silent⟩

/-- src/serve.rs:12-96: what the task does on account of that. -/
def Task.acts {K : Type} (c : Codec K) (x : Setup K) (t : Task) : List ConnAct := serveActs c x.lim x.env x.log t.reader

/-- The task has done everything it can do and waits for the client. -/
def Task.waits {K : Type} (c : Codec K) (x : Setup K) (t : Task) : Prop :=
  t.done = (t.acts c x).length ∧ (serve c x.lim x.env t.reader).2 = .waiting

/-- The process: the connections by number, the channel of the log (everything ever sent, with the number of the sender), and what was written to
each client. -/
structure Server where
  task : Nat → Option Task
  queue : List (Nat × Rec)
  wire : Nat → Bytes

/-- Before the first connection. -/
def Server.start : Server := ⟨fun _ => none, [], fun _ => []⟩

/-- Another state for connection `i`. -/
def Server.put (s : Server) (i : Nat) (t : Task) : Server := { s with task := fun j => if j = i then some t else s.task j }

/-- What can happen, each time on one connection. -/
inductive ServerAct
  | accept
  /-- the client sends a segment -/
  | send (g : Seg)
  /-- the client ends the stream -/
  | finish (e : StreamEnd)
  /-- the task reads a segment -/
  | fetch
  /-- the task is told that the stream has ended -/
  | seeEnd
  /-- the task performs its next act -/
  | act
deriving DecidableEq, Repr

/-- What the task of a connection does, not its client (src/serve.rs:31-96). -/
def ServerAct.ofTask : ServerAct → Bool
  | .fetch | .seeEnd | .act => true
  | _ => false

/-- The steps; the number is that of the connection. -/
inductive Server.Step {K : Type} (c : Codec K) (setup : Nat → Setup K) : Server → Nat × ServerAct → Server → Prop
  | accept (s : Server) (i : Nat) : s.task i = none → Step c setup s (i, .accept) (s.put i Task.new)
  | send (s : Server) (i : Nat) (t : Task) (g : Seg) : s.task i = some t → t.fin = .silent →
      Step c setup s (i, .send g) (s.put i { t with arrived := t.arrived ++ [g] })
  | finish (s : Server) (i : Nat) (t : Task) (e : StreamEnd) : s.task i = some t → t.fin = .silent → e ≠ .silent →
      Step c setup s (i, .finish e) (s.put i { t with fin := e })
  | fetch (s : Server) (i : Nat) (t : Task) : s.task i = some t → t.waits c (setup i) → t.fetched < t.arrived.length →
      Step c setup s (i, .fetch) (s.put i { t with fetched := t.fetched + 1 })
  | seeEnd (s : Server) (i : Nat) (t : Task) : s.task i = some t → t.waits c (setup i) → t.fetched = t.arrived.length → t.fin ≠ .silent →
      t.sawEnd = false → Step c setup s (i, .seeEnd) (s.put i { t with sawEnd := true })
  | log (s : Server) (i : Nat) (t : Task) (r : Rec) : s.task i = some t → (t.acts c (setup i))[t.done]? = some (.log r) →
      Step c setup s (i, .act) { s.put i { t with done := t.done + 1 } with queue := s.queue ++ [(i, r)] }
  | answer (s : Server) (i : Nat) (t : Task) (b : Bytes) : s.task i = some t → (t.acts c (setup i))[t.done]? = some (.answer b) →
      Step c setup s (i, .act) { s.put i { t with done := t.done + 1 } with wire := fun j => if j = i then s.wire j ++ b else s.wire j }

/-- Any number of steps. -/
inductive Server.Run {K : Type} (c : Codec K) (setup : Nat → Setup K) : List (Nat × ServerAct) → Server → Prop
  | nil : Run c setup [] Server.start
  | snoc {tr : List (Nat × ServerAct)} {s s' : Server} {a : Nat × ServerAct} : Run c setup tr s → Server.Step c setup s a s' →
      Run c setup (tr ++ [a]) s'

end Httpd
