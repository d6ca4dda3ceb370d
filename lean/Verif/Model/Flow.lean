import Verif.Model.Tasks
/-!
# Model of many connections whose clients take their answers when they like (src/serve.rs:28-41, src/message.rs:511-549)

`Model/Tasks.lean` takes an answer to be written at once. Here the kernel takes from a connection only as many bytes as it has room for, `room i` at most that the
client has not taken yet; `write_to` (awaited in src/serve.rs:40) is not done before the kernel has taken the whole answer, and until then the task does nothing
else: it neither reads nor logs nor answers. There is no time limit on that: nothing in src/serve.rs or src/main.rs gives up a client that does not read.

Simplifications: the pieces in which the buffered writer hands an answer over (Model/Writer.lean) are of any length; over TLS the bytes counted are those before
encryption; the connection does not break while an answer is on its way.
-/

namespace Httpd

/-- The process, where `net.wire i` is all that the task of connection `i` has begun to write; how many bytes of it the kernel has; and how many the client has taken. -/
structure Flow where
  net : Server
  sent : Nat → Nat
  taken : Nat → Nat

/-- Before the first connection. -/
def Flow.start : Flow := ⟨Server.start, fun _ => 0, fun _ => 0⟩

/-- What the client of connection `i` has taken so far. -/
def Flow.received (s : Flow) (i : Nat) : Bytes := (s.net.wire i).take (s.taken i)

/-- What can happen on a connection. -/
inductive FlowAct
  | net (a : ServerAct)
  /-- the kernel takes some bytes of the answer -/
  | push (n : Nat)
  /-- the client takes some bytes -/
  | take (n : Nat)
deriving DecidableEq, Repr

/-- The steps; the number is that of the connection. src/serve.rs:40: while a part of an answer is still to be written the task does nothing else. -/
inductive Flow.Step {K : Type} (c : Codec K) (setup : Nat → Setup K) (room : Nat → Nat) : Flow → Nat × FlowAct → Flow → Prop
  | net (s : Flow) (i : Nat) (a : ServerAct) (n : Server) : (a.ofTask = true → s.sent i = (s.net.wire i).length) → Server.Step c setup s.net (i, a) n →
      Step c setup room s (i, .net a) { s with net := n }
  | push (s : Flow) (i n : Nat) : 0 < n → s.sent i + n ≤ (s.net.wire i).length → s.sent i + n ≤ s.taken i + room i →
      Step c setup room s (i, .push n) { s with sent := fun j => if j = i then s.sent i + n else s.sent j }
  | take (s : Flow) (i n : Nat) : 0 < n → s.taken i + n ≤ s.sent i →
      Step c setup room s (i, .take n) { s with taken := fun j => if j = i then s.taken i + n else s.taken j }

/-- Any number of steps. -/
inductive Flow.Run {K : Type} (c : Codec K) (setup : Nat → Setup K) (room : Nat → Nat) : List (Nat × FlowAct) → Flow → Prop
  | nil : Run c setup room [] Flow.start
  | snoc {tr : List (Nat × FlowAct)} {s s' : Flow} {a : Nat × FlowAct} : Run c setup room tr s → Flow.Step c setup room s a s' →
      Run c setup room (tr ++ [a]) s'

end Httpd
