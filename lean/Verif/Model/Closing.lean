import Verif.Model.Serve
import Verif.Model.Accepting
/-!
# Model of one connection with the kernels at both ends: what is lost when the server closes it (src/main.rs:86-89, src/serve.rs:12-96)

The task of a connection drops the stream when `serve` returns or panics: `stream` is a local variable of the task (src/main.rs:85-89), and
nothing calls `shutdown` on it or reads what has arrived in the meantime. What the kernel then does is an assumption about TCP (RFC 9112
section 9.6, RFC 1122 section 4.2.2.13): a socket closed while bytes that arrived are not read sends a reset, one closed otherwise sends its end of
stream and answers later bytes with a reset; a reset may take away from the client whatever it has not read by then. Bytes the client has read it
keeps. Here a reset takes away all the rest: the model is about what can happen.

Simplifications: a client that closes its own end is left out; the responses are long in the hands of the kernel when the next read of the socket
begins (every write of src/serve.rs is awaited before); a read of the socket takes one segment.
-/

namespace Httpd

/-- The connection from the kernels' point of view. -/
inductive LinkPhase
  | opened
  /-- the server has closed, with nothing left unread -/
  | fin
  /-- a reset has reached the client -/
  | reset
deriving DecidableEq, Repr

/-- One connection: the segments that have arrived at the server's kernel, how many of them the server has read (the `BufReader` of
src/serve.rs:29), how many bytes of the answers the client has read, and the phase. -/
structure Link where
  arrived : List Seg
  fetched : Nat
  got : Nat
  phase : LinkPhase
deriving DecidableEq, Repr

/-- A new connection. -/
def Link.new : Link := ⟨[], 0, 0, .opened⟩

/-- What the server has done when it has read the first `n` of these segments and no further one is there (src/serve.rs:12-96). -/
def serverAfter {K : Type} (c : Codec K) (lim : HttpLimits) (env : Nat → Env K) (segs : List Seg) (n : Nat) : List (Exchange K) × Ending :=
  serve c lim env ⟨[], segs.take n, .silent⟩

/-- All the bytes the server has written after the first `n` segments. -/
def writtenAfter {K : Type} (c : Codec K) (lim : HttpLimits) (env : Nat → Env K) (segs : List Seg) (n : Nat) : Bytes :=
  ((serverAfter c lim env segs n).1.map (·.written)).flatten

/-- What can happen next on a connection. -/
inductive LinkAct
  | send (s : Seg)
  | fetch
  | read (k : Nat)
  | close

/-- The steps. The client sends a segment; the server reads one when it waits for one (src/message.rs: the reads of the `BufReader`); the client
reads some of the bytes written; the server's task ends and drops the stream (src/main.rs:87-89), whatever has arrived. -/
inductive Link.Step {K : Type} (c : Codec K) (lim : HttpLimits) (env : Nat → Env K) : Link → LinkAct → Link → Prop
  | send (l : Link) (s : Seg) : l.phase = .opened → Step c lim env l (.send s) { l with arrived := l.arrived ++ [s] }
  | sendLate (l : Link) (s : Seg) : l.phase = .fin → Step c lim env l (.send s) { l with phase := .reset }
  | fetch (l : Link) : l.phase = .opened → (serverAfter c lim env l.arrived l.fetched).2 = .waiting → l.fetched < l.arrived.length →
      Step c lim env l .fetch { l with fetched := l.fetched + 1 }
  | read (l : Link) (k : Nat) : l.phase ≠ .reset → l.got + k ≤ (writtenAfter c lim env l.arrived l.fetched).length →
      Step c lim env l (.read k) { l with got := l.got + k }
  | close (l : Link) : l.phase = .opened → (serverAfter c lim env l.arrived l.fetched).2.over = true →
      Step c lim env l .close { l with phase := if l.fetched < l.arrived.length then .reset else .fin }

/-- Any number of steps. -/
inductive Link.Steps {K : Type} (c : Codec K) (lim : HttpLimits) (env : Nat → Env K) : Link → Link → Prop
  | refl (l : Link) : Steps c lim env l l
  | snoc {l l1 l2 : Link} {a : LinkAct} : Steps c lim env l l1 → Link.Step c lim env l1 a l2 → Steps c lim env l l2

end Httpd
