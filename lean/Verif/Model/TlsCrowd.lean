import Verif.Model.TlsAccepting
import Verif.Model.Crowd
/-!
# Model of accepting and serving with TLS (src/main.rs:109-166, src/serve.rs:12-96)

As Model/Crowd.lean, with the handshakes and the time of Model/TlsAccepting.lean: the task of a connection takes turns when its handshake is done. What arrives is
what the client sends inside TLS; it may be sent at any time.
-/

namespace Httpd

/-- The listener and the connections. -/
structure TlsCrowd where
  net : TlsAccepting
  server : Server

/-- The service has just bound its listener. -/
def TlsCrowd.start : TlsCrowd := ⟨.start, .start⟩

inductive TlsCrowdAct
  /-- at the listener, or in a handshake, or time passes -/
  | net (a : TlsAct)
  /-- on a connection -/
  | conn (i : Nat) (a : ServerAct)
deriving DecidableEq

/-- Neither a connection made nor the end of a task. -/
def TlsAct.alone : TlsAct → Bool
  | .connect _ | .finish _ => false
  | _ => true

/-- The steps. -/
inductive TlsCrowd.Step {K : Type} (limit timeout : Nat) (hs : Nat → Handshake) (c : Codec K) (setup : Nat → Setup K) : TlsCrowd → TlsCrowdAct → TlsCrowd → Prop
  /-- the kernel completes a connection -/
  | connect (s : TlsCrowd) (i : Nat) (net' : TlsAccepting) (server' : Server) : TlsStep limit timeout hs (fun _ => true) s.net (.connect i) net' →
      Server.Step c setup s.server (i, .accept) server' → Step limit timeout hs c setup s (.net (.connect i)) ⟨net', server'⟩
  /-- src/main.rs:119-155: accepting and the handshake -/
  | alone (s : TlsCrowd) (a : TlsAct) (net' : TlsAccepting) : a.alone = true → TlsStep limit timeout hs (fun _ => true) s.net a net' →
      Step limit timeout hs c setup s (.net a) { s with net := net' }
  /-- src/main.rs:138-141, src/serve.rs:31-96: the task has done everything, `serve` returns or panics, and the stream is dropped -/
  | finish (s : TlsCrowd) (i : Nat) (t : Task) (net' : TlsAccepting) : s.server.task i = some t → t.done = (t.acts c (setup i)).length →
      (serve c (setup i).lim (setup i).env t.reader).2.over = true → TlsStep limit timeout hs (fun _ => true) s.net (.finish i) net' →
      Step limit timeout hs c setup s (.net (.finish i)) { s with net := net' }
  /-- the client sends or ends its stream, or the task takes a turn: src/serve.rs:31-96 -/
  | conn (s : TlsCrowd) (i : Nat) (a : ServerAct) (server' : Server) : a ≠ .accept → (a.ofTask = true → i ∈ s.net.serving) →
      Server.Step c setup s.server (i, a) server' → Step limit timeout hs c setup s (.conn i a) { s with server := server' }

/-- Any number of steps. -/
inductive TlsCrowd.Run {K : Type} (limit timeout : Nat) (hs : Nat → Handshake) (c : Codec K) (setup : Nat → Setup K) : List TlsCrowdAct → TlsCrowd → Prop
  | nil : Run limit timeout hs c setup [] .start
  | snoc {tr : List TlsCrowdAct} {s s' : TlsCrowd} {a : TlsCrowdAct} : Run limit timeout hs c setup tr s → TlsCrowd.Step limit timeout hs c setup s a s' →
      Run limit timeout hs c setup (tr ++ [a]) s'

end Httpd
