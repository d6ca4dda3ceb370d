import Verif.Model.Accepting
/-!
# Model of accepting with TLS, a limit on open files and time (src/main.rs:109-166)

As Model/Accepting.lean, but a connection that was accepted is first in the TLS handshake, in a task of its own, for at most the configured
time (lines 130-133). Time is a number of nanoseconds. It passes only when nothing is to be done at once: an `accept` that can succeed, a
handshake that is complete, or a time limit that is reached. So the delays of the machine and the resolution of tokio's timer, one
millisecond, are left out; besides that, what Model/Accepting.lean leaves out.
-/

namespace Httpd

/-- The listener and the connections, by their numbers. -/
structure TlsAccepting where
  now : Nat
  /-- completed by the kernel, not accepted yet; the oldest first -/
  pending : List Nat
  /-- accepted at the time given, in the handshake -/
  shaking : List (Nat × Nat)
  /-- past the handshake, the task has not ended -/
  serving : List Nat
  /-- the task has ended -/
  gone : List Nat

def TlsAccepting.start : TlsAccepting := ⟨0, [], [], [], []⟩

/-- The descriptors in use. -/
def TlsAccepting.used (s : TlsAccepting) : Nat := s.shaking.length + s.serving.length

inductive TlsAct
  /-- a client connects -/
  | connect (i : Nat)
  /-- `accept` returns a connection and its task is spawned -/
  | accept (i : Nat)
  /-- `accept` fails -/
  | fail
  /-- the handshake is done, `serve` is called -/
  | shook (i : Nat)
  /-- the handshake has failed -/
  | refused (i : Nat)
  /-- the time for the handshake is over -/
  | expired (i : Nat)
  /-- the task of a connection ends -/
  | finish (i : Nat)
  /-- time passes -/
  | tick
deriving DecidableEq

/-- How long a connection is in the handshake: src/main.rs:130, `tokio::time::timeout`. -/
def Handshake.lasts (timeout : Nat) (h : Handshake) : Nat :=
  match h.time with
  | none => timeout
  | some d => min d timeout

/-- One action. `hs i` is the handshake of connection `i`, `over i` says whether its task ends after that. -/
inductive TlsStep (limit timeout : Nat) (hs : Nat → Handshake) (over : Nat → Bool) : TlsAccepting → TlsAct → TlsAccepting → Prop
  | connect (s : TlsAccepting) (i : Nat) : i ∉ s.pending → i ∉ s.shaking.map (·.1) → i ∉ s.serving → i ∉ s.gone →
      TlsStep limit timeout hs over s (.connect i) { s with pending := s.pending ++ [i] }
  /-- src/main.rs:119-129 -/
  | accept (s : TlsAccepting) (i : Nat) (rest : List Nat) : s.pending = i :: rest → s.used < limit →
      TlsStep limit timeout hs over s (.accept i) { s with pending := rest, shaking := s.shaking ++ [(i, s.now)] }
  /-- src/main.rs:121-126 -/
  | fail (s : TlsAccepting) : s.pending ≠ [] → limit ≤ s.used → TlsStep limit timeout hs over s .fail s
  /-- src/main.rs:136-141 -/
  | shook (s : TlsAccepting) (i t d : Nat) : (i, t) ∈ s.shaking → (hs i).time = some d → d ≤ timeout → (hs i).ok = true → s.now = t + d →
      TlsStep limit timeout hs over s (.shook i) { s with shaking := s.shaking.erase (i, t), serving := s.serving ++ [i] }
  /-- src/main.rs:142-147 -/
  | refused (s : TlsAccepting) (i t d : Nat) : (i, t) ∈ s.shaking → (hs i).time = some d → d ≤ timeout → (hs i).ok = false → s.now = t + d →
      TlsStep limit timeout hs over s (.refused i) { s with shaking := s.shaking.erase (i, t), gone := s.gone ++ [i] }
  /-- src/main.rs:150-155 -/
  | expired (s : TlsAccepting) (i t : Nat) : (i, t) ∈ s.shaking → (∀ d, (hs i).time = some d → timeout < d) → s.now = t + timeout →
      TlsStep limit timeout hs over s (.expired i) { s with shaking := s.shaking.erase (i, t), gone := s.gone ++ [i] }
  /-- src/main.rs:129: the stream is dropped when the task is over -/
  | finish (s : TlsAccepting) (i : Nat) : i ∈ s.serving → over i = true →
      TlsStep limit timeout hs over s (.finish i) { s with serving := s.serving.erase i, gone := s.gone ++ [i] }
  | tick (s : TlsAccepting) : (s.pending = [] ∨ limit ≤ s.used) → (∀ p ∈ s.shaking, s.now < p.2 + (hs p.1).lasts timeout) →
      TlsStep limit timeout hs over s .tick { s with now := s.now + 1 }

/-- Runs, with their actions in order. -/
inductive TlsRun (limit timeout : Nat) (hs : Nat → Handshake) (over : Nat → Bool) (s : TlsAccepting) : List TlsAct → TlsAccepting → Prop
  | nil : TlsRun limit timeout hs over s [] s
  | snoc {tr : List TlsAct} {s1 s2 : TlsAccepting} {a : TlsAct} : TlsRun limit timeout hs over s tr s1 →
      TlsStep limit timeout hs over s1 a s2 → TlsRun limit timeout hs over s (tr ++ [a]) s2

/-- What `tokio::select!` yields in a run (Model/Main.lean). -/
def tlsEvents (hs : Nat → Handshake) : List TlsAct → List AcceptEvent
  | [] => []
  | .accept i :: tr => .conn i (hs i) :: tlsEvents hs tr
  | .fail :: tr => .acceptErr :: tlsEvents hs tr
  | _ :: tr => tlsEvents hs tr

end Httpd
