import Verif.Model.LiveLog
/-!
# Model of many connections at the same time, with a logger that can die (src/main.rs:87-90, 130-157, src/logging/dispatcher.rs:20-24)

`Model/LiveLog` leaves out the log calls that panic. Here they are: when the consumer thread has ended by a panic there is no receiver, and a log call whose record passes
the maximum level panics in `expect` (dispatcher.rs:23). The task that made the call ends there (`tokio::spawn` catches the panic; nobody joins the task, src/main.rs:87-90,
130-157); its stream is dropped with it. The call changes nothing in the logger.
-/

namespace Httpd

/-- The connections, the logger, and the connections whose task has panicked. -/
structure Mortal where
  live : Live
  lost : Nat → Bool

/-- Before the first connection. -/
def Mortal.start (progs : Nat → List (Log.Call Item)) : Mortal := ⟨.start progs, fun _ => false⟩

/-- The connection whose task acts. -/
def LiveAct.task : LiveAct → Option Nat
  | .conn i .fetch | .conn i .seeEnd | .conn i .act => some i
  | .record i _ => some i
  | _ => none

/-- The actions. -/
inductive MortalAct
  | live (a : LiveAct)
  /-- the task of connection `i` panics -/
  | lost (i : Nat)

/-- One action. -/
inductive Mortal.Step {K : Type} (c : Codec K) (setup : Nat → Setup K) (enabled : Item → Bool) : Mortal → MortalAct → Mortal → Prop
  /-- As in `Model/LiveLog`; a task that has panicked does nothing. -/
  | live (s : Mortal) (a : LiveAct) (l : Live) : (∀ i, a.task = some i → s.lost i = false) → Live.Step c setup enabled s.live a l →
      Step c setup enabled s (.live a) { s with live := l }
  /-- dispatcher.rs:23 -/
  | lost (s : Mortal) (i : Nat) (t : Task) (r : Rec) (time file : Bytes) (line : Nat) : s.lost i = false → s.live.server.task i = some t →
      (t.acts c (setup i))[t.done]? = some (.log r) → enabled (r.item time file line) = true → s.live.log.consumer = .dead → s.live.log.guard = .live →
      Step c setup enabled s (.lost i) { s with lost := Log.update s.lost i true }

/-- A run and its trace. -/
inductive Mortal.Run {K : Type} (c : Codec K) (setup : Nat → Setup K) (enabled : Item → Bool) (s : Mortal) : List MortalAct → Mortal → Prop
  | nil : Run c setup enabled s [] s
  | snoc {tr : List MortalAct} {s1 s2 : Mortal} {a : MortalAct} : Run c setup enabled s tr s1 → Mortal.Step c setup enabled s1 a s2 →
      Run c setup enabled s (tr ++ [a]) s2

/-- What the connections and the logger do in a run. -/
def liveActs : List MortalAct → List LiveAct
  | [] => []
  | .live a :: tr => a :: liveActs tr
  | .lost _ :: tr => liveActs tr

end Httpd
