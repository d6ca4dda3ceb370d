import Verif.Model.Tasks
import Verif.Model.LogDeath
import Verif.Model.AcceptLog
/-!
# Model of many connections at the same time, together with the logger (src/main.rs:60-166, src/serve.rs:12-96, src/logging/dispatcher.rs)

`Model/Tasks` has the connections, with a log that just takes records; `Model/Dispatcher` has the logger, with threads whose calls are given. Here is
their product: when the task of a connection comes to a log call, that is a call of the logger (dispatcher.rs:20-24), and the macro drops the record if its
level is above the maximum. Everything else the connections do does not touch the logger. The consumer thread, and all other threads that log or
flush, take turns with them.

Connection `i` is thread `2 * i + 1` of `Log.Sys`; the other threads have even numbers. The time and place of a record are added by the macro (src/logging/item.rs:74-93)
and are whatever they are. As in `Model/Tasks`, a connection whose log call panics is left out (C174): it makes no further step.
-/

namespace Httpd

/-- The connections and the logger. -/
structure Live where
  server : Server
  log : Log.Sys Item

/-- The thread of a connection. -/
def threadOf (i : Nat) : Nat := 2 * i + 1

/-- Before the first connection; `progs` are the calls of the other threads. -/
def Live.start (progs : Nat → List (Log.Call Item)) : Live := ⟨.start, Log.start (fun t => if t % 2 = 0 then progs t else [])⟩

/-- The actions. -/
inductive LiveAct
  /-- a client, or the task of connection `i` without the logger -/
  | conn (i : Nat) (a : ServerAct)
  /-- the task of connection `i` logs, and what the logger does thereupon -/
  | record (i : Nat) (a : Log.Act Item)
  /-- the consumer thread, or another thread -/
  | log (a : Log.Act Item)

/-- One action. -/
inductive Live.Step {K : Type} (c : Codec K) (setup : Nat → Setup K) (enabled : Item → Bool) : Live → LiveAct → Live → Prop
  /-- src/serve.rs:12-96, but for the log calls. -/
  | conn (s : Live) (i : Nat) (a : ServerAct) (v : Server) : Server.Step c setup s.server (i, a) v → v.queue = s.server.queue →
      Step c setup enabled s (.conn i a) { s with server := v }
  /-- A log call of src/serve.rs:12-96 or of the service; src/logging/item.rs:74-93, dispatcher.rs:20-24. -/
  | record (s : Live) (i : Nat) (v : Server) (r : Rec) (time file : Bytes) (line : Nat) (b : Log.Act Item) (l : Log.Sys Item) :
      Server.Step c setup s.server (i, .act) v → v.queue = s.server.queue ++ [(i, r)] →
      b = .send (threadOf i) (r.item time file line) ∨ b = .skip (threadOf i) (r.item time file line) →
      Log.Step enabled (recordOf s.log (threadOf i) (r.item time file line)) b l → Step c setup enabled s (.record i b) ⟨v, l⟩
  /-- dispatcher.rs:19-60 and 87-128, for the other threads. -/
  | log (s : Live) (a : Log.Act Item) (l : Log.Sys Item) : (∀ t, actThread a = some t → t % 2 = 0) → Log.Step enabled s.log a l →
      Step c setup enabled s (.log a) { s with log := l }

/-- A run and its trace. -/
inductive Live.Run {K : Type} (c : Codec K) (setup : Nat → Setup K) (enabled : Item → Bool) (s : Live) : List LiveAct → Live → Prop
  | nil : Run c setup enabled s [] s
  | snoc {tr : List LiveAct} {s1 s2 : Live} {a : LiveAct} : Run c setup enabled s tr s1 → Live.Step c setup enabled s1 a s2 →
      Run c setup enabled s (tr ++ [a]) s2

/-- What the logger does in a run. -/
def logActs : List LiveAct → List (Log.Act Item)
  | [] => []
  | .conn _ _ :: tr => logActs tr
  | .record _ a :: tr => a :: logActs tr
  | .log a :: tr => a :: logActs tr

end Httpd
