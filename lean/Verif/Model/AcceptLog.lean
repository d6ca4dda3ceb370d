import Verif.Model.Accepting
import Verif.Model.LogDeath
/-!
# Model of the accept loop together with the logger (src/main.rs:80-105, src/logging/dispatcher.rs)

`Model/Accepting` has the accept loop without what it logs, `Model/Dispatcher` the logger. Here is their product. In a debug build a failing
`accept` is logged (src/main.rs:92-97, and 122-126 with TLS); `log` panics once the consumer thread is gone (dispatcher.rs:23). The panic ends
the task of the service: the listener is dropped, and the kernel refuses those in its queue and all who come later. The tasks of accepted
connections are tasks of their own (line 86) and go on.

The task of the service is thread `t` of `Log.Sys`. It logs nothing else: `accept_loop` has no other log call. The guard is not dropped as
long as the service runs (src/main.rs:272).
-/

namespace Httpd

/-- One service and the logger. -/
structure Listening (R : Type) where
  /-- is the service in its accept loop? -/
  looping : Bool
  net : Accepting
  log : Log.Sys R

/-- The actions. -/
inductive ListenAct (R : Type)
  /-- a client, the accept loop, or the task of a connection -/
  | net (a : AcceptAct)
  /-- the accept loop panics -/
  | died
  /-- the logger, or another thread that logs or flushes -/
  | log (a : Log.Act R)

/-- The logger with `r` as the next record of thread `t`. -/
def recordOf {R : Type} (l : Log.Sys R) (t : Nat) (r : R) : Log.Sys R := { l with progs := Log.update l.progs t [.log r] }

/-- The service has just bound its listener; `progs` are the calls of the other threads. -/
def listenStart {R : Type} (t : Nat) (progs : Nat → List (Log.Call R)) : Listening R :=
  { looping := true, net := .start, log := Log.start (Log.update progs t []) }

/-- One action. `debug` is `debug_assertions`, `r` the record about a failing `accept`. -/
inductive ListenStep {R : Type} (limit : Nat) (over : Nat → Bool) (enabled : R → Bool) (debug : Bool) (t : Nat) (r : R) :
    Listening R → ListenAct R → Listening R → Prop
  /-- Only a listener that is there completes connections. -/
  | connect (s : Listening R) (i : Nat) (n : Accepting) : s.looping = true → AcceptStep limit over s.net (.connect i) n →
      ListenStep limit over enabled debug t r s (.net (.connect i)) { s with net := n }
  /-- src/main.rs:84-91 -/
  | accept (s : Listening R) (i : Nat) (n : Accepting) : s.looping = true → AcceptStep limit over s.net (.accept i) n →
      ListenStep limit over enabled debug t r s (.net (.accept i)) { s with net := n }
  /-- src/main.rs:86-89; the task does not need the service's. -/
  | finish (s : Listening R) (i : Nat) (n : Accepting) : AcceptStep limit over s.net (.finish i) n →
      ListenStep limit over enabled debug t r s (.net (.finish i)) { s with net := n }
  /-- src/main.rs:92-97 in a release build. -/
  | quiet (s : Listening R) (n : Accepting) : s.looping = true → debug = false → AcceptStep limit over s.net .fail n →
      ListenStep limit over enabled debug t r s (.net .fail) { s with net := n }
  /-- src/main.rs:92-97 in a debug build: the record goes to the logger, or is dropped because of its level. -/
  | logged (s : Listening R) (n : Accepting) (a : Log.Act R) (l : Log.Sys R) : s.looping = true → debug = true →
      AcceptStep limit over s.net .fail n → Log.Step enabled (recordOf s.log t r) a l → a = .send t r ∨ a = .skip t r →
      ListenStep limit over enabled debug t r s (.net .fail) { s with net := n, log := l }
  /-- The same with a logger that panics: the listener is dropped, and its queue. -/
  | died (s : Listening R) (n : Accepting) (l : Log.Sys R) : s.looping = true → debug = true → AcceptStep limit over s.net .fail n →
      Log.Step enabled (recordOf s.log t r) (.panic t) l →
      ListenStep limit over enabled debug t r s .died { looping := false, net := { n with pending := [] }, log := l }
  | log (s : Listening R) (a : Log.Act R) (l : Log.Sys R) : actGuard a = false → actThread a ≠ some t → Log.Step enabled s.log a l →
      ListenStep limit over enabled debug t r s (.log a) { s with log := l }

/-- A run and its trace. -/
inductive ListenRun {R : Type} (limit : Nat) (over : Nat → Bool) (enabled : R → Bool) (debug : Bool) (t : Nat) (r : R) (s : Listening R) :
    List (ListenAct R) → Listening R → Prop
  | nil : ListenRun limit over enabled debug t r s [] s
  | snoc {tr : List (ListenAct R)} {s1 s2 : Listening R} {a : ListenAct R} : ListenRun limit over enabled debug t r s tr s1 →
      ListenStep limit over enabled debug t r s1 a s2 → ListenRun limit over enabled debug t r s (tr ++ [a]) s2

/-- What the service does in a run, without the logger. -/
def netActs {R : Type} : List (ListenAct R) → List AcceptAct
  | [] => []
  | .net a :: tr => a :: netActs tr
  | _ :: tr => netActs tr

end Httpd
