import Verif.Model.Process
import Verif.Model.LogDeath
/-!
# Model of per-core mode together with the logger (src/main.rs:227-290, src/logging/dispatcher.rs)

The product of `Model/Process`, which knows only that threads log, and `Model/Dispatcher`, which knows only threads that log. The threads of
`Log.Sys` are here the tasks of the runtimes: every service has its own thread with its own runtime (src/main.rs:236-238), on which the
task of `run` and those of its connections take turns. `owner t` is the thread task `t` is on, and `root t` says whether it is the one
that `block_on` waits for (src/main.rs:239-246: `run` and the record about its failure). A panic in that task leaves `block_on` and ends
the thread, with all its tasks, and gives back its read lock; a panic in any other task is caught by the runtime.

The main thread does not log in this mode. It drops `_g` (line 272) and then the configuration, which it can only after the first drop has
returned (dispatcher.rs:52-57).
-/

namespace Httpd

/-- The process. -/
structure Cores (R : Type) where
  life : Life
  log : Log.Sys R

/-- The actions. -/
inductive CoresAct (R : Type)
  /-- the main thread or the thread of a service, without the logger -/
  | life (a : LifeAct)
  /-- `_g` is dropped (dispatcher.rs:47-50) -/
  | free
  /-- the drop of `_g` returns (dispatcher.rs:52-57) and the configuration is dropped -/
  | freed
  /-- thread `i` logs through the dispatcher that is gone -/
  | late (i : Nat)
  /-- the consumer, or a task -/
  | log (a : Log.Act R)
  /-- the root task `t` panics in a call of the logger and its thread ends -/
  | down (t : Nat)

/-- Not the logger's, and nothing that needs the logger. -/
def LifeAct.plain : LifeAct → Bool
  | .freeLogger | .freeConfig | .log _ => false
  | _ => true

/-- src/main.rs:227 with the logger started in line 272. -/
def coresStart {R : Type} (progs : Nat → List (Log.Call R)) : Cores R := { life := .start, log := Log.start progs }

/-- One action, with `n` services. -/
inductive CoresStep {R : Type} (enabled : R → Bool) (n : Nat) (owner : Nat → Nat) (root : Nat → Bool) : Cores R → CoresAct R → Cores R → Prop
  | life (s : Cores R) (a : LifeAct) (l : Life) : a.plain = true → LifeStep n s.life a l →
      CoresStep enabled n owner root s (.life a) { s with life := l }
  /-- src/main.rs:290 or 283: `_g` goes. -/
  | free (s : Cores R) (l : Life) (g : Log.Sys R) : LifeStep n s.life .freeLogger l → Log.Step enabled s.log .drop g →
      CoresStep enabled n owner root s .free { life := l, log := g }
  | freed (s : Cores R) (l : Life) (g : Log.Sys R) : LifeStep n s.life .freeConfig l → Log.Step enabled s.log .dropRet g →
      CoresStep enabled n owner root s .freed { life := l, log := g }
  /-- What the memory of the freed dispatcher does to the rest is not in the model. -/
  | late (s : Cores R) (i : Nat) (l : Life) : s.life.main.noLogger = true → LifeStep n s.life (.log i) l →
      CoresStep enabled n owner root s (.late i) { s with life := l }
  | log (s : Cores R) (a : Log.Act R) (g : Log.Sys R) : s.life.main ≠ .exited → actGuard a = false →
      (∀ t, actThread a = some t → s.life.threads[owner t]? = some .holding) → (∀ t, a = .panic t → root t = false) →
      Log.Step enabled s.log a g → CoresStep enabled n owner root s (.log a) { s with log := g }
  | down (s : Cores R) (t : Nat) (l : Life) (g : Log.Sys R) : root t = true → LifeStep n s.life (.release (owner t)) l →
      Log.Step enabled s.log (.panic t) g → CoresStep enabled n owner root s (.down t) { life := l, log := g }

/-- A run and its trace. -/
inductive CoresRun {R : Type} (enabled : R → Bool) (n : Nat) (owner : Nat → Nat) (root : Nat → Bool) (s : Cores R) :
    List (CoresAct R) → Cores R → Prop
  | nil : CoresRun enabled n owner root s [] s
  | snoc {tr : List (CoresAct R)} {t u : Cores R} {a : CoresAct R} : CoresRun enabled n owner root s tr t →
      CoresStep enabled n owner root t a u → CoresRun enabled n owner root s (tr ++ [a]) u

/-- What the logger takes part in. -/
def logPart {R : Type} : List (CoresAct R) → List (Log.Act R)
  | [] => []
  | .free :: tr => .drop :: logPart tr
  | .freed :: tr => .dropRet :: logPart tr
  | .log a :: tr => a :: logPart tr
  | .down t :: tr => .panic t :: logPart tr
  | .life _ :: tr | .late _ :: tr => logPart tr

end Httpd
