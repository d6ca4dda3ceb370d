import Verif.Model.JoinLoop
import Verif.Model.Printing
/-!
# Model of what the process says when its services share one runtime, step by step (src/main.rs:168-192, 194-225, 283-290)

`Model/Printing` has the lines of the process as a function, with those of different services in the order of the configuration; `Model/JoinLoop` the steps of the join loop without
lines. Here: the steps with the lines, on standard output and on standard error. A failing `println!` panics. What a panicking thread writes to standard error (Rust's standard library) is
a parameter; it comes in the same action as the end of the task. The lines of console appenders and the messages of panicking tasks of connections are left out, and so is
dropping the runtime (`Model/RuntimeEnd`). The logger works. The lines begin after the one with the process number.
-/

namespace Httpd

/-- What the process meets: besides what its services meet, standard output and the texts of errors. -/
structure ChorusEnv (C K : Type) where
  env : ProcEnv C K
  prints : Prints
  /-- the `{:?}` text of the error of building the runtime -/
  runtimeText : Str
  /-- the message about the task of that service when it panics -/
  taskText : Str → Str
  /-- the message about the main thread when it panics -/
  mainText : Str

/-- src/main.rs:168-192 `run` of a service: the lines it prints and what it comes to. -/
def ChorusEnv.ran {C K : Type} (x : ChorusEnv C K) (p : Str × ServiceConfig) : List Str × RunEnd :=
  let r := x.env.runPrinting x.prints p
  (r.1, r.2.2)

/-- src/main.rs:206: the task of a service. -/
def ChorusEnv.task {C K : Type} (x : ChorusEnv C K) (p : Str × ServiceConfig) : Finished :=
  ⟨(x.ran p).2, x.env.text p.1 (x.ran p).2⟩

/-- Where the main thread is. -/
inductive ChorusMain
  /-- lines 195-201 -/
  | building
  /-- lines 203-222 -/
  | joining
  /-- `run_multi_threads` has returned `Ok` -/
  | returned
  /-- line 288 is done -/
  | bye
  /-- `run_multi_threads` has returned an error, and so has `main` -/
  | refused
  | panicked
  | exited
deriving DecidableEq

/-- The process: the join loop, the main thread, the tasks that have printed their line, what is on standard output and on standard error, the exit status. -/
structure Chorus where
  join : JoinState
  main : ChorusMain
  said : List Nat
  out : List Str
  err : List Str
  status : Option Nat
deriving DecidableEq

/-- Line 194. -/
def Chorus.start (ts : List Finished) : Chorus := ⟨.start ts, .building, [], [], [], none⟩

/-- The actions. -/
inductive ChorusAct
  | build
  | buildErr
  | buildPanic
  /-- the task of a service prints its line -/
  | say (i : Nat)
  | finish (i : Nat)
  | join (i : Nat)
  /-- `join_next` returns `None` -/
  | leave
  | bye
  | byeFail
  /-- `main` has returned an error: it is written to standard error, and the process exits -/
  | report
  | exit
deriving DecidableEq

/-- One action. The exit status is that of Rust's standard library. -/
inductive ChorusStep {C K : Type} (x : ChorusEnv C K) (services : List (Str × ServiceConfig)) : Chorus → ChorusAct → Chorus → Prop
  /-- line 201 -/
  | build (s : Chorus) : s.main = .building → x.env.runtime = .value () → ChorusStep x services s .build { s with main := .joining }
  | buildErr (s : Chorus) : s.main = .building → x.env.runtime = .error → ChorusStep x services s .buildErr { s with main := .refused }
  | buildPanic (s : Chorus) : s.main = .building → x.env.runtime = .panic →
      ChorusStep x services s .buildPanic { s with main := .panicked, err := s.err ++ [x.mainText] }
  /-- line 176 -/
  | say (s : Chorus) (i : Nat) (p : Str × ServiceConfig) (line : Str) : s.main = .joining → s.join.tasks[i]? = some .running → services[i]? = some p →
      (x.ran p).1 = [line] → i ∉ s.said → ChorusStep x services s (.say i) { s with said := s.said ++ [i], out := s.out ++ [line] }
  /-- lines 168-192: the task ends, after its line -/
  | finish (s : Chorus) (i : Nat) (p : Str × ServiceConfig) (j : JoinState) : s.main = .joining → services[i]? = some p → ((x.ran p).1 ≠ [] → i ∈ s.said) →
      JoinStep (services.map x.task) s.join (.finish i) j →
      ChorusStep x services s (.finish i) { s with join := j, err := s.err ++ if (x.ran p).2 = .panic then [x.taskText p.1] else [] }
  /-- lines 209-221 -/
  | join (s : Chorus) (i : Nat) (j : JoinState) : s.main = .joining → JoinStep (services.map x.task) s.join (.join i) j →
      ChorusStep x services s (.join i) { s with join := j }
  /-- lines 222-224 -/
  | leave (s : Chorus) (j : JoinState) : s.main = .joining → JoinStep (services.map x.task) s.join .exit j →
      ChorusStep x services s .leave { s with join := j, main := .returned }
  /-- line 288 -/
  | bye (s : Chorus) : s.main = .returned → x.prints.bye = true →
      ChorusStep x services s .bye { s with main := .bye, out := s.out ++ [u!"httpd: shutdown"] }
  | byeFail (s : Chorus) : s.main = .returned → x.prints.bye = false →
      ChorusStep x services s .byeFail { s with main := .panicked, err := s.err ++ [x.mainText] }
  | report (s : Chorus) : s.main = .refused →
      ChorusStep x services s .report { s with main := .exited, status := some 1, err := s.err ++ [u!"Error: " ++ x.runtimeText] }
  | exit (s : Chorus) (code : Nat) : s.main = .bye ∧ code = 0 ∨ s.main = .panicked ∧ code = 101 →
      ChorusStep x services s .exit { s with main := .exited, status := some code }

/-- A run and its trace. -/
inductive ChorusRun {C K : Type} (x : ChorusEnv C K) (services : List (Str × ServiceConfig)) (s : Chorus) : List ChorusAct → Chorus → Prop
  | nil : ChorusRun x services s [] s
  | snoc {tr : List ChorusAct} {t u : Chorus} {a : ChorusAct} : ChorusRun x services s tr t → ChorusStep x services t a u → ChorusRun x services s (tr ++ [a]) u

end Httpd
