import Verif.Model.Process
import Verif.Model.Printing
/-!
# Model of what the process says in per-core mode (src/main.rs:168-192, 227-290)

`Model/Printing` has the lines of the process when its services share one runtime, `Model/Process` the threads of per-core mode without their lines. Here: both. A
failing `println!` panics. What a panicking thread writes to standard error (Rust's standard library) is a parameter; it comes in the same action as the end of the
thread. The lines of console appenders and the messages of panicking tasks of connections are left out. The lines begin after the one with the process number.
-/

namespace Httpd

/-- What per-core mode meets besides what the services meet. -/
structure CoreEnv (C K : Type) where
  env : ProcEnv C K
  prints : Prints
  /-- src/main.rs:236-238: the runtime of the thread of that service can be built -/
  runtimeOk : Str → Bool
  /-- the `{:?}` text of the error of `spawn` -/
  spawnText : Str
  /-- the message of the thread of that name when it panics -/
  panicText : Str → Str

/-- src/main.rs:231: the name of the thread of a service. -/
def threadName (p : Str × ServiceConfig) : Str := u!"httpd.service:" ++ p.2.name

/-- src/main.rs:233-248: the closure: the lines it prints and what it comes to. An error, of building the runtime or of `run`, is not printed. -/
def CoreEnv.thread {C K : Type} (x : CoreEnv C K) (p : Str × ServiceConfig) : List Str × RunEnd :=
  if x.runtimeOk p.1 then
    let r := x.env.runPrinting x.prints p
    (r.1, r.2.2)
  else ([], .err)

/-- What `main` has come to. -/
inductive MainVoice
  /-- it is in `run_per_core` or has just returned from it -/
  | going
  /-- line 288 is done -/
  | bye
  /-- `run_per_core` has returned an error -/
  | refused
  /-- the error is on standard error -/
  | reported
  | panicked
deriving DecidableEq

/-- The process: threads, those of them that have printed their line, the main thread, what is on standard output and on standard error, the exit status. -/
structure Voices where
  life : Life
  said : List Nat
  voice : MainVoice
  out : List Str
  err : List Str
  status : Option Nat
deriving DecidableEq

/-- Line 227. -/
def Voices.start : Voices := ⟨.start, [], .going, [], [], none⟩

/-- The actions. -/
inductive VoiceAct
  /-- anything that has nothing to do with what is said -/
  | life (a : LifeAct)
  | spawn
  /-- the operating system has no thread for the service -/
  | spawnFail
  /-- the name of the service is none for a thread -/
  | spawnPanic
  /-- line 288 -/
  | bye
  /-- line 288 fails -/
  | byeFail
  /-- `_g` is dropped -/
  | freeLogger
  /-- `main` has returned an error: it is written to standard error -/
  | report
  | exit
  /-- thread `i` prints its line -/
  | say (i : Nat)
  /-- thread `i` ends -/
  | ends (i : Nat)
deriving DecidableEq

/-- The actions of `Model/Process` that are none of the above. -/
def LifeAct.quiet : LifeAct → Bool
  | .spawnDone | .poll | .giveUp | .enter | .freeConfig | .take _ | .log _ | .read _ => true
  | _ => false

/-- The exit status: that of Rust's standard library. -/
def MainVoice.status : MainVoice → Option Nat
  | .bye => some 0
  | .reported => some 1
  | .panicked => some 101
  | _ => none

/-- One action. -/
inductive VoiceStep {C K : Type} (x : CoreEnv C K) (services : List (Str × ServiceConfig)) : Voices → VoiceAct → Voices → Prop
  | life (s : Voices) (a : LifeAct) (l : Life) : a.quiet = true → LifeStep services.length s.life a l → VoiceStep x services s (.life a) { s with life := l }
  /-- lines 231-249; a name with a NUL makes `spawn` panic -/
  | spawn (s : Voices) (k : Nat) (p : Str × ServiceConfig) (l : Life) : s.life.main = .spawning k → services[k]? = some p → (threadName p).contains 0 = false →
      LifeStep services.length s.life .spawn l → VoiceStep x services s .spawn { s with life := l }
  | spawnFail (s : Voices) (k : Nat) (p : Str × ServiceConfig) (l : Life) : s.life.main = .spawning k → services[k]? = some p → (threadName p).contains 0 = false →
      LifeStep services.length s.life .spawnFail l → VoiceStep x services s .spawnFail { s with life := l, voice := .refused }
  | spawnPanic (s : Voices) (k : Nat) (p : Str × ServiceConfig) (l : Life) : s.life.main = .spawning k → services[k]? = some p → (threadName p).contains 0 = true →
      LifeStep services.length s.life .spawnFail l →
      VoiceStep x services s .spawnPanic { s with life := l, voice := .panicked, err := s.err ++ [x.panicText u!"main"] }
  | bye (s : Voices) : s.life.main = .returned → s.voice = .going → x.prints.bye = true →
      VoiceStep x services s .bye { s with voice := .bye, out := s.out ++ [u!"httpd: shutdown"] }
  | byeFail (s : Voices) : s.life.main = .returned → s.voice = .going → x.prints.bye = false →
      VoiceStep x services s .byeFail { s with voice := .panicked, err := s.err ++ [x.panicText u!"main"] }
  /-- lines 289-290 -/
  | freeLogger (s : Voices) (l : Life) : s.voice ≠ .going → LifeStep services.length s.life .freeLogger l →
      VoiceStep x services s .freeLogger { s with life := l }
  | report (s : Voices) : s.life.main = .unconfigured → s.voice = .refused →
      VoiceStep x services s .report { s with voice := .reported, err := s.err ++ [u!"Error: " ++ x.spawnText] }
  | exit (s : Voices) (l : Life) : s.voice ≠ .refused → LifeStep services.length s.life .exit l →
      VoiceStep x services s .exit { s with life := l, status := s.voice.status }
  /-- line 176 -/
  | say (s : Voices) (i : Nat) (p : Str × ServiceConfig) (line : Str) : s.life.main ≠ .exited → s.life.threads[i]? = some .holding → services[i]? = some p →
      (x.thread p).1 = [line] → i ∉ s.said → VoiceStep x services s (.say i) { s with said := s.said ++ [i], out := s.out ++ [line] }
  /-- lines 238-247 -/
  | ends (s : Voices) (i : Nat) (p : Str × ServiceConfig) (l : Life) : services[i]? = some p → (x.thread p).2 ≠ .waiting → ((x.thread p).1 ≠ [] → i ∈ s.said) →
      LifeStep services.length s.life (.release i) l →
      VoiceStep x services s (.ends i) { s with life := l, err := s.err ++ if (x.thread p).2 = .panic then [x.panicText (threadName p)] else [] }

/-- A run and its trace. -/
inductive VoiceRun {C K : Type} (x : CoreEnv C K) (services : List (Str × ServiceConfig)) (s : Voices) : List VoiceAct → Voices → Prop
  | nil : VoiceRun x services s [] s
  | snoc {tr : List VoiceAct} {t u : Voices} {a : VoiceAct} : VoiceRun x services s tr t → VoiceStep x services t a u → VoiceRun x services s (tr ++ [a]) u

end Httpd
