import Verif.Model.Process
import Verif.Model.Exit
/-!
# Model of what the log says about services that end, in per-core mode (src/main.rs:231-250)

`Model/Process` has the threads of the services without what they do. Here: the end of the closure of line 233. An error of `run` is logged by the thread itself (lines
240-245) before it gives back the read lock; a panic unwinds out of `block_on` past that place; an error of building the runtime (line 238) is returned to the
`JoinHandle`, which line 249 throws away. The logger works until it is dropped; a record that comes later goes through the freed dispatcher and is lost, or worse
(`Model/Process` counts it).
-/

namespace Httpd

/-- What the thread of a service comes to. -/
inductive CoreEnd
  /-- line 238: no runtime -/
  | noRuntime
  /-- lines 239-246: `run` has that result -/
  | ran (t : Finished)

/-- The thread comes to an end. -/
def CoreEnd.over : CoreEnd → Bool
  | .noRuntime => true
  | .ran t => t.result ≠ .waiting

/-- Lines 240-245: what the thread logs after `run`. -/
def CoreEnd.record : CoreEnd → Option Rec
  | .noRuntime => none
  | .ran t => match t.result with
    | .err => some ⟨.error, [], b!"service serve error, " ++ t.text⟩
    | _ => none

/-- The process, the threads that are past line 245 after an error, and the records about services with the thread that logged them. -/
structure Reports where
  life : Life
  told : List Nat
  log : List (Nat × Rec)

/-- Line 227. -/
def Reports.start : Reports := ⟨.start, [], []⟩

/-- The actions. -/
inductive ReportAct
  /-- anything but the end of a thread -/
  | life (a : LifeAct)
  /-- thread `i` logs the error of `run` -/
  | tell (i : Nat)
  /-- thread `i` ends -/
  | ends (i : Nat)
deriving DecidableEq

/-- One action, with `n` services; `e i` is what thread `i` comes to. -/
inductive ReportStep (n : Nat) (e : Nat → CoreEnd) : Reports → ReportAct → Reports → Prop
  | life (s : Reports) (a : LifeAct) (l : Life) : (∀ i, a ≠ .release i) → LifeStep n s.life a l → ReportStep n e s (.life a) { s with life := l }
  /-- Line 242. -/
  | tell (s : Reports) (i : Nat) (r : Rec) (l : Life) : (e i).record = some r → i ∉ s.told → LifeStep n s.life (.log i) l →
      ReportStep n e s (.tell i) { life := l, told := i :: s.told, log := if s.life.main.noLogger then s.log else s.log ++ [(i, r)] }
  /-- Lines 238, 239 (a panic) or 247. -/
  | ends (s : Reports) (i : Nat) (l : Life) : (e i).over = true → ((e i).record ≠ none → i ∈ s.told) → LifeStep n s.life (.release i) l →
      ReportStep n e s (.ends i) { s with life := l }

/-- A run and its trace. -/
inductive ReportRun (n : Nat) (e : Nat → CoreEnd) (s : Reports) : List ReportAct → Reports → Prop
  | nil : ReportRun n e s [] s
  | snoc {tr : List ReportAct} {t u : Reports} {a : ReportAct} : ReportRun n e s tr t → ReportStep n e t a u → ReportRun n e s (tr ++ [a]) u

end Httpd
