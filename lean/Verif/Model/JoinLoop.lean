import Verif.Model.Exit
/-!
# Model of the join loop, step by step, with its records (src/main.rs:203-224)

`Model/Main` has the steps of the loop (`MultiStep`), `Model/Exit` its records as a function of the order in which the tasks end
(`mainExit`). Here: the steps with their records, to compare the two. What each task comes to is given (`Finished`); when it does is not,
nor which of the tasks that have ended `join_next` returns first. The logger works (a logger that panics is in `Model/LogDeath`).
-/

namespace Httpd

/-- How a task that ends ends; `none`: it never does. -/
def RunEnd.taskEnd : RunEnd → Option TaskEnd
  | .waiting => none
  | .ok => some .ok
  | .err => some .err
  | .panic => some .panic

/-- What happens: a task ends, `join_next` returns it, `join_next` returns `None`. -/
inductive JoinAct
  | finish (i : Nat)
  | join (i : Nat)
  | exit
deriving DecidableEq

/-- The tasks, the records of the loop so far, and whether `run_multi_threads` has returned. -/
structure JoinState where
  tasks : List TaskState
  log : List Rec
  returned : Bool
deriving DecidableEq

/-- src/main.rs:204-207. -/
def JoinState.start (ts : List Finished) : JoinState := { tasks := ts.map (fun _ => .running), log := [], returned := false }

/-- src/main.rs:209-224, one action. -/
inductive JoinStep (ts : List Finished) : JoinState → JoinAct → JoinState → Prop
  /-- Line 206: the future of task `i` is ready. -/
  | finish (s : JoinState) (i : Nat) (t : Finished) (o : TaskEnd) : s.returned = false → s.tasks[i]? = some .running → ts[i]? = some t →
      t.result.taskEnd = some o → JoinStep ts s (.finish i) { s with tasks := s.tasks.set i (.ended o) }
  /-- Lines 209-221. -/
  | join (s : JoinState) (i : Nat) (t : Finished) (o : TaskEnd) : s.returned = false → s.tasks[i]? = some (.ended o) → ts[i]? = some t →
      JoinStep ts s (.join i) { s with tasks := s.tasks.set i (.joined o), log := s.log ++ joinRecord t }
  /-- Lines 209, 222-224. -/
  | exit (s : JoinState) : s.returned = false → (∀ t ∈ s.tasks, ∃ o, t = .joined o) → JoinStep ts s .exit { s with returned := true }

/-- Any number of actions, with their trace. -/
inductive JoinRun (ts : List Finished) (s : JoinState) : List JoinAct → JoinState → Prop
  | nil : JoinRun ts s [] s
  | snoc {tr : List JoinAct} {t u : JoinState} {a : JoinAct} : JoinRun ts s tr t → JoinStep ts t a u → JoinRun ts s (tr ++ [a]) u

/-- The tasks in the order in which they are joined. -/
def joinedOf : List JoinAct → List Nat
  | [] => []
  | .join i :: rest => i :: joinedOf rest
  | _ :: rest => joinedOf rest

end Httpd
