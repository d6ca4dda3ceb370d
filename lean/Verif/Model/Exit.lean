import Verif.Model.System
import Verif.Model.ConnLog
/-!
# Model of the end of the process: command line, join loop, exit status (src/main.rs:47-65, 194-225, 270-290)

`Model/Logging` has `main` up to the start of the services, `Model/System` what each service does. Here: which file is loaded, what is
logged about services that end, and the exit status, when the services are run on one runtime (`per_core` not set; per-core mode is
`Model/Process`). A `main` that returns `Err` makes the status 1, a panic of the main thread makes it 101 (Rust's standard library).
-/

namespace Httpd

/-- src/main.rs:48-56: the file argument. `arg` is what clap makes of the command line; a debug build does not look at it. -/
def fileArgument (p : Profile) (arg : Str) : Str :=
  match p with
  | .debug => u!"./httpd.toml"
  | .release => arg

/-- src/main.rs:47-65 `load_config`. -/
def loadConfigFrom (p : Profile) (pathExists : Str → Bool) (arg : Str) (load : Str → Outcome Config) : Outcome Config :=
  loadConfig pathExists (fileArgument p arg) load

/-- A task of the join set: what `run` came to (`waiting`: it is still running), and the `{:?}` text of its error or of the `JoinError`. -/
structure Finished where
  result : RunEnd
  text : Bytes
deriving DecidableEq

/-- src/main.rs:209-221: what is logged when a task is joined. -/
def joinRecord (t : Finished) : List Rec :=
  match t.result with
  | .panic => [⟨.error, [], b!"join error, " ++ t.text⟩]
  | .err => [⟨.error, [], b!"service serve error, " ++ t.text⟩]
  | .ok => []
  | .waiting => []

/-- How the process ends. -/
inductive Exit
  /-- it does not -/
  | running
  | status (code : Nat)
deriving DecidableEq

/-- What the process meets besides the start. -/
structure ProcEnv (C K : Type) where
  /-- the outside world of the service of that name -/
  world : Str → World C K
  /-- its address can be bound -/
  bindOk : Str → Bool
  /-- what its listener and Ctrl-C do -/
  events : Str → List AcceptEvent
  /-- the text of its error, if it fails -/
  text : Str → RunEnd → Bytes
  /-- src/main.rs:195-201: building the runtime -/
  runtime : Outcome Unit
  /-- the order in which the tasks end -/
  order : List Finished → List Finished

/-- src/main.rs:204-207: the task of a service. -/
def ProcEnv.task {C K : Type} (x : ProcEnv C K) (p : Str × ServiceConfig) : Finished :=
  let e := (p.2.run (x.world p.1) (x.bindOk p.1) (x.events p.1)).2
  ⟨e, x.text p.1 e⟩

/-- src/main.rs:194-225 `run_multi_threads` and 270-290 `main`: the records of the join loop and the exit status. Tasks that run on
(`waiting`) keep the join loop, and the process, from ending. -/
def mainExit {C K : Type} (x : ProcEnv C K) : MainStart → List Rec × Exit
  | .failed => ([], .status 1)
  | .panicked => ([], .status 101)
  | .hung => ([], .running)
  | .noService => ([], .status 0)
  | .serving services =>
    match x.runtime with
    | .error => ([], .status 1)
    | .panic => ([], .status 101)
    | .value _ =>
      let tasks := x.order (services.map x.task)
      (tasks.flatMap joinRecord, if tasks.any (fun t => t.result = .waiting) then .running else .status 0)

end Httpd
