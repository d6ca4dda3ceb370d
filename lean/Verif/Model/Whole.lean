import Verif.Model.Printing
import Verif.Model.ConfigFile
/-!
# Model of the whole program (src/main.rs:47-65, 227-290)

The models of the command line, the configuration file, the logger, the services and standard output, put together. Of per-core mode
only the start of the threads is here; `Model/Process` has the rest.
-/

namespace Httpd

/-- What the program finds on the machine it is started on, besides what its services meet (`ProcEnv`) and standard output (`Prints`). -/
structure Machine where
  /-- the character tables of Rust -/
  U : Unicode
  /-- whether the TOML crate refuses unknown entries in a variant (see `deVariantStruct`) -/
  strict : Bool
  /-- src/config/mod.rs:123-125: the contents of a file, if it can be read and is TOML -/
  read : Str → Option Toml
  pathExists : Str → Bool
  chdir : Str → Bool
  glob : Str → Option (List GlobFile)
  /-- the order of iteration of the services -/
  order : List (Str × ServiceConfig) → List (Str × ServiceConfig)
  /-- the log file can be opened -/
  openOk : Str → Bool
  /-- see `Config.initLogging` -/
  midnight : Str → Bool
  /-- the order of iteration of the names of renderers -/
  names : List Str → List Str
  /-- `log::set_logger` succeeds -/
  setOk : Bool

/-- src/main.rs:47-65, 282: the setting `runtime.per_core` of the configuration in use; it is never set without a file. -/
def Machine.perCore (m : Machine) (p : Profile) (arg : Str) : Bool :=
  if (trimUnicode (fileArgument p arg)).isEmpty then false
  else
    match m.read (fileArgument p arg) with
    | none => false
    | some v =>
      match ConfigFile.de m.U p m.strict v with
      | .value f => f.runtime.perCore = some true
      | _ => false

/-- src/main.rs:47-65, 270-272: the start. -/
def Machine.start (m : Machine) (p : Profile) (arg : Str) : MainStart :=
  mainStart (loadConfigFrom p m.pathExists arg (fun file => loadFile m.U p m.strict m.pathExists m.chdir m.glob m.order (m.read file)))
    (fun c => c.initLogging m.U m.openOk m.midnight m.names m.setOk)

/-- src/main.rs:230-250: the names of the threads that are started, and whether the main thread panics before all are: that is what
`Builder::name` makes `spawn` do if the name has a NUL. Threads that the operating system refuses are in `Model/Process`. -/
def spawnThreads : List (Str × ServiceConfig) → List Str × Bool
  | [] => ([], false)
  | q :: rest =>
    let name := u!"httpd.service:" ++ q.2.name
    if name.contains 0 then ([], true)
    else (name :: (spawnThreads rest).1, (spawnThreads rest).2)

/-- What comes of `main`: with one runtime, all of it; in per-core mode, the threads that it starts and whether it panics (in which case
the others follow when the process ends, with status 101; if not, see `Model/Process`). -/
inductive Ran (K : Type)
  | oneRuntime (o : ProcOutcome K)
  | perCore (threads : List Str) (panicked : Bool)

/-- src/main.rs:270-290 `main`, run with the argument `arg`. -/
def Machine.main {C K : Type} (m : Machine) (p : Profile) (arg : Str) (x : ProcEnv C K) (pid : Str) (pr : Prints) : Ran K :=
  match m.start p arg with
  | .serving services =>
    if pr.name && pr.pid && m.perCore p arg then
      let (threads, panicked) := spawnThreads services
      .perCore threads panicked
    else .oneRuntime (mainPrinting x pid pr (.serving services))
  | st => .oneRuntime (mainPrinting x pid pr st)

end Httpd
