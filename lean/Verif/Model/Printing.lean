import Verif.Model.Exit
/-!
# Model of what the process says on standard output (src/main.rs:168-192, 194-225, 270-290, src/config/service.rs:144-151)

`Model/Exit` leaves `println!` out. Here each `println!` either hands its line on or fails (a pipe whose reader is gone, a full disk);
a failing `println!` panics (Rust's standard library). A line counts as said if its `println!` did not fail. Only the mode with one
runtime is covered (`per_core` not set). The lines of different services are put in the order of the configuration; nothing is claimed
about the order among them.
-/

namespace Httpd

/-- src/config/service.rs:144-151 `Service::kind`. -/
def ServiceSetting.kindName : ServiceSetting → Str
  | .helloWorld => u!"Hello world"
  | .fileSystem root => u!"Fs{" ++ root ++ u!"}"
  | .forward => u!"Forward"
  | .upstream => u!"Upstream"

/-- src/main.rs:172-176: the line about a service, `tls` = a TLS configuration has been loaded. -/
def ServiceConfig.logo (s : ServiceConfig) (tls : Bool) : Str :=
  let logo := u!"listening @ " ++ s.tcp.addr
  let logo := if tls then logo ++ u!", tls ✅" else logo
  u!"httpd: " ++ logo ++ u!", serve as " ++ s.service.kindName

/-- src/main.rs:168-192 `run` with line 176: what it says, and then as `ServiceConfig.run`. -/
def ServiceConfig.runPrinting {C K : Type} (x : World C K) (bindOk : Bool) (es : List AcceptEvent) (printOk : Bool) (s : ServiceConfig) :
    List Str × List (Conn K) × RunEnd :=
  if !bindOk then ([], [], .err)
  else
    match tlsLoad x.tls s.tcp.tls.cert s.tcp.tls.key with
    | none => ([], [], .err)
    | some tls =>
      if !printOk then ([], [], .panic)
      else ([s.logo tls.isSome], s.run x bindOk es)

/-- Which calls of `println!` succeed. -/
structure Prints where
  /-- src/main.rs:275 -/
  name : Bool
  /-- src/main.rs:276 -/
  pid : Bool
  /-- src/main.rs:278 -/
  empty : Bool
  /-- src/main.rs:176 for the service of that name -/
  service : Str → Bool
  /-- src/main.rs:288 -/
  bye : Bool

/-- What comes of a whole process: the lines (without the name of the program), the connections of each service, the records of the
join loop, the exit status. -/
structure ProcOutcome (K : Type) where
  said : List Str
  conns : List (Str × List (Conn K))
  records : List Rec
  exit : Exit

/-- A service in `run_multi_threads`, with its line. -/
def ProcEnv.runPrinting {C K : Type} (x : ProcEnv C K) (pr : Prints) (p : Str × ServiceConfig) : List Str × List (Conn K) × RunEnd :=
  p.2.runPrinting (x.world p.1) (x.bindOk p.1) (x.events p.1) (pr.service p.1)

/-- src/main.rs:194-225 `run_multi_threads` and 270-290 `main`, with `println!`. `pid` is the number of the process, in decimal. The
lines of `main` up to 276 come after `mainStart`'s work; whether there are services is looked at after them. -/
def mainPrinting {C K : Type} (x : ProcEnv C K) (pid : Str) (pr : Prints) : MainStart → ProcOutcome K
  | .failed => ⟨[], [], [], .status 1⟩
  | .panicked => ⟨[], [], [], .status 101⟩
  | .hung => ⟨[], [], [], .running⟩
  | .noService =>
    if !pr.name then ⟨[], [], [], .status 101⟩
    else if !pr.pid then ⟨[], [], [], .status 101⟩
    else
      let line := u!"httpd: load configuration ok, pid: " ++ pid
      if !pr.empty then ⟨[line], [], [], .status 101⟩
      else ⟨[line, u!"httpd: empty service, exit"], [], [], .status 0⟩
  | .serving services =>
    if !pr.name then ⟨[], [], [], .status 101⟩
    else if !pr.pid then ⟨[], [], [], .status 101⟩
    else
      let line := u!"httpd: load configuration ok, pid: " ++ pid
      match x.runtime with
      | .error => ⟨[line], [], [], .status 1⟩
      | .panic => ⟨[line], [], [], .status 101⟩
      | .value _ =>
        let runs := services.map (fun p => (p.1, x.runPrinting pr p))
        let tasks := x.order (runs.map (fun r => ⟨r.2.2.2, x.text r.1 r.2.2.2⟩))
        let said := line :: runs.flatMap (·.2.1)
        let conns := runs.map (fun r => (r.1, r.2.2.1))
        let records := tasks.flatMap joinRecord
        if tasks.any (fun t => t.result = .waiting) then ⟨said, conns, records, .running⟩
        else if !pr.bye then ⟨said, conns, records, .status 101⟩
        else ⟨said ++ [u!"httpd: shutdown"], conns, records, .status 0⟩

end Httpd
