import Verif.Base.Bytes
import Verif.Model.Config
/-!
# Model of src/main.rs (starting services, accepting connections) and src/config/tls.rs (loading the TLS configuration)

Threads and tasks are transition systems: one step is one action of one thread that others can observe. Printing and logging are
left out. Connections are identified by numbers.
-/

namespace Httpd

/-! ## Loading TLS -/

/-- The file system and the crates `rustls_pemfile` and `rustls`, as far as `TlsConfig::load` uses them. `C` is the type of a
`rustls::ServerConfig`. -/
structure TlsEnv (C : Type) where
  /-- `File::open` and the reads that follow: the contents of a file, if it can be opened. -/
  file : Str → Option Bytes
  /-- `rustls_pemfile::certs`: the certificates, or an error for one of them. -/
  certs : Bytes → Option (List Bytes)
  /-- `rustls_pemfile::private_key`: an error, no key, or a key. -/
  privateKey : Bytes → Option (Option Bytes)
  /-- `ServerConfig::builder().with_no_client_auth().with_single_cert(..)`. -/
  build : List Bytes → Bytes → Option C

/-- src/config/tls.rs:34-57 `TlsConfig::load`. Outer `none` = `Err`. -/
def tlsLoad {C : Type} (x : TlsEnv C) (cert key : Str) : Option (Option C) :=
  if cert.isEmpty && key.isEmpty then some none
  else
    match x.file cert with
    | none => none
    | some certText =>
      match x.certs certText with
      | none => none
      | some certs =>
        match x.file key with
        | none => none
        | some keyText =>
          match x.privateKey keyText with
          | none => none
          | some none => none
          | some (some k) =>
            match x.build certs k with
            | none => none
            | some cfg => some (some cfg)

/-! ## Accepting connections -/

/-- What a client does after connecting, as far as TLS is concerned: how long its handshake takes (in nanoseconds; `none` = for ever) and
whether it succeeds. -/
structure Handshake where
  time : Option Nat
  ok : Bool
deriving DecidableEq

/-- What `tokio::select!` in the accept loops yields: a connection, a failed accept, or Ctrl-C. -/
inductive AcceptEvent
  | conn (id : Nat) (hs : Handshake)
  | acceptErr
  | ctrlC

/-- A call of `serve::serve`: for which connection, over which kind of stream, and with which value of `over_tls`. -/
structure Served where
  id : Nat
  encrypted : Bool
  overTls : Bool
deriving DecidableEq

/-- How an accept loop, or a service, ended. `waiting` = the events ran out before it ended. -/
inductive RunEnd
  | waiting
  | ok
  | err
  | panic
deriving DecidableEq

/-- src/main.rs:80-104: the loop of `accept_loop`, without TLS. Line 89 passes `true` for `over_tls`. -/
def plainLoop : List AcceptEvent → List Served × RunEnd
  | [] => ([], .waiting)
  | .conn id _ :: es => let (ss, e) := plainLoop es; (⟨id, false, true⟩ :: ss, e)
  | .acceptErr :: es => plainLoop es
  | .ctrlC :: _ => ([], .ok)

/-- src/main.rs:109-166 `tls_accept_loop`. `tokio::time::timeout` looks at the handshake first, so one that takes exactly as long
as the limit is in time. Line 140 passes `false` for `over_tls`. -/
def tlsLoop (timeout : Nat) : List AcceptEvent → List Served × RunEnd
  | [] => ([], .waiting)
  | .conn id hs :: es =>
    let (ss, e) := tlsLoop timeout es
    match hs.time with
    | none => (ss, e)
    | some t =>
      if timeout < t then (ss, e)
      else if hs.ok then (⟨id, true, false⟩ :: ss, e)
      else (ss, e)
  | .acceptErr :: es => tlsLoop timeout es
  | .ctrlC :: _ => ([], .ok)

/-- src/main.rs:67-107 `accept_loop`. `initOk` is the result of `service.init()`. -/
def acceptLoop {C : Type} (tls : Option C) (timeout : Nat) (initOk : Bool) (es : List AcceptEvent) : List Served × RunEnd :=
  if !initOk then ([], .err)
  else
    match tls with
    | some _ => tlsLoop timeout es
    | none => plainLoop es

/-- The variants of `config::service::Service` (src/config/service.rs). -/
inductive ServiceKind
  | helloWorld | fileSystem | forward | upstream
deriving DecidableEq

/-- src/main.rs:168-192 `run`. `bindOk` is the result of `TcpListener::bind`. -/
def runService {C : Type} (x : TlsEnv C) (cert key : Str) (timeout : Nat) (kind : ServiceKind) (bindOk initOk : Bool)
    (es : List AcceptEvent) : List Served × RunEnd :=
  if !bindOk then ([], .err)
  else
    match tlsLoad x cert key with
    | none => ([], .err)
    | some tls =>
      match kind with
      | .helloWorld => acceptLoop tls timeout initOk es
      | .fileSystem => acceptLoop tls timeout initOk es
      | .forward => ([], .panic)
      | .upstream => ([], .panic)

/-! ## Multi-thread mode -/

/-- How a spawned task ended: `Ok(Ok)`, `Ok(Err)` or a `JoinError` (panic). -/
inductive TaskEnd
  | ok | err | panic
deriving DecidableEq

/-- The state of a service in multi-thread mode: running, ended but not yet joined, joined. -/
inductive TaskState
  | running
  | ended (o : TaskEnd)
  | joined (o : TaskEnd)
deriving DecidableEq

/-- The state of `run_multi_threads` (src/main.rs:194-225) inside `block_on`: the tasks of the `JoinSet`, and whether the function
has returned. -/
structure MultiState where
  tasks : List TaskState
  returned : Bool
deriving DecidableEq

/-- src/main.rs:204-207: one task per service. -/
def multiStart (n : Nat) : MultiState := { tasks := List.replicate n .running, returned := false }

/-- Steps of multi-thread mode. `join` is one round of the loop of src/main.rs:209-221 (whatever the result is, it is only logged);
`exit` is `join_next` returning `None`, which it does when the set has no more tasks. -/
inductive MultiStep : MultiState → MultiState → Prop
  | finish (s : MultiState) (i : Nat) (o : TaskEnd) : s.returned = false → s.tasks[i]? = some .running →
      MultiStep s { s with tasks := s.tasks.set i (.ended o) }
  | join (s : MultiState) (i : Nat) (o : TaskEnd) : s.returned = false → s.tasks[i]? = some (.ended o) →
      MultiStep s { s with tasks := s.tasks.set i (.joined o) }
  | exit (s : MultiState) : s.returned = false → (∀ t ∈ s.tasks, ∃ o, t = .joined o) → MultiStep s { s with returned := true }

/-- Any number of steps. -/
inductive MultiRun : MultiState → MultiState → Prop
  | nil (s : MultiState) : MultiRun s s
  | snoc {s t u : MultiState} : MultiRun s t → MultiStep t u → MultiRun s u

/-! ## Per-core mode -/

/-- The state of a service thread (src/main.rs:233-248): spawned and before `lock.read()`, holding the read lock, ended. -/
inductive ThreadState
  | spawned | holding | ended
deriving DecidableEq

/-- Where the main thread is in `run_per_core` (src/main.rs:227-268): about to spawn the `k`-th service, in the loop of lines 253-264,
waiting in `lock.write()` (line 266), returned `Ok`, returned `Err` because a thread could not be spawned. -/
inductive MainState
  | spawning (k : Nat)
  | polling
  | waiting
  | returned
  | failed
deriving DecidableEq

structure PerCore where
  main : MainState
  threads : List ThreadState
deriving DecidableEq

/-- No thread holds the read lock. -/
def PerCore.free (s : PerCore) : Prop := ∀ t ∈ s.threads, t ≠ .holding

/-- The start: `n` services, no thread yet. -/
def PerCore.start : PerCore := { main := .spawning 0, threads := [] }

/-- Steps of per-core mode with `n` services. `spawnFail`: line 249 returns early. `poll`: `try_write` succeeds exactly if no thread
holds the lock, and the guard is dropped at once. `giveUp`: it fails, the loop is left. `enter`: `write` succeeds, `run_per_core`
returns, and with it `main`: threads that are still there are gone. Threads act only while the process is there. The lock is never
poisoned: only a panic under a write guard does that. -/
inductive PerCoreStep (n : Nat) : PerCore → PerCore → Prop
  | spawn (ts : List ThreadState) (k : Nat) : k < n → PerCoreStep n ⟨.spawning k, ts⟩ ⟨.spawning (k + 1), ts ++ [.spawned]⟩
  | spawnFail (ts : List ThreadState) (k : Nat) : k < n → PerCoreStep n ⟨.spawning k, ts⟩ ⟨.failed, ts⟩
  | spawnDone (ts : List ThreadState) : PerCoreStep n ⟨.spawning n, ts⟩ ⟨.polling, ts⟩
  | poll (ts : List ThreadState) : PerCore.free ⟨.polling, ts⟩ → PerCoreStep n ⟨.polling, ts⟩ ⟨.polling, ts⟩
  | giveUp (ts : List ThreadState) : ¬ PerCore.free ⟨.polling, ts⟩ → PerCoreStep n ⟨.polling, ts⟩ ⟨.waiting, ts⟩
  | enter (ts : List ThreadState) : PerCore.free ⟨.waiting, ts⟩ → PerCoreStep n ⟨.waiting, ts⟩ ⟨.returned, ts⟩
  | take (m : MainState) (ts : List ThreadState) (i : Nat) : m ≠ .returned → m ≠ .failed → ts[i]? = some .spawned →
      PerCoreStep n ⟨m, ts⟩ ⟨m, ts.set i .holding⟩
  | release (m : MainState) (ts : List ThreadState) (i : Nat) : m ≠ .returned → m ≠ .failed → ts[i]? = some .holding →
      PerCoreStep n ⟨m, ts⟩ ⟨m, ts.set i .ended⟩

/-- Any number of steps. -/
inductive PerCoreRun (n : Nat) : PerCore → PerCore → Prop
  | nil (s : PerCore) : PerCoreRun n s s
  | snoc {s t u : PerCore} : PerCoreRun n s t → PerCoreStep n t u → PerCoreRun n s u

end Httpd
