import Verif.Model.Accepting
/-!
# Model of the turns of tasks on the worker threads (src/main.rs:82-91, 120-131, 194-207, 236-246; src/message.rs:156-184)

The other models let every task that has something to do go on. Here the tasks share worker threads (tokio 1.36): as many as `worker_threads` says or as there are
processors, and one per service in per-core mode. A worker takes a task that is ready and polls it: the task goes on until it waits for something, ends, or has used
up its budget; the worker cannot take it away. The budget is 128 reads of a TCP socket per turn; a read for which there is none left returns `Pending` and the task is
ready again. With TLS a read after the close of the stream does not get as far as the TCP socket (tokio-rustls 0.26: `TlsState::ReadShutdown`) and costs nothing.
(Decrypted bytes of one record can be read in several pieces of which only the first costs something; here each costs. Writes cost, too, and are left out. Both
only make turns shorter or longer by a bounded amount.)

The one loop that can go round without using up bytes is that of `read_const_length_body_impl` (C09 for the head, C77 for the requests): `bodyTurn` is a turn in it.
-/

namespace Httpd

/-- What a read of `ctx.reader` costs: nothing if there is something in the buffer, or over TLS after the close. -/
def readCost (tls : Bool) (r : Reader) : Nat :=
  if r.buf ≠ [] then 0
  else if tls = true ∧ r.segs = [] ∧ r.fin = .eof then 0
  else 1

/-- How a turn in the loop ends. -/
inductive TurnEnd (K : Type)
  | done (b : Body K) (r : Reader)
  | fail (c : ReadCode)
  | panic
  /-- nothing has arrived: the task waits, in this state of the loop -/
  | pending (remain : Nat) (b : Body K) (r : Reader)
  /-- the budget is used up: the task is ready again, in this state of the loop -/
  | yield (remain : Nat) (b : Body K) (r : Reader)

/-- A turn in the loop of `read_const_length_body_impl` (src/message.rs:165-182), `remain ≥ 1`, as `constLoop` but with a budget. `none` = still going on
after `fuel` iterations. -/
def bodyTurn {K : Type} (write : Body K → Bytes → Body.Out (Body K)) (cap : Nat) (tls : Bool) :
    Nat → Nat → Nat → Body K → Reader → Option (TurnEnd K)
  | 0, _, _, _, _ => none
  | fuel + 1, budget, remain, b, r =>
    if budget < readCost tls r then some (.yield remain b r)
    else
      let n := if remain < cap then remain else cap
      match r.read n with
      | .err .wait => some (.pending remain b r)
      | .err .error => some (.fail .connReadError)
      | .ok data r' =>
        match write b data with
        | .panic => some .panic
        | .ret b' =>
          if remain - data.length < 1 then some (.done b' r')
          else bodyTurn write cap tls fuel (budget - readCost tls r) (remain - data.length) b' r'

/-- A task: that of a service (src/main.rs:206, or the one that `block_on` runs, 239) or that of a connection (86-89, 120-131). -/
inductive Role
  | service (i : Nat)
  | conn (c : Nat)
deriving DecidableEq

/-- Where it is. -/
inductive Turn
  /-- it waits for something -/
  | waiting
  /-- it can go on and waits for a worker -/
  | ready
  /-- a worker has it -/
  | running
  /-- a worker has it and it goes round for ever -/
  | spinning
  | over
deriving DecidableEq

/-- The tasks of a runtime, and the clients that have sent everything and closed. -/
structure Pool where
  tasks : List (Role × Turn)
  closed : List Nat
deriving DecidableEq

/-- src/main.rs:203-207: the tasks of the services. -/
def Pool.start (services : Nat) : Pool := ⟨(List.range services).map (fun i => (.service i, .ready)), []⟩

/-- The task has a worker. -/
def Turn.busy : Turn → Bool
  | .running | .spinning => true
  | _ => false

/-- The number of workers that have a task. -/
def Pool.busy (s : Pool) : Nat := s.tasks.countP (fun t => t.2.busy)

inductive PoolAct
  /-- something task `i` waits for has happened -/
  | wake (i : Nat)
  /-- a client has sent everything and closes -/
  | close (c : Nat)
  /-- a worker takes task `i` -/
  | start (i : Nat)
  /-- task `i`, that of a service, accepts a connection -/
  | accept (i : Nat) (c : Nat)
  /-- the turn of task `i` ends: it waits, is ready again, or is over -/
  | stop (i : Nat) (t : Turn)
  /-- task `i` goes round for ever -/
  | spin (i : Nat)
deriving DecidableEq

/-- One action of a runtime with that many workers. `spins c`: once the client has sent everything and has closed, the task of connection `c` gets to a turn that does not
end; if that is so, it cannot wait or end any more. -/
inductive PoolStep (workers : Nat) (spins : Nat → Prop) : Pool → PoolAct → Pool → Prop
  | wake (s : Pool) (i : Nat) (k : Role) : s.tasks[i]? = some (k, .waiting) → PoolStep workers spins s (.wake i) { s with tasks := s.tasks.set i (k, .ready) }
  | close (s : Pool) (c : Nat) : c ∉ s.closed → PoolStep workers spins s (.close c) { s with closed := s.closed ++ [c] }
  | start (s : Pool) (i : Nat) (k : Role) : s.tasks[i]? = some (k, .ready) → s.busy < workers →
      PoolStep workers spins s (.start i) { s with tasks := s.tasks.set i (k, .running) }
  /-- src/main.rs:82-91, 118-131 -/
  | accept (s : Pool) (i c j : Nat) : s.tasks[i]? = some (.service j, .running) → (∀ t ∈ s.tasks, t.1 ≠ .conn c) →
      PoolStep workers spins s (.accept i c) { s with tasks := s.tasks ++ [(.conn c, .ready)] }
  | stop (s : Pool) (i : Nat) (k : Role) (t : Turn) : s.tasks[i]? = some (k, .running) → t.busy = false →
      (∀ c, k = .conn c → c ∈ s.closed → spins c → t = .ready) →
      PoolStep workers spins s (.stop i t) { s with tasks := s.tasks.set i (k, t) }
  | spin (s : Pool) (i c : Nat) : s.tasks[i]? = some (.conn c, .running) → c ∈ s.closed → spins c →
      PoolStep workers spins s (.spin i) { s with tasks := s.tasks.set i (.conn c, .spinning) }

/-- A run and its trace. -/
inductive PoolRun (workers : Nat) (spins : Nat → Prop) (s : Pool) : List PoolAct → Pool → Prop
  | nil : PoolRun workers spins s [] s
  | snoc {tr : List PoolAct} {t u : Pool} {a : PoolAct} : PoolRun workers spins s tr t → PoolStep workers spins t a u → PoolRun workers spins s (tr ++ [a]) u

/-- Does a turn of the task of connection `c` not end? It does not if `serve` gets into the loop for a body of which the rest does not come, over TLS. -/
def ServiceConfig.spins {C K : Type} (x : World C K) (s : ServiceConfig) (tls : Bool) (c : Nat) : Prop :=
  tls = true ∧ (s.connection x ⟨c, tls, !tls⟩).ending = .hang

end Httpd
