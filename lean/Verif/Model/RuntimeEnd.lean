import Verif.Model.Turns
/-!
# Model of the end of the runtime (src/main.rs:194-225, 286-288)

When the join loop is through, `block_on` returns (line 222) and `run_multi_threads` drops its runtime (line 224). The drop tells the workers to stop and waits for them
(tokio 1.36: no time limit); a worker stops when the turn of the task it has is over. The tasks that are left are dropped. Only then does `main` go on to line 288.
-/

namespace Httpd

/-- The main thread. -/
inductive Leaving
  /-- in the join loop -/
  | joining
  /-- dropping the runtime -/
  | dropping
  /-- at line 288 -/
  | gone
deriving DecidableEq

/-- The tasks and the main thread. -/
structure Closing where
  pool : Pool
  main : Leaving
deriving DecidableEq

inductive CloseAct
  | pool (a : PoolAct)
  /-- `join_next` returns `None` -/
  | leave
  /-- the drop returns -/
  | dropped
deriving DecidableEq

/-- Does this need a worker that goes on? -/
def PoolAct.begins : PoolAct → Bool
  | .start _ => true
  | _ => false

/-- The runtime has started, with that many services. -/
def Closing.start (services : Nat) : Closing := ⟨.start services, .joining⟩

/-- One action. -/
inductive CloseStep (workers : Nat) (spins : Nat → Prop) : Closing → CloseAct → Closing → Prop
  /-- Once the runtime is being dropped, workers take no more tasks. -/
  | pool (s : Closing) (a : PoolAct) (p : Pool) : s.main ≠ .gone → (a.begins = true → s.main = .joining) → PoolStep workers spins s.pool a p →
      CloseStep workers spins s (.pool a) { s with pool := p }
  /-- Lines 209-224. -/
  | leave (s : Closing) : s.main = .joining → (∀ t ∈ s.pool.tasks, ∀ i, t.1 = .service i → t.2 = .over) → CloseStep workers spins s .leave { s with main := .dropping }
  | dropped (s : Closing) : s.main = .dropping → s.pool.busy = 0 → CloseStep workers spins s .dropped { s with main := .gone }

/-- A run and its trace. -/
inductive CloseRun (workers : Nat) (spins : Nat → Prop) (s : Closing) : List CloseAct → Closing → Prop
  | nil : CloseRun workers spins s [] s
  | snoc {tr : List CloseAct} {t u : Closing} {a : CloseAct} : CloseRun workers spins s tr t → CloseStep workers spins t a u → CloseRun workers spins s (tr ++ [a]) u

end Httpd
