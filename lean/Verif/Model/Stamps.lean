/-!
# Model of when records get their time (src/logging/item.rs:75-77, src/logging/dispatcher.rs:20-24)

`log` makes the item, whose time is read from the clock first, and then sends it; between the two another thread may run. Records are
written in the order in which they were sent (`C66_order`). The clock does not go back here.
-/

namespace Httpd.Log

/-- The clock, the record that each thread has made and not yet sent (its time), and the records sent so far (thread and time). -/
structure Stamping where
  clock : Nat
  made : Nat → Option Nat
  sent : List (Nat × Nat)

/-- Nothing logged yet. -/
def Stamping.start : Stamping := ⟨0, fun _ => none, []⟩

/-- One step of one thread, or time going by. -/
inductive StampStep : Stamping → Stamping → Prop
  | tick (s : Stamping) : StampStep s { s with clock := s.clock + 1 }
  /-- src/logging/item.rs:77 `SystemTime::now()`. -/
  | make (s : Stamping) (t : Nat) : s.made t = none →
      StampStep s { s with made := fun u => if u = t then some s.clock else s.made u }
  /-- src/logging/dispatcher.rs:21-23 `send`. -/
  | send (s : Stamping) (t n : Nat) : s.made t = some n →
      StampStep s { s with made := fun u => if u = t then none else s.made u, sent := s.sent ++ [(t, n)] }

/-- Runs. -/
inductive StampRun : Stamping → Prop
  | start : StampRun .start
  | step {s t : Stamping} : StampRun s → StampStep s t → StampRun t

end Httpd.Log
