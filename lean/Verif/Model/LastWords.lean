import Verif.Model.LogDeath
/-!
# What the logger sees of a whole run in multi-thread mode (src/main.rs:203-224 and 270-290)

`Model/LogDeath` has the process and the logger together, `Model/LogChain` the calls on the appenders for a run of the logger. Here is the run of
the logger inside a run of the process.
-/

namespace Httpd

/-- What one action of the process is for the logger: src/main.rs:212 and 216 log about a service that failed (the macro drops the record if its level is
above the maximum), line 290 drops the guard, and the process ends when that returns. -/
def WholeAct.logAct {R : Type} (enabled : R → Bool) (record : Nat → TaskEnd → R) : WholeAct R → Option (Log.Act R)
  | .finish _ _ => none
  | .join _ .ok => none
  | .join i o => some (if enabled (record i o) then .send 0 (record i o) else .skip 0 (record i o))
  | .ret => none
  | .drop => some .drop
  | .exit => some .dropRet
  | .log a => some a

/-- The run of the logger. The main thread does not panic in it: see `Model/LogDeath`, `joinPanic`. -/
def wholeLog {R : Type} (enabled : R → Bool) (record : Nat → TaskEnd → R) (tr : List (WholeAct R)) : List (Log.Act R) :=
  tr.filterMap (WholeAct.logAct enabled record)

end Httpd
