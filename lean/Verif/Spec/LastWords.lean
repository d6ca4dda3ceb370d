import Verif.Model.LogDeath
import Verif.Model.JoinLoop
import Verif.Spec.JoinLoop
/-! # The services that failed, in the order in which main finds out -/

namespace Httpd.Spec

open Httpd

/-- The service main finds to have failed, with how it did. -/
def foundFailed {R : Type} : WholeAct R → Option (Nat × TaskEnd)
  | .join _ .ok => none
  | .join i o => some (i, o)
  | _ => none

/-- All of them, in order. -/
def failures {R : Type} (tr : List (WholeAct R)) : List (Nat × TaskEnd) := tr.filterMap foundFailed

/-- Records that say how a service failed, each with some time and place in the source. -/
def Tells (record : Nat → TaskEnd → Item) : Prop :=
  ∀ i o, o ≠ .ok → ∃ e text r time file line, RunEnd.taskEnd e = some o ∧ failureRecord e text = some r ∧ record i o = Rec.item time file line r

end Httpd.Spec
