import Verif.Model.Dispatcher
/-!
# Observations on runs of the logging threads

Everything is said about the sequence of actions of a run and the programs of the threads; nothing about queues or flags.
-/

namespace Httpd.Log.Spec

/-- The records sent in a run, with their threads, in the order of sending. -/
def sends {R : Type} : List (Act R) → List (Nat × R)
  | [] => []
  | .send t r :: tr => (t, r) :: sends tr
  | _ :: tr => sends tr

/-- The records handed to the appenders in a run, in order. -/
def writes {R : Type} : List (Act R) → List (Nat × R)
  | [] => []
  | .write t r :: tr => (t, r) :: writes tr
  | _ :: tr => writes tr

/-- What one thread contributed. -/
def byThread {R : Type} (t : Nat) (l : List (Nat × R)) : List R := (l.filter (·.1 = t)).map (·.2)

/-- The records a program logs that pass the maximum level. -/
def logged {R : Type} (enabled : R → Bool) : List (Call R) → List R
  | [] => []
  | .log r :: cs => if enabled r then r :: logged enabled cs else logged enabled cs
  | .flush :: cs => logged enabled cs

/-- All of `l` was handed over in `tr`, and after that all appenders were flushed. -/
def FlushedIn {R : Type} (l : List (Nat × R)) (tr : List (Act R)) : Prop :=
  ∃ a b, tr = a ++ .flush :: b ∧ l <+: writes a

end Httpd.Log.Spec
