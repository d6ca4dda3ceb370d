import Verif.Model.Console
/-!
# What a console should show

Said in terms of the calls and of what has left the process.
-/

namespace Httpd.Console.Spec

open Httpd.Console

/-- The records handed over, with the appender, in order. -/
def records : List Call → List (Nat × Bytes)
  | [] => []
  | .write i b :: cs => (i, b) :: records cs
  | .flush _ :: cs => records cs

/-- Those of one appender. -/
def ofOne (i : Nat) (l : List (Nat × Bytes)) : List Bytes := (l.filter (fun p => p.1 == i)).map (·.2)

/-- All the bytes of a list of records. -/
def text (l : List (Nat × Bytes)) : Bytes := (l.map (·.2)).flatten

/-- A line, or several. -/
def IsLines (b : Bytes) : Prop := ∃ t, b = t ++ [10]

end Httpd.Console.Spec
