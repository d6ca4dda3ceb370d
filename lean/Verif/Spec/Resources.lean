import Verif.Base.Bytes
/-! # Specification: how much a message takes up -/

namespace Httpd.Spec

/-- Bytes of a list of names with their values: the names and the values, and one more for each value. -/
def fieldsHeld (l : List (Bytes × List Bytes)) : Nat := (l.map fun e => e.1.length + (e.2.map (·.length + 1)).sum).sum

/-- The number of values in such a list. -/
def valueCount (l : List (Bytes × List Bytes)) : Nat := (l.map fun e => e.2.length).sum

end Httpd.Spec
