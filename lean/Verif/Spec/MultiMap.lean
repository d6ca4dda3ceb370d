import Verif.Base.Bytes
/-!
# Specification: a plain map from names to lists of values

This file does not mention the model. It says what a user of a multi-value header map expects.
-/

namespace Httpd.Spec

/-- A plain multi-value map. -/
abbrev HeaderMap := Bytes → Option (List Bytes)

/-- The operations a caller can apply. `mapValues f` is `each_mut` with a visitor that never stops. -/
inductive HeaderOp
  | set (k v : Bytes)
  | append (k v : Bytes)
  | remove (k v : Bytes)
  | delete (k : Bytes)
  | clear
  | mapValues (f : Bytes → List Bytes → List Bytes)

/-- The plain meaning of an operation. -/
def HeaderOp.apply (m : HeaderMap) : HeaderOp → HeaderMap
  | .set k v => fun x => if x = k then some [v] else m x
  | .append k v => fun x => if x = k then some ((m k).getD [] ++ [v]) else m x
  | .remove k v => fun x => if x = k then (m k).map (fun vs => vs.filter (fun e => e ≠ v)) else m x
  | .delete k => fun x => if x = k then none else m x
  | .clear => fun _ => none
  | .mapValues f => fun x => (m x).map (f x)

/-- The empty map. -/
def HeaderMap.empty : HeaderMap := fun _ => none

/-- The meaning of a history. -/
def run (ops : List HeaderOp) (m : HeaderMap) : HeaderMap := ops.foldl HeaderOp.apply m

/-- The name an operation mentions is not empty (the precondition documented at src/internal/multi_map.rs:7). -/
def HeaderOp.nameNonempty : HeaderOp → Prop
  | .set k _ => k ≠ []
  | .append k _ => k ≠ []
  | .remove k _ => k ≠ []
  | .delete k => k ≠ []
  | _ => True

/-- The operation is not a delete. -/
def HeaderOp.notDelete : HeaderOp → Prop
  | .delete _ => False
  | _ => True

end Httpd.Spec
