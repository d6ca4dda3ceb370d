import Verif.Spec.Render
/-! # Specification: what a line of the log is meant to tell -/

namespace Httpd.Spec

/-- What there is to know about a record without key/value pairs. -/
structure Told where
  level : Level
  time : Bytes
  file : Bytes
  line : Nat
  msg : Bytes
deriving DecidableEq

/-- Of a record. -/
def told (item : Item) : Told := ⟨item.level, item.time, item.file, item.line, item.msg⟩

/-- A record whose JSON line can be read: no quote in its texts, no pairs (no log call of the server has any but `service`). -/
structure Quoteless (item : Item) : Prop where
  time : 34 ∉ item.time
  file : 34 ∉ item.file
  msg : 34 ∉ item.msg
  kvs : item.kvs = []

/-- A record whose plain line can be read: the parentheses around the place are the only ones before the message, and the message has no line
feed; no pairs. -/
structure OneLined (item : Item) : Prop where
  time : 40 ∉ item.time
  file : 41 ∉ item.file
  msg : 10 ∉ item.msg
  kvs : item.kvs = []

end Httpd.Spec
