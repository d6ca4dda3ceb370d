import Verif.Spec.Render
/-!
# A JSON line that tells a record
-/

namespace Httpd.Spec

open Httpd

/-- One of the members has this key and the string `s` as its value. -/
def Says (ms : List (Bytes × Bytes)) (key s : Bytes) : Prop := ∃ t, (key, t) ∈ ms ∧ StrText s t

/-- A line with a JSON object that tells the level, time, place and message of a record and, if it has pairs, an object of its pairs, in any
order. There may be white space around it and members may be repeated. -/
def TellsRecord (item : Item) (line : Bytes) : Prop :=
  ∃ w t w' ms, line = w ++ t ++ w' ∧ Ws w ∧ Ws w' ∧ Object ms t ∧ Says ms b!"level" (levelWord item.level) ∧ Says ms b!"time" item.time ∧
    Says ms b!"lineno" (item.file ++ b!":" ++ natToBytes item.line) ∧ Says ms b!"message" item.msg ∧
    (item.kvs ≠ [] → ∃ inner pairs, (b!"kvs", inner) ∈ ms ∧ Object pairs inner ∧ pairs.Perm item.kvs)

end Httpd.Spec
