import Verif.Spec.ConnLog
import Verif.Spec.Dispatcher
/-!
# How much there is to log
-/

namespace Httpd.Spec

open Httpd

/-- The bytes of the messages of records. -/
def logBytes (rs : List Rec) : Nat := (rs.map (·.msg.length)).sum

/-- The records that wait in the channel, in order. -/
def waitingRecords : List (Log.Msg Item) → List Item
  | [] => []
  | .item _ r :: q => r :: waitingRecords q
  | .flush _ :: q => waitingRecords q

/-- The bytes of the messages that wait in the channel. -/
def backlogBytes (q : List (Log.Msg Item)) : Nat := ((waitingRecords q).map (·.msg.length)).sum

/-- The records the consumer has in hand. -/
def inWork : Log.Consuming Item → List Item
  | .writing _ r => [r]
  | _ => []

end Httpd.Spec
