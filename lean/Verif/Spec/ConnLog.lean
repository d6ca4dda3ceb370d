import Verif.Model.ConnLog
import Verif.Spec.Request
/-!
# What the log of a connection should say

Told from what was delivered and written on the connection and from the way it ended (`Model/Serve`).
-/

namespace Httpd.Spec

open Httpd

/-- The item is that record, with a time and a place. -/
def IsRecord (r : Rec) (x : Item) : Prop := ∃ time file line, x = Rec.item time file line r

/-- The record about a connection. -/
def aboutConn (name text addr : Bytes) : Rec := ⟨.trace, [(b!"service", .ofString name)], text ++ addr⟩

/-- The words for the reasons of refusals. -/
def codeName : ReadCode → Bytes
  | .ok => b!"Ok"
  | .connReadError => b!"ConnReadError"
  | .badDatagram => b!"BadDatagram"
  | .reachMaxBodySize => b!"ReachMaxBodySize"
  | .badContentLength => b!"BadContentLength"
  | .reachMaxHeadersCount => b!"ReachMaxHeadersCount"
  | .badChunkSize => b!"BadChunkSize"
  | .waiting => []

/-- Why a connection ended, and that it did. `n` is the number of requests delivered. Nothing is said about an upgraded connection, a
task that panicked or spins, or one that has not ended; in a release build nothing is said about refused requests and about the
connection. -/
def endRecords {K : Type} (l : LogEnv K) (n : Nat) (e : Ending) : List Rec :=
  let reason : List Rec := match e with
    | .headFail .connReadError => []
    | .headFail code => if l.debug then [⟨.trace, [], b!"read request header failed, " ++ codeName code⟩] else []
    | .bodyFail .connReadError => []
    | .bodyFail code => if l.debug then [⟨.trace, [], b!"read request body failed, " ++ codeName code⟩] else []
    | .handlerErr => [⟨.error, [(b!"service", .ofString l.name)], b!"handle failed, " ++ l.handleError (n - 1)⟩]
    | .writeFail => [⟨.debug, [], b!"send response failed, " ++ l.sendError (n - 1)⟩]
    | _ => []
  match e with
  | .headFail _ | .bodyFail _ | .handlerErr | .writeFail | .closed =>
    reason ++ (if l.debug then [aboutConn l.name b!"connection lost, " l.addr] else [])
  | _ => []

/-- The log of a connection on which `reqs` were delivered and which ended with `e`. -/
def story {K : Type} (l : LogEnv K) (reqs : List (Message K)) (e : Ending) : List Rec :=
  (if l.debug then [aboutConn l.name b!"connection made, " l.addr] else []) ++ (reqs.mapIdx l.service).flatten ++
    endRecords l reqs.length e

/-- The text of a field in the log. -/
def fieldText (f : Field) : Bytes := lower f.name ++ b!": " ++ f.value

/-- A text that stays on one line and is readable. -/
def OneText (s : Bytes) : Prop := ∀ b ∈ s, IsText b

/-- `t` stands in `s` as whole lines: from the beginning of a line to an end of line. -/
def StandsAlone (t s : Bytes) : Prop := ∃ pre post, s = pre ++ [13, 10] ++ t ++ [13, 10] ++ post

/-- The bytes a client gets. -/
def answered : List ConnAct → Bytes
  | [] => []
  | .answer b :: acts => b ++ answered acts
  | .log _ :: acts => answered acts

/-- The records logged. -/
def recordsOf : List ConnAct → List Rec
  | [] => []
  | .answer _ :: acts => recordsOf acts
  | .log r :: acts => r :: recordsOf acts

/-- How far the task of a connection can be when the log has taken `n` of its records: the macro calls return one after the other, those for
records above the maximum level without the log. -/
def GotTo (l : Level) (acts p : List ConnAct) (n : Nat) : Prop :=
  p <+: acts ∧ ((recordsOf p).filter (fun x => x.level.rank ≤ l.rank)).length = n

end Httpd.Spec
