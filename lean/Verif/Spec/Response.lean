import Verif.Spec.Head
import Verif.Spec.MultiMap
import Verif.Spec.Version
/-! # Specification: how a client splits a response into lines and body -/

namespace Httpd.Spec

/-- Reads lines ended by CR LF until an empty one. `cur` is the current line so far and `ls` the lines before it, both in reverse
order. -/
def scanLines : Bytes → List Bytes → Bytes → Option (List Bytes × Bytes)
  | cur, ls, 13 :: 10 :: s => if cur = [] then some (ls.reverse, s) else scanLines [] (cur.reverse :: ls) s
  | cur, ls, b :: s => scanLines (b :: cur) ls s
  | _, _, [] => none

/-- The lines of the head of a message and what follows the first empty line. -/
def splitHead (s : Bytes) : Option (List Bytes × Bytes) := scanLines [] [] s

/-- The header name of a line, in lower case. -/
def lineName (l : Bytes) : Bytes := lower (l.takeWhile (fun b => b ≠ 58))

/-- `name: value`. -/
def headerText (k v : Bytes) : Bytes := k ++ [58, 32] ++ v

/-- No CR and no LF. -/
def OneLine (s : Bytes) : Prop := 13 ∉ s ∧ 10 ∉ s

instance (s : Bytes) : Decidable (OneLine s) := inferInstanceAs (Decidable (_ ∧ _))

/-- The status line. -/
def statusLine (f0 f1 f2 : Bytes) : Bytes := f0 ++ [32] ++ f1 ++ [32] ++ f2

/-- The header lines of a map whose names are visited in the order `names`. -/
def linesOf (names : List Bytes) (m : Bytes → Option (List Bytes)) : List Bytes :=
  names.flatMap (fun k => ((m k).getD []).map (headerText k))

/-! ## A service that builds a response call by call -/

/-- The calls a service can make on a response. -/
inductive RespCall
  | version (a b : Nat)
  | code (n : Nat) (reason : Bytes)
  | header (k v : Bytes)
  | setheader (k v : Bytes)
  | delheader (k : Bytes)

/-- What a call means for the headers. -/
def RespCall.headerOp : RespCall → Option HeaderOp
  | .header k v => some (.append k v)
  | .setheader k v => some (.set k v)
  | .delheader k => some (.delete k)
  | _ => none

/-- The version texts given, in order. -/
def versionsOf (cs : List RespCall) : List Bytes :=
  cs.filterMap (fun c => match c with | .version a b => some (versionText a b) | _ => none)

/-- The status codes and reasons given, in order. -/
def codesOf (cs : List RespCall) : List (Bytes × Bytes) :=
  cs.filterMap (fun c => match c with | .code n r => some (natToBytes n, r) | _ => none)

/-- The calls on headers, in order. -/
def headerOpsOf (cs : List RespCall) : List HeaderOp := cs.filterMap RespCall.headerOp

end Httpd.Spec
