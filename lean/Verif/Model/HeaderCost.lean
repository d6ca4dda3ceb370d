import Verif.Model.Message
/-!
# How many comparisons the multi-map makes (src/internal/multi_map.rs)

The list of names is searched with `Iterator::position` or a loop, from the front to the first match; the values of a name likewise. Counted are the
names and values looked at. Look-ups in the `HashMap` are not counted: it hashes the name and looks at one name on the average, whatever its
size (the hash function has a secret seed).
-/

namespace Httpd.MultiMap

/-- How many elements a search for the first match looks at (`Iterator::position`, as documented). -/
def looked {α : Type} (p : α → Bool) : List α → Nat
  | [] => 0
  | e :: l => if p e then 1 else looked p l + 1

/-- Names looked at by `set` (multi_map.rs:53-79, 37-39). -/
def setCost (m : MultiMap) (k : Bytes) : Nat := if m.ismap then 0 else looked (fun e => e.1 == k || e.1.isEmpty) m.vec

/-- Names looked at by `append` (multi_map.rs:81-107, 37-39). -/
def appendCost (m : MultiMap) (k : Bytes) : Nat :=
  if m.ismap then 0 else if 36 ≤ m.vec.length then 0 else looked (fun e => e.1 == k || e.1.isEmpty) m.vec

/-- Names looked at by `remove`, `delete`, `getall` and `get` (multi_map.rs:125-163, 188-205, 32-34). -/
def findCost (m : MultiMap) (k : Bytes) : Nat := if m.ismap then 0 else looked (fun e => e.1 == k) m.vec

/-- Values looked at by the loop of `vec_remove_by_value` (multi_map.rs:110-123), see `removeByValueLoop`. -/
def removeCost (v : Bytes) : Nat → List Bytes → Nat → Nat
  | 0, _, _ => 0
  | fuel + 1, vs, skip =>
    looked (fun e => e == v) (vs.drop skip) +
      match (vs.drop skip).findIdx? (fun e => e == v) with
      | some pos => removeCost v fuel (vs.eraseIdx (pos + skip)) pos
      | none => 0

end Httpd.MultiMap

namespace Httpd

/-- Names looked at for one header line (src/message.rs:454-496), see `scanLine`. -/
def scanCost (hs : MultiMap) : Bytes → Bytes → Nat
  | _, [] => 0
  | key, c :: rest =>
    if !isText c then 0
    else if c = 58 then
      if rest = [] then 0
      else if !rest.all isText then 0
      else hs.appendCost (trimSp key)
    else if maxHeaderNameLength ≤ key.length then 0
    else scanCost hs (key ++ [toAsciiLower c]) rest

/-- Names looked at for all header lines (src/message.rs:432-506), see `headerLoop`. -/
def headerCost (lim : HttpLimits) : Nat → MultiMap → Reader → Nat
  | 0, _, _ => 0
  | fuel + 1, hs, r =>
    match r.readUntil 10 lim.maxHeaderLine with
    | .err _ => 0
    | .ok line r' =>
      if line.length ≤ 2 then 0
      else
        scanCost hs [] (line.take (line.length - 2)) +
          match scanLine lim.maxHeadersCount hs [] (line.take (line.length - 2)) with
          | .error _ => 0
          | .ok hs' => headerCost lim fuel hs' r'

end Httpd
