import Verif.Base.Bytes
/-!
# Model of src/internal/multi_map.rs

`HashMap<String, Vec<String>>` is an association list with at most one entry per key (an invariant proved in
`Verif.Lemmas.MultiMap`, not assumed). Its iteration order is unspecified: `each` takes the order as a parameter.

`self.map.as_mut().unwrap()` on a missing table would panic. The model reads a missing table as empty; that no history
reaches such an `unwrap` is theorem `C41_multimap_no_panic`.
-/

namespace Httpd

/-- `(String, Vec<String>)`. -/
abbrev Pair := Bytes × List Bytes

/-- src/internal/multi_map.rs:9-13. `SmallVec` is a plain list (its inline capacity of 16 is not observable). -/
structure MultiMap where
  ismap : Bool
  vec : List Pair
  map : Option (List Pair)
deriving DecidableEq, Repr

namespace MultiMap

/-- multi_map.rs:15-30 `Default::default`, `new`. -/
def new : MultiMap := { ismap := false, vec := [], map := none }

/-! ### `HashMap` operations used by the code -/

/-- `HashMap::get`. -/
def hmGet (m : List Pair) (k : Bytes) : Option (List Bytes) :=
  match m with
  | [] => none
  | (k', vs) :: m => if k' = k then some vs else hmGet m k

/-- `HashMap::insert`: replaces the value of an existing key, otherwise adds an entry. -/
def hmInsert (m : List Pair) (k : Bytes) (vs : List Bytes) : List Pair :=
  match m with
  | [] => [(k, vs)]
  | (k', vs') :: m => if k' = k then (k', vs) :: m else (k', vs') :: hmInsert m k vs

/-- `HashMap::remove`. -/
def hmRemove (m : List Pair) (k : Bytes) : List Pair := m.filter (fun e => e.1 ≠ k)

/-- The table behind `self.map`, empty if there is none (see the header of this file). -/
def table (m : MultiMap) : List Pair := m.map.getD []

/-! ### The list representation -/

/-- multi_map.rs:32-34 `vec_find`. -/
def vecFind (pairs : List Pair) (k : Bytes) : Option Nat := pairs.findIdx? (fun e => e.1 == k)

/-- multi_map.rs:37-39 `vec_find_or_empty`. -/
def vecFindOrEmpty (pairs : List Pair) (k : Bytes) : Option Nat :=
  pairs.findIdx? (fun e => e.1 == k || e.1.isEmpty)

/-- multi_map.rs:41-51 `map_append`. -/
def mapAppend (m : MultiMap) (k v : Bytes) : MultiMap :=
  match hmGet m.table k with
  | some vs => { m with map := some (hmInsert m.table k (vs ++ [v])) }
  | none => { m with map := some (hmInsert m.table k [v]) }

/-- multi_map.rs:53-79 `set`. Note line 72-73: an empty slot found by `vec_find_or_empty` keeps its empty key. -/
def set (m : MultiMap) (k v : Bytes) : MultiMap :=
  if m.ismap then
    match hmGet m.table k with
    | some _ => { m with map := some (hmInsert m.table k [v]) }
    | none => { m with map := some (hmInsert m.table k [v]) }
  else
    match vecFindOrEmpty m.vec k with
    | some pos => { m with vec := m.vec.modify pos (fun e => (e.1, [v])) }
    | none => { m with vec := m.vec ++ [(k, [v])] }

/-- multi_map.rs:176-186 `tomap`. -/
def tomap (m : MultiMap) : MultiMap :=
  { ismap := true
    vec := []
    map := some (m.vec.foldl (fun t e => hmInsert t e.1 e.2) m.table) }

/-- multi_map.rs:81-107 `append`. -/
def append (m : MultiMap) (k v : Bytes) : MultiMap :=
  if m.ismap then m.mapAppend k v
  else if 36 ≤ m.vec.length then m.tomap.mapAppend k v
  else
    match vecFindOrEmpty m.vec k with
    | some pos =>
      { m with vec := m.vec.modify pos (fun e => (if e.1.isEmpty then k else e.1, e.2 ++ [v])) }
    | none => { m with vec := m.vec ++ [(k, [v])] }

/-- multi_map.rs:110-123 `vec_remove_by_value`: the loop, `fuel` bounding the number of iterations. Each iteration looks
for `v` after the first `skip` elements, removes it, and continues with `skip = pos` (the position *relative* to the old
skip). `none` = the loop is still running. -/
def removeByValueLoop (v : Bytes) : Nat → List Bytes → Nat → Option (List Bytes)
  | 0, _, _ => none
  | fuel + 1, vs, skip =>
    match (vs.drop skip).findIdx? (fun e => e == v) with
    | some pos => removeByValueLoop v fuel (vs.eraseIdx (pos + skip)) pos
    | none => some vs

/-- `vec_remove_by_value` with enough fuel: every iteration but the last removes an element
(`Verif.Lemmas.MultiMap.removeByValueLoop_eq` shows that it never runs out). -/
def removeByValue (vs : List Bytes) (v : Bytes) : List Bytes :=
  (removeByValueLoop v (vs.length + 1) vs 0).getD vs

/-- multi_map.rs:125-145 `remove`. -/
def remove (m : MultiMap) (k v : Bytes) : MultiMap :=
  if m.ismap then
    match hmGet m.table k with
    | some vs => { m with map := some (hmInsert m.table k (removeByValue vs v)) }
    | none => m
  else
    match vecFind m.vec k with
    | some pos => { m with vec := m.vec.modify pos (fun e => (e.1, removeByValue e.2 v)) }
    | none => m

/-- multi_map.rs:147-163 `delete`. In list mode the slot is emptied but stays. -/
def delete (m : MultiMap) (k : Bytes) : MultiMap :=
  if m.ismap then { m with map := some (hmRemove m.table k) }
  else
    match vecFind m.vec k with
    | some pos => { m with vec := m.vec.modify pos (fun _ => ([], [])) }
    | none => m

/-- multi_map.rs:165-174 `clear`. -/
def clear (m : MultiMap) : MultiMap :=
  { ismap := false, vec := [], map := m.map.map (fun _ => []) }

/-- multi_map.rs:188-198 `getall`. -/
def getall (m : MultiMap) (k : Bytes) : Option (List Bytes) :=
  if m.ismap then hmGet m.table k
  else
    match m.vec.find? (fun e => e.1 == k) with
    | some e => some e.2
    | none => none

/-- multi_map.rs:200-205 `get`. -/
def get (m : MultiMap) (k : Bytes) : Option Bytes :=
  match m.getall k with
  | some vs => vs.head?
  | none => none

/-- Visit a list of pairs until the visitor refuses: the loops of `each` (multi_map.rs:209-213, 217-221). The visitor's
captured state is threaded as `σ`. -/
def visit {σ : Type} (f : σ → Bytes → List Bytes → σ × Bool) : List Pair → σ → σ
  | [], s => s
  | (k, vs) :: rest, s =>
    match f s k vs with
    | (s', true) => visit f rest s'
    | (s', false) => s'

/-- The pairs in the order in which `each` visits them; `ord` is the hash map's unspecified iteration order. -/
def entries (ord : List Pair → List Pair) (m : MultiMap) : List Pair :=
  if m.ismap then ord m.table else m.vec

/-- multi_map.rs:207-222 `each`. -/
def each {σ : Type} (ord : List Pair → List Pair) (m : MultiMap) (f : σ → Bytes → List Bytes → σ × Bool) (s : σ) : σ :=
  visit f (m.entries ord) s

/-- The loops of `each_mut` (multi_map.rs:226-230, 234-238). The visitor is `Fn`, so it has no state of its own. -/
def visitMut (f : Bytes → List Bytes → List Bytes × Bool) : List Pair → List Pair
  | [] => []
  | (k, vs) :: rest =>
    match f k vs with
    | (vs', true) => (k, vs') :: visitMut f rest
    | (vs', false) => (k, vs') :: rest

/-- multi_map.rs:224-239 `each_mut`. -/
def eachMut (ord : List Pair → List Pair) (m : MultiMap) (f : Bytes → List Bytes → List Bytes × Bool) : MultiMap :=
  if m.ismap then { m with map := some (visitMut f (ord m.table)) }
  else { m with vec := visitMut f m.vec }

/-- multi_map.rs:242-247 `len`. -/
def len (m : MultiMap) : Nat := if m.ismap then m.table.length else m.vec.length

/-- The `unwrap`s of `self.map` (lines 42, 55, 127, 149, 180, 190, 209, 226, 244) panic exactly when the flag says "map"
and there is no table. -/
def unwrapPanics (m : MultiMap) : Bool := m.ismap && m.map.isNone

end MultiMap
end Httpd
