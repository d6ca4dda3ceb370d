import Verif.Spec.Logging
/-!
# JSON texts (RFC 8259) and plain log lines
-/

namespace Httpd.Spec

open Httpd

/-- White space. -/
def Ws (w : Bytes) : Prop := ∀ b ∈ w, b = 32 ∨ b = 9 ∨ b = 10 ∨ b = 13

/-- What an escape of one character stands for. -/
def escapes : List (Byte × Byte) := [(34, 34), (92, 92), (47, 47), (98, 8), (102, 12), (110, 10), (114, 13), (116, 9)]

/-- The value of a hexadecimal digit. -/
def hexVal (b : Byte) : Option Nat :=
  if 48 ≤ b ∧ b ≤ 57 then some (b.toNat - 48) else if 97 ≤ b ∧ b ≤ 102 then some (b.toNat - 87) else if 65 ≤ b ∧ b ≤ 70 then some (b.toNat - 55)
  else none

/-- Four hexadecimal digits. -/
def Hex4 (t : Bytes) (v : Nat) : Prop :=
  ∃ a b c d va vb vc vd, t = [a, b, c, d] ∧ hexVal a = some va ∧ hexVal b = some vb ∧ hexVal c = some vc ∧ hexVal d = some vd ∧
    v = ((va * 16 + vb) * 16 + vc) * 16 + vd

/-- UTF-8. -/
def utf8 (v : Nat) : Bytes :=
  if v < 0x80 then [UInt8.ofNat v]
  else if v < 0x800 then [UInt8.ofNat (0xc0 + v / 64), UInt8.ofNat (0x80 + v % 64)]
  else if v < 0x10000 then [UInt8.ofNat (0xe0 + v / 4096), UInt8.ofNat (0x80 + v / 64 % 64), UInt8.ofNat (0x80 + v % 64)]
  else [UInt8.ofNat (0xf0 + v / 262144), UInt8.ofNat (0x80 + v / 4096 % 64), UInt8.ofNat (0x80 + v / 64 % 64), UInt8.ofNat (0x80 + v % 64)]

/-- `StrBody s t`: between quotes, `t` stands for the string `s`. -/
inductive StrBody : Bytes → Bytes → Prop
  | nil : StrBody [] []
  | plain (c : Byte) (s t : Bytes) : 32 ≤ c → c ≠ 34 → c ≠ 92 → StrBody s t → StrBody (c :: s) (c :: t)
  | escape (c d : Byte) (s t : Bytes) : (c, d) ∈ escapes → StrBody s t → StrBody (d :: s) (92 :: c :: t)
  | unit (h : Bytes) (v : Nat) (s t : Bytes) : Hex4 h v → (v < 0xd800 ∨ 0xdfff < v) → StrBody s t → StrBody (utf8 v ++ s) (92 :: 117 :: h ++ t)
  | pair (h h' : Bytes) (v v' : Nat) (s t : Bytes) : Hex4 h v → Hex4 h' v' → 0xd800 ≤ v → v ≤ 0xdbff → 0xdc00 ≤ v' → v' ≤ 0xdfff →
      StrBody s t → StrBody (utf8 (0x10000 + (v - 0xd800) * 1024 + (v' - 0xdc00)) ++ s) (92 :: 117 :: h ++ 92 :: 117 :: h' ++ t)

/-- `StrText s t`: `t` is a JSON text of the string `s`. -/
def StrText (s t : Bytes) : Prop := ∃ body, t = [34] ++ body ++ [34] ∧ StrBody s body

def Digits (t : Bytes) : Prop := t ≠ [] ∧ ∀ b ∈ t, 48 ≤ b ∧ b ≤ 57

/-- A JSON number. -/
def NumText (t : Bytes) : Prop :=
  ∃ sign int frac exp, t = sign ++ int ++ frac ++ exp ∧ (sign = [] ∨ sign = [45]) ∧ Digits int ∧ (int.head? = some 48 → int = [48]) ∧
    (frac = [] ∨ ∃ ds, frac = 46 :: ds ∧ Digits ds) ∧
    (exp = [] ∨ ∃ e s ds, exp = e :: s ++ ds ∧ (e = 101 ∨ e = 69) ∧ (s = [] ∨ s = [43] ∨ s = [45]) ∧ Digits ds)

/-- A value, the inside of an array, the inside of an object. -/
inductive Part
  | value
  | elems
  | members

/-- JSON texts. -/
inductive JText : Part → Bytes → Prop
  | null : JText .value b!"null"
  | true : JText .value b!"true"
  | false : JText .value b!"false"
  | num (t : Bytes) : NumText t → JText .value t
  | str (s t : Bytes) : StrText s t → JText .value t
  | emptyArr (w : Bytes) : Ws w → JText .value ([91] ++ w ++ [93])
  | arr (t : Bytes) : JText .elems t → JText .value ([91] ++ t ++ [93])
  | emptyObj (w : Bytes) : Ws w → JText .value ([123] ++ w ++ [125])
  | obj (t : Bytes) : JText .members t → JText .value ([123] ++ t ++ [125])
  | elem (w w' t : Bytes) : Ws w → JText .value t → Ws w' → JText .elems (w ++ t ++ w')
  | elems (w w' t r : Bytes) : Ws w → JText .value t → Ws w' → JText .elems r → JText .elems (w ++ t ++ w' ++ [44] ++ r)
  | member (w w' v v' s k t : Bytes) : Ws w → StrText s k → Ws w' → Ws v → JText .value t → Ws v' →
      JText .members (w ++ k ++ w' ++ [58] ++ v ++ t ++ v')
  | members (w w' v v' s k t r : Bytes) : Ws w → StrText s k → Ws w' → Ws v → JText .value t → Ws v' → JText .members r →
      JText .members (w ++ k ++ w' ++ [58] ++ v ++ t ++ v' ++ [44] ++ r)

/-- A JSON text. -/
def IsJson (t : Bytes) : Prop := ∃ w v w', t = w ++ v ++ w' ∧ Ws w ∧ Ws w' ∧ JText .value v

/-- The inside of an object with these members (key, text of the value). -/
inductive Members : List (Bytes × Bytes) → Bytes → Prop
  | one (w w' v v' s k t : Bytes) : Ws w → StrText s k → Ws w' → Ws v → JText .value t → Ws v' →
      Members [(s, t)] (w ++ k ++ w' ++ [58] ++ v ++ t ++ v')
  | more (w w' v v' s k t r : Bytes) (ms : List (Bytes × Bytes)) : Ws w → StrText s k → Ws w' → Ws v → JText .value t → Ws v' → Members ms r →
      Members ((s, t) :: ms) (w ++ k ++ w' ++ [58] ++ v ++ t ++ v' ++ [44] ++ r)

/-- An object with these members. -/
def Object (ms : List (Bytes × Bytes)) (t : Bytes) : Prop := ∃ body, t = [123] ++ body ++ [125] ∧ Members ms body

/-- Text that needs no escapes. -/
def PlainText (t : Bytes) : Prop := ∀ b ∈ t, 32 ≤ b ∧ b ≠ 34 ∧ b ≠ 92

instance (t : Bytes) : Decidable (PlainText t) := by unfold PlainText; infer_instance

/-- Text without its colour sequences: what stands from ESC to the next `m` is left out. -/
def strip : Bool → Bytes → Bytes
  | _, [] => []
  | false, b :: rest => if b = 27 then strip true rest else b :: strip false rest
  | true, b :: rest => if b = 109 then strip false rest else strip true rest

/-- The plain line of a record. -/
def plainLine (item : Item) : Bytes :=
  b!"[" ++ levelWord item.level ++ b!"] " ++ item.time ++ b!" (" ++ item.file ++ b!":" ++ natToBytes item.line ++ b!") " ++ item.msg ++
  (if item.kvs = [] then [] else b!" { " ++ b!" , ".intercalate (item.kvs.map fun kv => kv.1 ++ b!": " ++ kv.2) ++ b!" }") ++ b!"\r\n"

end Httpd.Spec
