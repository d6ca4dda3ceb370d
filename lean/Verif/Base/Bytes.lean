/-!
# Byte strings

Rust `&[u8]`, `Vec<u8>` and the `String`s that hold HTTP text are modelled as lists of bytes.
-/

namespace Httpd

abbrev Byte := UInt8
abbrev Bytes := List UInt8

/-- `b!"GET"` is the list of bytes of the UTF-8 encoding of the literal (like Rust's `b"GET"`). -/
syntax:max (name := byteStringLit) "b!" str : term

macro_rules
  | `(b! $s:str) => do
    let elems ← s.getString.toUTF8.toList.toArray.mapM fun b => `(($(Lean.quote b.toNat) : UInt8))
    `(([$elems,*] : List UInt8))

/-- CR LF. -/
abbrev crlf : Bytes := [13, 10]

/-- `u8::is_ascii_graphic` (std): `'!'..='~'`. -/
def isAsciiGraphic (b : Byte) : Bool := 33 ≤ b && b ≤ 126

/-- The test `b.is_ascii_graphic() || b == b' '` used by `ensure_ascii!` and by the header scanner
(src/message.rs:362-370, 457). -/
def isText (b : Byte) : Bool := isAsciiGraphic b || b == 32

/-- `u8::to_ascii_lowercase` (std). -/
def toAsciiLower (b : Byte) : Byte := if 65 ≤ b && b ≤ 90 then b + 32 else b

/-- `str::trim` on a string all of whose bytes are printable ASCII or space: only spaces can be trimmed.
(`str::trim` removes Unicode white space; 0x20 is the only white space in 0x20..0x7e.) -/
def trimStartSp (s : Bytes) : Bytes := s.dropWhile (· == 32)
def trimEndSp (s : Bytes) : Bytes := (s.reverse.dropWhile (· == 32)).reverse
def trimSp (s : Bytes) : Bytes := trimEndSp (trimStartSp s)

/-- A statement about all bytes can be checked on the 256 values. -/
theorem forall_byte {P : Byte → Prop} (h : ∀ n : Fin 256, P (UInt8.ofNat n.val)) (b : Byte) : P b := by
  have := h ⟨b.toNat, b.toNat_lt⟩
  simpa using this

end Httpd
