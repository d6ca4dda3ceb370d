import Verif.Base.Bytes
/-!
# Rust integer parsing and printing, and UTF-8

Models of `str::parse::<u8/u64/usize>` (core `from_str_radix`, radix 10), of `to_string` on unsigned integers, and of
UTF-8 validation and `str::trim`.
-/

namespace Httpd

/-- `usize::MAX` / `u64::MAX` on the 64-bit targets the project is built for. -/
def u64Max : Nat := 2 ^ 64 - 1

/-- Value of an ASCII digit. -/
def digitVal (b : Byte) : Option Nat := if 48 ≤ b && b ≤ 57 then some (b.toNat - 48) else none

/-- The accumulation loop of `from_str_radix` with checked multiplication and addition (core::num). -/
def parseDigits (max : Nat) : Bytes → Nat → Option Nat
  | [], acc => some acc
  | b :: bs, acc =>
    match digitVal b with
    | none => none
    | some d =>
      if max < acc * 10 then none
      else if max < acc * 10 + d then none
      else parseDigits max bs (acc * 10 + d)

/-- `str::parse::<uN>()` where `max = uN::MAX` (core::num `from_str_radix`): an empty string and a lone sign are errors, a
leading `+` is skipped, a leading `-` is an invalid digit for unsigned types. -/
def parseUInt (max : Nat) (s : Bytes) : Option Nat :=
  match s with
  | [] => none
  | [43] => none
  | [45] => none
  | 43 :: ds => parseDigits max ds 0
  | ds => parseDigits max ds 0

/-- Digits of `n`, most significant first, prepended to `acc`; `fuel` only bounds the recursion. -/
def natDigitsAux : Nat → Nat → Bytes → Bytes
  | 0, _, acc => acc
  | fuel + 1, n, acc =>
    let acc' := UInt8.ofNat (48 + n % 10) :: acc
    if n / 10 = 0 then acc' else natDigitsAux fuel (n / 10) acc'

/-- `n.to_string()` for unsigned integers, as bytes. -/
def natToBytes (n : Nat) : Bytes := natDigitsAux (n + 1) n []

/-! ## UTF-8 -/

/-- A UTF-8 continuation byte. -/
def isCont (b : Byte) : Bool := 0x80 ≤ b && b ≤ 0xBF

/-- Strict UTF-8 decoding (`std::str::from_utf8`): `none` when the bytes are not valid UTF-8, otherwise the code points.
Table 3-7 of the Unicode standard. -/
def decodeUtf8 : Bytes → Option (List Nat)
  | [] => some []
  | b0 :: t =>
    if b0 < 0x80 then (decodeUtf8 t).map (b0.toNat :: ·)
    else if 0xC2 ≤ b0 && b0 ≤ 0xDF then
      match t with
      | b1 :: t => if isCont b1 then
          (decodeUtf8 t).map (((b0.toNat - 0xC0) * 64 + (b1.toNat - 0x80)) :: ·) else none
      | _ => none
    else if 0xE0 ≤ b0 && b0 ≤ 0xEF then
      match t with
      | b1 :: b2 :: t =>
        if isCont b1 && isCont b2 && !(b0 == 0xE0 && b1 < 0xA0) && !(b0 == 0xED && 0xA0 ≤ b1) then
          (decodeUtf8 t).map
            (((b0.toNat - 0xE0) * 4096 + (b1.toNat - 0x80) * 64 + (b2.toNat - 0x80)) :: ·) else none
      | _ => none
    else if 0xF0 ≤ b0 && b0 ≤ 0xF4 then
      match t with
      | b1 :: b2 :: b3 :: t =>
        if isCont b1 && isCont b2 && isCont b3 && !(b0 == 0xF0 && b1 < 0x90) && !(b0 == 0xF4 && 0x90 ≤ b1) then
          (decodeUtf8 t).map
            (((b0.toNat - 0xF0) * 262144 + (b1.toNat - 0x80) * 4096 + (b2.toNat - 0x80) * 64 + (b3.toNat - 0x80)) :: ·)
        else none
      | _ => none
    else none

/-- `char::is_whitespace`: the Unicode `White_Space` property. -/
def isUnicodeWhitespace (c : Nat) : Bool :=
  (9 ≤ c && c ≤ 13) || c == 32 || c == 0x85 || c == 0xA0 || c == 0x1680 || (0x2000 ≤ c && c ≤ 0x200A) ||
  c == 0x2028 || c == 0x2029 || c == 0x202F || c == 0x205F || c == 0x3000

/-- `str::trim` on code points. -/
def trimUnicode (s : List Nat) : List Nat :=
  ((s.dropWhile isUnicodeWhitespace).reverse.dropWhile isUnicodeWhitespace).reverse

/-- `str::parse::<uN>()` on a string given by its code points: `from_str_radix` works on the UTF-8 bytes, and every byte
of a non-ASCII character is an invalid digit, so any code point above 0x7f makes it fail. -/
def parseUIntCodepoints (max : Nat) (s : List Nat) : Option Nat :=
  if s.all (· < 128) then parseUInt max (s.map UInt8.ofNat) else none

end Httpd
