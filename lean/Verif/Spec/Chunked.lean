import Verif.Base.Bytes
/-! # Specification: chunked transfer coding (RFC 9112, section 7.1) -/

namespace Httpd.Spec

/-- A hexadecimal digit for a value below 16. -/
def hexDigit (n : Nat) : Byte := if n < 10 then UInt8.ofNat (48 + n) else UInt8.ofNat (87 + n)

/-- Digits of `n` in base 16, most significant first; `fuel` only bounds the recursion. -/
def hexAux : Nat → Nat → Bytes → Bytes
  | 0, _, acc => acc
  | fuel + 1, n, acc => if n < 16 then hexDigit n :: acc else hexAux fuel (n / 16) (hexDigit (n % 16) :: acc)

/-- `n` in hexadecimal. -/
def hex (n : Nat) : Bytes := hexAux (n + 1) n []

/-- One chunk: size in hexadecimal, an extension (possibly empty), CRLF, data, CRLF. -/
def encodeChunk (ext data : Bytes) : Bytes := hex data.length ++ ext ++ [13, 10] ++ data ++ [13, 10]

/-- A chunked body without trailers: chunks (with their extensions) and the last chunk. -/
def encodeChunked (cs : List (Bytes × Bytes)) : Bytes :=
  (cs.map (fun c => encodeChunk c.1 c.2)).flatten ++ [48, 13, 10, 13, 10]

/-- The decoded body. -/
def chunkData (cs : List (Bytes × Bytes)) : Bytes := (cs.map (·.2)).flatten

end Httpd.Spec
