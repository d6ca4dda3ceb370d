import Verif.Model.Services
/-!
# SHA-1 and base64 as the crates `sha1` 0.10 and `base64` 0.21 compute them

`Model/Services` has `ws_impl::upgrade` with both as parameters. Here they are functions: the hasher with its block buffer, as it is
driven by src/ws_impl.rs:28-32 (`new`, two calls of `update`, `finalize`), and the engine `STANDARD` of src/ws_impl.rs:36.
-/

namespace Httpd

/-! ## SHA-1 -/

/-- The five words of the state. -/
structure ShaState where
  a : UInt32
  b : UInt32
  c : UInt32
  d : UInt32
  e : UInt32
deriving DecidableEq

/-- The initial state. -/
def ShaState.initial : ShaState := ⟨0x67452301, 0xEFCDAB89, 0x98BADCFE, 0x10325476, 0xC3D2E1F0⟩

/-- `u32::rotate_left`. -/
def rotl (x : UInt32) (n : UInt32) : UInt32 := (x <<< n) ||| (x >>> (32 - n))

/-- `u32::from_be_bytes`. -/
def word (a b c d : Byte) : UInt32 := (a.toUInt32 <<< 24) ||| (b.toUInt32 <<< 16) ||| (c.toUInt32 <<< 8) ||| d.toUInt32

/-- The words of a block. Bytes that do not fill a word are dropped (a block has 64). -/
def wordsOf : Bytes → List UInt32
  | a :: b :: c :: d :: rest => word a b c d :: wordsOf rest
  | _ => []

/-- The message schedule: the last 16 words, oldest first, and how many rounds are to come; the words of these rounds. -/
def schedule : Nat → List UInt32 → List UInt32
  | 0, _ => []
  | n + 1, ws =>
    ws.headD 0 :: schedule n (ws.tail ++ [rotl (ws.getD 13 0 ^^^ ws.getD 8 0 ^^^ ws.getD 2 0 ^^^ ws.getD 0 0) 1])

/-- The constant and the function of round `t`. The choice is computed as `d ^ (b & (c ^ d))`. -/
def roundConst (t : Nat) : UInt32 := if t < 20 then 0x5A827999 else if t < 40 then 0x6ED9EBA1 else if t < 60 then 0x8F1BBCDC else 0xCA62C1D6

@[inherit_doc roundConst]
def roundFun (t : Nat) (b c d : UInt32) : UInt32 :=
  if t < 20 then d ^^^ (b &&& (c ^^^ d))
  else if t < 40 then b ^^^ c ^^^ d
  else if t < 60 then (b &&& c) ^^^ (b &&& d) ^^^ (c &&& d)
  else b ^^^ c ^^^ d

/-- The rounds from round `t` on. -/
def rounds (t : Nat) (s : ShaState) : List UInt32 → ShaState
  | [] => s
  | w :: ws => rounds (t + 1) ⟨rotl s.a 5 + roundFun t s.b s.c s.d + s.e + roundConst t + w, s.a, rotl s.b 30, s.c, s.d⟩ ws

/-- `compress` of one block. -/
def compress (s : ShaState) (block : Bytes) : ShaState :=
  match rounds 0 s (schedule 80 (wordsOf block)) with
  | t => ⟨s.a + t.a, s.b + t.b, s.c + t.c, s.d + t.d, s.e + t.e⟩

/-- `Sha1`: the state, the number of blocks that have been compressed, and the bytes that do not fill a block yet. -/
structure Hasher where
  state : ShaState
  blocks : Nat
  buf : Bytes

/-- `Sha1::new()`. -/
def Hasher.new : Hasher := ⟨.initial, 0, []⟩

/-- Compress whole blocks from the front; `fuel` bounds their number, the length is enough. -/
def Hasher.absorb : Nat → Hasher → Hasher
  | 0, h => h
  | fuel + 1, h =>
    if h.buf.length < 64 then h
    else Hasher.absorb fuel ⟨compress h.state (h.buf.take 64), h.blocks + 1, h.buf.drop 64⟩

/-- `update`. -/
def Hasher.update (h : Hasher) (data : Bytes) : Hasher := Hasher.absorb (h.buf ++ data).length { h with buf := h.buf ++ data }

/-- `u64::to_be_bytes`, with wrap-around. -/
def be64 (n : Nat) : Bytes :=
  [UInt8.ofNat (n / 2 ^ 56), UInt8.ofNat (n / 2 ^ 48), UInt8.ofNat (n / 2 ^ 40), UInt8.ofNat (n / 2 ^ 32), UInt8.ofNat (n / 2 ^ 24),
    UInt8.ofNat (n / 2 ^ 16), UInt8.ofNat (n / 2 ^ 8), UInt8.ofNat n]

/-- `u32::to_be_bytes`. -/
def be32 (x : UInt32) : Bytes := [(x >>> 24).toUInt8, (x >>> 16).toUInt8, (x >>> 8).toUInt8, x.toUInt8]

/-- `finalize` (`len64_padding_be` of the block buffer): the byte 80 and zeros; if the length in bits does not fit any more, it goes to a
block of its own. -/
def Hasher.finalize (h : Hasher) : Bytes :=
  let bits := 8 * (h.blocks * 64 + h.buf.length)
  let last := h.buf ++ [0x80]
  let s :=
    if 56 < last.length then
      compress (compress h.state (last ++ List.replicate (64 - last.length) 0)) (List.replicate 56 0 ++ be64 bits)
    else compress h.state (last ++ List.replicate (56 - last.length) 0 ++ be64 bits)
  be32 s.a ++ be32 s.b ++ be32 s.c ++ be32 s.d ++ be32 s.e

/-- src/ws_impl.rs:28-32: the key and the magic bytes, one after the other. -/
def handshakeHash (key : Bytes) : Bytes := ((Hasher.new.update key).update wsMagic).finalize

/-! ## base64 -/

/-- The character of six bits. -/
def base64Char (n : Nat) : Byte :=
  UInt8.ofNat (if n < 26 then 65 + n else if n < 52 then 71 + n else if n < 62 then n - 4 else if n = 62 then 43 else 47)

/-- `STANDARD.encode`. -/
def base64 : Bytes → Bytes
  | [] => []
  | [a] => [base64Char (a.toNat / 4), base64Char (a.toNat % 4 * 16), 61, 61]
  | [a, b] => [base64Char (a.toNat / 4), base64Char (a.toNat % 4 * 16 + b.toNat / 16), base64Char (b.toNat % 16 * 4), 61]
  | a :: b :: c :: rest =>
    base64Char (a.toNat / 4) :: base64Char (a.toNat % 4 * 16 + b.toNat / 16) :: base64Char (b.toNat % 16 * 4 + c.toNat / 64) ::
      base64Char (c.toNat % 64) :: base64 rest

/-- src/ws_impl.rs:17-49 `upgrade` with these. The hash gets the key and the magic bytes in two calls. -/
def upgrade {K : Type} (req resp : Message K) : Message K × Bool :=
  match req.head.headers.get b!"sec-websocket-key" with
  | none => (resp, false)
  | some key =>
    if key.isEmpty then (resp, false)
    else
      let resp := resp.header b!"sec-websocket-accept" (base64 (handshakeHash key))
      let resp := (resp.version 1 1).code 101 b!"Switching Protocols"
      (((resp.header b!"sec-websocket-version" b!"13").header b!"upgrade" b!"websocket").header b!"connection" b!"Upgrade", true)

/-- The shortest service that uses `upgrade`: hand over to the WebSocket protocol if it succeeded, keep the connection otherwise. None of
the services of /repo calls `upgrade` (it is `pub(crate)` and unused); this is how src/serve.rs:49-51 and src/protocols.rs expect it to be
used. -/
def wsHttp {K : Type} (req resp : Message K) : HandlerRes K :=
  match upgrade req resp with
  | (resp, true) => .ok .webSocket req resp
  | (resp, false) => .ok (.current true) req resp

end Httpd
