import Verif.Base.Bytes
/-!
# SHA-1 (FIPS 180-4), base64 (RFC 4648), and the accept value of RFC 6455

Written from the standards: words are bit vectors, the message is padded as a whole, the message schedule and the working variables
are functions of the number of the round.
-/

namespace Httpd.Spec

open Httpd

namespace Sha1

/-- FIPS 180-4, 3.1: a word of 32 bits. -/
abbrev Word := BitVec 32

/-- 4.1.1: the functions. -/
def f (t : Nat) (x y z : Word) : Word :=
  if t ≤ 19 then (x &&& y) ^^^ (~~~x &&& z)
  else if t ≤ 39 then x ^^^ y ^^^ z
  else if t ≤ 59 then (x &&& y) ^^^ (x &&& z) ^^^ (y &&& z)
  else x ^^^ y ^^^ z

/-- 4.2.1: the constants. -/
def K (t : Nat) : Word := if t ≤ 19 then 0x5a827999 else if t ≤ 39 then 0x6ed9eba1 else if t ≤ 59 then 0x8f1bbcdc else 0xca62c1d6

/-- 5.1.1: the message, the bit 1, as many zeros as needed, and the length in bits as a number of 64 bits. -/
def pad (m : Bytes) : Bytes :=
  m ++ [0x80] ++ List.replicate ((119 - m.length % 64) % 64) 0 ++ (List.range 8).map (fun i => UInt8.ofNat (8 * m.length / 256 ^ (7 - i)))

/-- 5.2.1: word `t` of block `i` of a padded message. -/
def M (p : Bytes) (i t : Nat) : Word :=
  BitVec.ofNat 32 ((p.getD (64 * i + 4 * t) 0).toNat * 2 ^ 24 + (p.getD (64 * i + 4 * t + 1) 0).toNat * 2 ^ 16 +
    (p.getD (64 * i + 4 * t + 2) 0).toNat * 2 ^ 8 + (p.getD (64 * i + 4 * t + 3) 0).toNat)

/-- 6.1.2, step 1: the message schedule of a block. -/
def W (block : Nat → Word) (t : Nat) : Word :=
  if t < 16 then block t else (W block (t - 3) ^^^ W block (t - 8) ^^^ W block (t - 14) ^^^ W block (t - 16)).rotateLeft 1

/-- The five words of a hash value, or of the working variables. -/
structure Vars where
  a : Word
  b : Word
  c : Word
  d : Word
  e : Word
deriving DecidableEq

/-- 5.3.1: the initial hash value. -/
def H0 : Vars := ⟨0x67452301, 0xefcdab89, 0x98badcfe, 0x10325476, 0xc3d2e1f0⟩

/-- 6.1.2, steps 2 and 3: the working variables before round `t`. -/
def vars (h : Vars) (block : Nat → Word) : Nat → Vars
  | 0 => h
  | t + 1 =>
    let v := vars h block t
    ⟨v.a.rotateLeft 5 + f t v.b v.c v.d + v.e + K t + W block t, v.a, v.b.rotateLeft 30, v.c, v.d⟩

/-- 6.1.2, step 4: the hash value after `i` blocks. -/
def H (p : Bytes) : Nat → Vars
  | 0 => H0
  | i + 1 =>
    let h := H p i
    let v := vars h (M p i) 80
    ⟨h.a + v.a, h.b + v.b, h.c + v.c, h.d + v.d, h.e + v.e⟩

/-- The bytes of a word, the highest first. -/
def bytes (w : Word) : Bytes := (List.range 4).map (fun i => UInt8.ofNat (w.toNat / 256 ^ (3 - i)))

end Sha1

/-- SHA-1 of a message. -/
def sha1 (m : Bytes) : Bytes :=
  let h := Sha1.H (Sha1.pad m) ((Sha1.pad m).length / 64)
  Sha1.bytes h.a ++ Sha1.bytes h.b ++ Sha1.bytes h.c ++ Sha1.bytes h.d ++ Sha1.bytes h.e

/-- The lowest `n` bits of a number, the highest first. -/
def bits (n v : Nat) : List Bool := (List.range n).map (fun i => v.testBit (n - 1 - i))

/-- RFC 4648, table 1. -/
def alphabet : Bytes := b!"ABCDEFGHIJKLMNOPQRSTUVWXYZabcdefghijklmnopqrstuvwxyz0123456789+/"

/-- RFC 4648, section 4: the bits of the data, in groups of six, the last group filled up with zeros, each group as a character; then as
many `=` as it takes to make the length a multiple of four. -/
def Base64 (data text : Bytes) : Prop :=
  ∃ (groups : List Nat) (zeros pads : Nat), (∀ g ∈ groups, g < 64) ∧ zeros < 6 ∧ pads < 4 ∧
    groups.flatMap (bits 6) = data.flatMap (fun b => bits 8 b.toNat) ++ List.replicate zeros false ∧
    text = groups.map (fun g => alphabet.getD g 0) ++ List.replicate pads 61 ∧ text.length % 4 = 0

/-- RFC 6455, section 4.2.2, 5.4: the accept value for a key. -/
def Accept (key text : Bytes) : Prop := Base64 (sha1 (key ++ b!"258EAFA5-E914-47DA-95CA-C5AB0DC85B11")) text

end Httpd.Spec
