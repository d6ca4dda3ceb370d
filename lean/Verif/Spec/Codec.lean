import Verif.Model.Message
/-!
# Specification: what is expected of the compression crates, and the modes of a message body

The crates `flate2` and `brotli` are not modelled. What is assumed of them is stated here, about the interface through which
src/message.rs uses them.
-/

namespace Httpd.Spec

/-- The state of a codec after the pieces `ps` were handed to it. -/
def fed {K : Type} (c : Codec K) (k : K) (ps : List Bytes) : K := ps.foldl (fun k p => (c.append k p).1) k

/-- The levels for which an encoder is specified: any for Brotli, 0 to 9 for the others. -/
def levelOk (ct : CompressionType) (level : Nat) : Prop := ct = .brotli ∨ level ≤ 9

/-- A codec that accepts whole writes and whose decoder inverts its encoder. What the encoder produces for the pieces `ps` may
depend on how they were cut and on the level (`enc`); encoder and decoder append to the buffer they were given. -/
structure Lawful {K : Type} (c : Codec K) (ct : CompressionType) (enc : Nat → List Bytes → Bytes) : Prop where
  enc_accepts : ∀ level, levelOk ct level → ∀ buf ps p, (c.append (fed c (c.compressor ct level buf) ps) p).2 = some p.length
  enc_expose : ∀ level, levelOk ct level → ∀ buf ps, c.expose (fed c (c.compressor ct level buf) ps) = some (buf ++ enc level ps)
  dec_accepts : ∀ buf ps p, (c.append (fed c (c.decompressor ct buf) ps) p).2 = some p.length
  dec_expose : ∀ level ps, levelOk ct level → ∀ buf qs, qs.flatten = enc level ps →
    c.expose (fed c (c.decompressor ct buf) qs) = some (buf ++ ps.flatten)

/-- The operations on a message body. -/
inductive BodyOp
  | write (v : Bytes)
  | compression (ct : CompressionType) (level : Nat)
  | decompression (ct : CompressionType)
  | finish
  | clear
  | size
  | inner
  | writeRaw (v : Bytes)

/-- The modes of a body: with its buffer, inside a codec, with neither. -/
inductive Mode
  | plain
  | codec
  | broken
deriving DecidableEq

/-- What an operation does to the mode; `none` = the operation panics. `ok` tells whether the codec, when it is asked for its
buffer, delivers it. -/
def Mode.next (ok : Bool) : Mode → BodyOp → Option Mode
  | .plain, .write _ | .plain, .writeRaw _ | .plain, .finish | .plain, .clear | .plain, .inner => some .plain
  | .plain, .compression _ _ | .plain, .decompression _ => some .codec
  | .codec, .write _ => some .codec
  | .codec, .finish => some (match ok with | true => .plain | false => .broken)
  | .codec, .clear => some .plain
  | .broken, .finish | .broken, .clear => some .broken
  | m, .size => some m
  | _, _ => none

end Httpd.Spec
