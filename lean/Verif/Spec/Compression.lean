import Verif.Model.Compression
/-!
# Specification: what is expected of each writer of the compression crates

Stated about the functions of the crates, each on its own, not about the interface of src/compression.rs. `E s z`: `z` is an encoding of `s`.
-/

namespace Httpd.Spec

variable {W : WriterKind → Type}

/-- By some calls of `write`, whatever was offered in them, the writer has gone from `w0` to `w` and has taken the bytes `s` in all. -/
inductive Wrote (x : Crates W) {k : WriterKind} (w0 : W k) : Bytes → W k → Prop
  | start : Wrote x w0 [] w0
  | more {s : Bytes} {w : W k} (p : Bytes) (n : Nat) (w' : W k) : Wrote x w0 s w → x.write k w p = (w', some n) → n ≤ p.length →
      Wrote x w0 (s ++ p.take n) w'

/-- `write` takes at least one byte of what it is offered, and not more than that. -/
def Takes (x : Crates W) {k : WriterKind} (w : W k) (p : Bytes) : Prop := ∃ w' n, x.write k w p = (w', some n) ∧ 1 ≤ n ∧ n ≤ p.length

/-- An encoder: it takes everything, and what `done` then gives is what was in the buffer and an encoding of what was taken. -/
def Encodes (x : Crates W) {k : WriterKind} (w0 : W k) (done : W k → Option Bytes) (buf : Bytes) (E : Bytes → Bytes → Prop) : Prop :=
  ∀ s w, Wrote x w0 s w → (∀ p, p ≠ [] → Takes x w p) ∧ ∃ z, done w = some (buf ++ z) ∧ E s z

/-- A decoder: it takes what belongs to an encoding, and after a whole one `done` gives what was in the buffer and the text. -/
def Decodes (x : Crates W) {k : WriterKind} (w0 : W k) (done : W k → Option Bytes) (buf : Bytes) (E : Bytes → Bytes → Prop) : Prop :=
  ∀ s z, E s z → ∀ t w, Wrote x w0 t w →
    (∀ p, p ≠ [] → (t ++ p) <+: z → Takes x w p) ∧ (t = z → done w = some (buf ++ s))

/-- The documented way to end each writer, successful if all its steps are: `finish` in `flate2`; `flush` and `into_inner` for a Brotli compressor,
which must not be disturbed by the `flush`; `close` and `into_inner` for a Brotli decompressor. -/
structure Sound (x : Crates W) (E : CompressionType → Bytes → Bytes → Prop) : Prop where
  gzEnc : ∀ buf level, level ≤ 9 → Encodes x (x.gzEncoder buf level) x.gzEncFinish buf (E .gzip)
  gzDec : ∀ buf, Decodes x (x.gzDecoder buf) x.gzDecFinish buf (E .gzip)
  deflateEnc : ∀ buf level, level ≤ 9 → Encodes x (x.deflateEncoder buf level) x.deflateEncFinish buf (E .deflate)
  deflateDec : ∀ buf, Decodes x (x.deflateDecoder buf) x.deflateDecFinish buf (E .deflate)
  brEnc : ∀ buf quality, Encodes x (x.brCompressor buf quality)
    (fun w => if (x.brFlush w).2 && (x.brEncInner (x.brFlush w).1).2 then some (x.brEncInner (x.brFlush w).1).1 else none) buf (E .brotli)
  brDec : ∀ buf, Decodes x (x.brDecompressor buf)
    (fun w => if (x.brClose w).2 && (x.brDecInner (x.brClose w).1).2 then some (x.brDecInner (x.brClose w).1).1 else none) buf (E .brotli)

/-- Was every step of ending a writer successful? -/
def endsWell (x : Crates W) : Boxed W → Bool
  | ⟨.gzEnc, w⟩ => (x.gzEncFinish w).isSome
  | ⟨.gzDec, w⟩ => (x.gzDecFinish w).isSome
  | ⟨.deflateEnc, w⟩ => (x.deflateEncFinish w).isSome
  | ⟨.deflateDec, w⟩ => (x.deflateDecFinish w).isSome
  | ⟨.brEnc, w⟩ => (x.brFlush w).2 && (x.brEncInner (x.brFlush w).1).2
  | ⟨.brDec, w⟩ => (x.brClose w).2 && (x.brDecInner (x.brClose w).1).2

/-- What a body does with its writer: the buffer it has after `end`, if `end` returns `Ok`. -/
def endedWith {K : Type} (c : Codec K) (k : K) : Option Bytes :=
  match ({ internal := none, cw := some k } : Body K).finish c with
  | (b, true) => b.internal
  | (_, false) => none

/-- The best quality Brotli knows, and what the crate makes of other values: the nearest of 0 to 11. -/
def nearestQuality (q : Int) : Int := max 0 (min 11 q)

end Httpd.Spec
