import Verif.Model.Message
/-!
# Model of src/compression.rs: the writers of the crates `flate2` and `brotli` behind one interface

`Model/Message` has `Codec K`, the interface `BoxedWriteCompressionImpl`. Here it is made, as src/compression.rs and the constructor calls of
src/message.rs:52-92 do it, of the six writers of the two crates. The writers themselves are parameters.
-/

namespace Httpd

/-- The writers: `flate2::write::{GzEncoder, GzDecoder, DeflateEncoder, DeflateDecoder}`, `brotli::CompressorWriter` and
`brotli::DecompressorWriter` (src/compression.rs:35-40, 53), each on top of a `Box<ByteBuffer>`. -/
inductive WriterKind
  | gzEnc | gzDec | deflateEnc | deflateDec | brEnc | brDec
deriving DecidableEq

/-- What this project uses of the two crates. `W k` is the state of a writer of kind `k`. -/
structure Crates (W : WriterKind → Type) where
  /-- `GzEncoder::new(buf, Compression::new(level))`. -/
  gzEncoder : Bytes → Nat → W .gzEnc
  /-- `GzDecoder::new(buf)`. -/
  gzDecoder : Bytes → W .gzDec
  /-- `DeflateEncoder::new(buf, Compression::new(level))`. -/
  deflateEncoder : Bytes → Nat → W .deflateEnc
  /-- `DeflateDecoder::new(buf)`. -/
  deflateDecoder : Bytes → W .deflateDec
  /-- `CompressorWriter::with_params(buf, 4096, &params)` with `params.quality`, the rest default. -/
  brCompressor : Bytes → Int → W .brEnc
  /-- `DecompressorWriter::new(buf, 4096)`. -/
  brDecompressor : Bytes → W .brDec
  /-- `std::io::Write::write`: the number of bytes taken, or `none` on error. -/
  write : (k : WriterKind) → W k → Bytes → W k × Option Nat
  /-- `finish(self) -> io::Result<_>` of the writers of `flate2`. -/
  gzEncFinish : W .gzEnc → Option Bytes
  gzDecFinish : W .gzDec → Option Bytes
  deflateEncFinish : W .deflateEnc → Option Bytes
  deflateDecFinish : W .deflateDec → Option Bytes
  /-- `CompressorWriter::flush`. -/
  brFlush : W .brEnc → W .brEnc × Bool
  /-- `CompressorWriter::into_inner`: it writes the end of the stream and gives the buffer. The `Bool`, which the function does not return,
  says whether the end could be written. -/
  brEncInner : W .brEnc → Bytes × Bool
  /-- `DecompressorWriter::close`. -/
  brClose : W .brDec → W .brDec × Bool
  /-- `DecompressorWriter::into_inner(self) -> Result<_, _>`: the buffer in both cases, `true` for `Ok`. -/
  brDecInner : W .brDec → Bytes × Bool

/-- `level as i32` for a `u32` (src/message.rs:59). -/
def asI32 (level : Nat) : Int := if level % 4294967296 < 2147483648 then (level % 4294967296 : Nat) else ((level % 4294967296 : Nat) : Int) - 4294967296

/-- A writer of some kind: `Box<dyn BoxedWriteCompressionImpl>`. -/
abbrev Boxed (W : WriterKind → Type) : Type := (k : WriterKind) × W k

variable {W : WriterKind → Type}

/-- src/message.rs:55-75: the writer for a type of compression. The level is that of `Body.compression`, capped there for the writers of
`flate2`. -/
def Crates.compressor (x : Crates W) : CompressionType → Nat → Bytes → Boxed W
  | .brotli, level, buf => ⟨.brEnc, x.brCompressor buf (asI32 level)⟩
  | .deflate, level, buf => ⟨.deflateEnc, x.deflateEncoder buf level⟩
  | .gzip, level, buf => ⟨.gzEnc, x.gzEncoder buf level⟩

/-- src/message.rs:81-91. -/
def Crates.decompressor (x : Crates W) : CompressionType → Bytes → Boxed W
  | .brotli, buf => ⟨.brDec, x.brDecompressor buf⟩
  | .deflate, buf => ⟨.deflateDec, x.deflateDecoder buf⟩
  | .gzip, buf => ⟨.gzDec, x.gzDecoder buf⟩

/-- src/compression.rs:24-26, 41-43, 54-56 `append`. -/
def Crates.append (x : Crates W) (b : Boxed W) (v : Bytes) : Boxed W × Option Nat :=
  let (w, n) := x.write b.1 b.2 v
  (⟨b.1, w⟩, n)

/-- src/compression.rs:45-50 `_expose` of the Brotli compressor. -/
def Crates.exposeBrEnc (x : Crates W) (w : W .brEnc) : Option Bytes :=
  match x.brFlush w with
  | (w', true) => some (x.brEncInner w').1
  | (_, false) => none

/-- src/compression.rs:58-64 `_expose` of the Brotli decompressor: both results of `into_inner` are `Ok`. -/
def Crates.exposeBrDec (x : Crates W) (w : W .brDec) : Option Bytes :=
  match x.brClose w with
  | (_, false) => none
  | (w', true) =>
    match x.brDecInner w' with
    | (v, true) => some v
    | (v, false) => some v

/-- src/compression.rs:16-18, 28-30, 45-50, 58-64 `expose`. -/
def Crates.expose (x : Crates W) : Boxed W → Option Bytes
  | ⟨.gzEnc, w⟩ => x.gzEncFinish w
  | ⟨.gzDec, w⟩ => x.gzDecFinish w
  | ⟨.deflateEnc, w⟩ => x.deflateEncFinish w
  | ⟨.deflateDec, w⟩ => x.deflateDecFinish w
  | ⟨.brEnc, w⟩ => x.exposeBrEnc w
  | ⟨.brDec, w⟩ => x.exposeBrDec w

/-- The interface of `Model/Message`, made of the crates. -/
def Crates.codec (x : Crates W) : Codec (Boxed W) :=
  { compressor := x.compressor, decompressor := x.decompressor, append := x.append, expose := x.expose }

end Httpd
