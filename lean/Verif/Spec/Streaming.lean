import Verif.Model.Message
/-!
# Specification: codecs that may take a part of what they are given

The contract of `std::io::Write` for a codec: a write takes some bytes, at least one unless there is a reason, and says how many.
-/

namespace Httpd.Spec

/-- `Took c k0 s k`: by some calls of `append`, whatever was offered in them, the codec has gone from `k0` to `k` and has taken the bytes `s`
in all. -/
inductive Took {K : Type} (c : Codec K) (k0 : K) : Bytes → K → Prop
  | start : Took c k0 [] k0
  | more {s : Bytes} {k : K} (p : Bytes) (n : Nat) (k' : K) : Took c k0 s k → c.append k p = (k', some n) → n ≤ p.length →
      Took c k0 (s ++ p.take n) k'

/-- A codec that keeps to the contract of `Write` and whose decoder inverts its encoder. `E s z`: `z` is an encoding of `s`; there may be
many, depending on the level and on how the text was cut. The decoder need not take anything after the end of an encoding. -/
structure Streaming {K : Type} (c : Codec K) (ct : CompressionType) (E : Bytes → Bytes → Prop) : Prop where
  enc_takes : ∀ level, (ct = .brotli ∨ level ≤ 9) → ∀ buf s k, Took c (c.compressor ct level buf) s k → ∀ p, p ≠ [] →
    ∃ k' n, c.append k p = (k', some n) ∧ 1 ≤ n ∧ n ≤ p.length
  enc_expose : ∀ level, (ct = .brotli ∨ level ≤ 9) → ∀ buf s k, Took c (c.compressor ct level buf) s k →
    ∃ z, c.expose k = some (buf ++ z) ∧ E s z
  dec_takes : ∀ s z, E s z → ∀ buf t k, Took c (c.decompressor ct buf) t k → ∀ p, p ≠ [] → (t ++ p) <+: z →
    ∃ k' n, c.append k p = (k', some n) ∧ 1 ≤ n ∧ n ≤ p.length
  dec_expose : ∀ s z, E s z → ∀ buf k, Took c (c.decompressor ct buf) z k → c.expose k = some (buf ++ s)

end Httpd.Spec
