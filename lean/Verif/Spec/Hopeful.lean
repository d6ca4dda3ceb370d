import Verif.Spec.Grammar
/-!
# Specification: beginnings of heads that can still become heads

`HeadOpen` (Spec/Grammar.lean) says which bytes the server takes for an unfinished head. Here is which of them can still become a head.
The two differ in the piece that is not finished only.
-/

namespace Httpd.Spec

/-- A beginning of a version with its line end: printable, save that the last byte may be the one before the end of the line, if
something is in front of it. (The version is at most 128 bytes long, and the last two may be one character of two bytes.) -/
inductive VersionHope : Bytes → Prop
  | start (s : Bytes) : s.length ≤ 1 → (∀ b ∈ s, IsText b) → VersionHope s
  | more (w : Bytes) (x : Byte) : w ≠ [] → (∀ b ∈ w, IsText b) → x < 0x80 → VersionHope (w ++ [x])
  | full (w : Bytes) (x : Byte) : w.length = 126 → (∀ b ∈ w, IsText b) → 0xC2 ≤ x → x ≤ 0xDF → VersionHope (w ++ [x])

/-- A beginning of a header line: two bytes of any kind, which may be the line that ends the section; or a line of printable bytes
(save the last) without colon or with a name and a value, in which the name is not too long. A colon needs room for a value. -/
inductive LineHope (maxLine maxCount : Nat) : Bytes → Prop
  | short (s : Bytes) : s.length ≤ 2 → LineHope maxLine maxCount s
  | plain (w : Bytes) (z : Byte) : w ≠ [] → (∀ b ∈ w, IsText b) → 58 ∉ w → w.length ≤ 256 → LineHope maxLine maxCount (w ++ [z])
  | field (n v : Bytes) (z : Byte) : (∀ b ∈ n, IsText b) → 58 ∉ n → n.length ≤ 256 → (∀ b ∈ v, IsText b) → v ≠ [] → 1 ≤ maxCount →
      LineHope maxLine maxCount (n ++ 58 :: v ++ [z])
  | colon (n : Bytes) (z : Byte) : (∀ b ∈ n, IsText b) → 58 ∉ n → n.length ≤ 256 → IsText z → 1 ≤ maxCount → n.length + 4 ≤ maxLine →
      LineHope maxLine maxCount (n ++ [58, z])

/-- A header section that is not complete yet but can be completed. -/
inductive SectionHope (maxLine maxCount : Nat) : Bytes → Prop
  | here (s : Bytes) : 10 ∉ s → s.length < maxLine → LineHope maxLine maxCount s → SectionHope maxLine maxCount s
  | skip (l : Bytes) (x y : Byte) (s : Bytes) :
      Taken 10 maxLine false (l ++ [x, y]) s → l ≠ [] → (∀ b ∈ l, IsText b) → 58 ∉ l → l.length ≤ 256 →
      SectionHope maxLine maxCount s → SectionHope maxLine maxCount (l ++ [x, y] ++ s)
  | field (n v : Bytes) (x y : Byte) (s : Bytes) :
      Taken 10 maxLine false (n ++ 58 :: v ++ [x, y]) s → (∀ b ∈ n, IsText b) → 58 ∉ n → n.length ≤ 256 → (∀ b ∈ v, IsText b) →
      v ≠ [] → 1 ≤ maxCount → SectionHope maxLine maxCount s → SectionHope maxLine maxCount (n ++ 58 :: v ++ [x, y] ++ s)

/-- A head that is not complete yet but can be completed. -/
inductive HeadHope (maxUrl maxLine maxCount : Nat) : Bytes → Prop
  | method (s : Bytes) : 32 ∉ s → s.length < 128 → (∀ c ∈ s, IsText c) → HeadHope maxUrl maxLine maxCount s
  | target (w0 : Bytes) (a : Byte) (s : Bytes) : Taken 32 128 false (w0 ++ [a]) s → (∀ c ∈ w0, IsText c) →
      32 ∉ s → s.length < maxUrl → (∀ c ∈ s, IsText c) → HeadHope maxUrl maxLine maxCount (w0 ++ [a] ++ s)
  | version (w0 w1 : Bytes) (a b : Byte) (s : Bytes) : Taken 32 128 false (w0 ++ [a]) (w1 ++ [b] ++ s) → (∀ c ∈ w0, IsText c) →
      Taken 32 maxUrl false (w1 ++ [b]) s → (∀ c ∈ w1, IsText c) → 10 ∉ s → s.length < 128 → VersionHope s →
      HeadHope maxUrl maxLine maxCount (w0 ++ [a] ++ (w1 ++ [b] ++ s))
  | fields (w0 w1 w2 : Bytes) (a b x y : Byte) (s : Bytes) :
      Taken 32 128 false (w0 ++ [a]) (w1 ++ [b] ++ (w2 ++ [x, y] ++ s)) → (∀ c ∈ w0, IsText c) →
      Taken 32 maxUrl false (w1 ++ [b]) (w2 ++ [x, y] ++ s) → (∀ c ∈ w1, IsText c) →
      Taken 10 128 false (w2 ++ [x, y]) s → w2 ≠ [] → (∀ c ∈ w2, IsText c) → TwoBytes x y →
      SectionHope maxLine maxCount s →
      HeadHope maxUrl maxLine maxCount (w0 ++ [a] ++ (w1 ++ [b] ++ (w2 ++ [x, y] ++ s)))

end Httpd.Spec
