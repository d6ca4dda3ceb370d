import Verif.Spec.Head
import Verif.Spec.Number
import Verif.Base.RustInt
/-! # Specification: the version text of a request -/

namespace Httpd.Spec

/-- `s` is `http` in any case, a slash, a decimal number `a`, a dot and a decimal number `b`, both at most 255. -/
def IsVersion (s : Bytes) (a b : Nat) : Prop :=
  ∃ p t u, s = p ++ [47] ++ t ++ [46] ++ u ∧ lower p = b!"http" ∧ Numeral t a ∧ Numeral u b ∧ a ≤ 255 ∧ b ≤ 255

/-- `s` is `http` in any case, a slash, a decimal number `a` of at most 255, a dot and anything. -/
def HasMajor (s : Bytes) (a : Nat) : Prop :=
  ∃ p t u, s = p ++ [47] ++ t ++ [46] ++ u ∧ lower p = b!"http" ∧ Numeral t a ∧ a ≤ 255

/-- The version text a client writes for `a.b`. -/
def versionText (a b : Nat) : Bytes := b!"HTTP/" ++ natToBytes a ++ [46] ++ natToBytes b

end Httpd.Spec
