import Verif.Base.Bytes
/-! # Decimal numbers -/

namespace Httpd.Spec

/-- An ASCII decimal digit. -/
def IsDigit (b : Byte) : Prop := 48 ≤ b.toNat ∧ b.toNat ≤ 57

instance (b : Byte) : Decidable (IsDigit b) := inferInstanceAs (Decidable (_ ∧ _))

/-- The value of a decimal numeral. -/
def decValue : Bytes → Nat
  | [] => 0
  | d :: ds => (d.toNat - 48) * 10 ^ ds.length + decValue ds

/-- `s` is a decimal numeral, possibly with a plus sign, of value `n`. -/
def Numeral (s : Bytes) (n : Nat) : Prop :=
  ∃ ds, (s = ds ∨ s = 43 :: ds) ∧ ds ≠ [] ∧ (∀ b ∈ ds, IsDigit b) ∧ decValue ds = n

end Httpd.Spec
