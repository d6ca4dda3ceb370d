import Verif.Spec.Head
/-! # Specification: header lines written without regard to the rules for names -/

namespace Httpd.Spec

/-- A header line as a client may write it, without regard to the rules for names: a name with spaces around it, and a value. -/
structure LooseField where
  before : Nat
  name : Bytes
  after : Nat
  value : Bytes

/-- The line. -/
def LooseField.line (f : LooseField) : Bytes :=
  List.replicate f.before 32 ++ f.name ++ List.replicate f.after 32 ++ [58, 32] ++ f.value ++ [13, 10]

/-- What is asked of such a line: printable bytes and spaces, no colon in the name, the sizes within the limits. -/
structure LooseField.Fits (maxLine : Nat) (f : LooseField) : Prop where
  name_ne : f.name ≠ []
  name_text : ∀ b ∈ f.name, IsText b ∧ b ≠ 58
  name_first : f.name.head? ≠ some 32
  name_last : f.name.getLast? ≠ some 32
  name_len : f.before + f.name.length + f.after ≤ 256
  value_text : ∀ b ∈ f.value, IsText b
  value_first : f.value.head? ≠ some 32
  value_last : f.value.getLast? ≠ some 32
  line_len : f.line.length ≤ maxLine

/-- The field such a line is taken for. -/
def LooseField.field (f : LooseField) : Field := ⟨f.name, f.value, 1, 0⟩

/-- The characters RFC 9110 5.6.2 allows in a header name: letters, digits and ``!#$%&'*+-.^_`|~``. -/
def IsTchar (b : Byte) : Prop :=
  (48 ≤ b ∧ b ≤ 57) ∨ (65 ≤ b ∧ b ≤ 90) ∨ (97 ≤ b ∧ b ≤ 122) ∨ b ∈ b!"!#$%&'*+-.^_`|~"

instance (b : Byte) : Decidable (IsTchar b) := inferInstanceAs (Decidable (_ ∨ _))

end Httpd.Spec
