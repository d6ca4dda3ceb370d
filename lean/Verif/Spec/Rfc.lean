import Verif.Spec.Loose
/-!
# Specification: request heads of RFC 9112

`request-line *( field-line CRLF ) CRLF` with the characters that RFC 9110 and 9112 allow. A target is any sequence of visible
characters: the inner structure of targets does not matter here.
-/

namespace Httpd.Spec

/-- RFC 9110, 5.5: what may stand after the colon of a field line: visible characters, bytes from 128 on, spaces and tabs. -/
def IsFieldByte (b : Byte) : Prop := 32 ≤ b ∧ b ≤ 126 ∨ 128 ≤ b ∨ b = 9

instance (b : Byte) : Decidable (IsFieldByte b) := inferInstanceAs (Decidable (_ ∨ _))

/-- A field line: the name, and everything between the colon and the line end. -/
structure RfcField where
  name : Bytes
  raw : Bytes

/-- A head: method, target, the two digits of the version, and the field lines. -/
structure RfcHead where
  method : Bytes
  target : Bytes
  major : Byte
  minor : Byte
  fields : List RfcField

/-- `HTTP/` DIGIT `.` DIGIT. -/
def RfcHead.version (h : RfcHead) : Bytes := b!"HTTP/" ++ [h.major, 46, h.minor]

/-- One field line. -/
def RfcField.line (f : RfcField) : Bytes := f.name ++ 58 :: f.raw ++ [13, 10]

/-- The field lines and the empty line. -/
def rfcFields (fs : List RfcField) : Bytes := (fs.map RfcField.line).flatten ++ [13, 10]

/-- The bytes of a head. -/
def RfcHead.encode (h : RfcHead) : Bytes :=
  h.method ++ [32] ++ (h.target ++ [32] ++ (h.version ++ [13, 10] ++ rfcFields h.fields))

/-- The heads of RFC 9112. -/
structure RfcHead.Valid (h : RfcHead) : Prop where
  method_ne : h.method ≠ []
  method_char : ∀ b ∈ h.method, IsTchar b
  target_ne : h.target ≠ []
  target_char : ∀ b ∈ h.target, IsVisible b
  major_digit : 48 ≤ h.major ∧ h.major ≤ 57
  minor_digit : 48 ≤ h.minor ∧ h.minor ≤ 57
  names : ∀ f ∈ h.fields, f.name ≠ [] ∧ ∀ b ∈ f.name, IsTchar b
  raws : ∀ f ∈ h.fields, ∀ b ∈ f.raw, IsFieldByte b

/-- The head is within the limits of the server: the method and its space 128 bytes, the target and its space `maxUrl`, a field line
`maxLine` and its name 256, and a field is allowed at all. -/
structure RfcHead.Within (maxUrl maxLine maxCount : Nat) (h : RfcHead) : Prop where
  method_len : h.method.length + 1 ≤ 128
  target_len : h.target.length + 1 ≤ maxUrl
  lines : ∀ f ∈ h.fields, f.line.length ≤ maxLine
  name_len : ∀ f ∈ h.fields, f.name.length ≤ 256
  room : 2 ≤ maxLine
  count : h.fields.length ≤ maxCount

/-- `v` is the value of a field: the raw part without the spaces and tabs at its ends. -/
def IsValue (raw v : Bytes) : Prop :=
  ∃ a b, raw = a ++ v ++ b ∧ (∀ x ∈ a ++ b, x = 32 ∨ x = 9) ∧ v.head? ≠ some 32 ∧ v.head? ≠ some 9 ∧ v.getLast? ≠ some 32 ∧
    v.getLast? ≠ some 9

/-- The values `vs` are those of the fields with the name `k` (in lower case), in order. -/
inductive Values (k : Bytes) : List RfcField → List Bytes → Prop
  | nil : Values k [] []
  | other (f : RfcField) (fs : List RfcField) (vs : List Bytes) : lower f.name ≠ k → Values k fs vs → Values k (f :: fs) vs
  | this (f : RfcField) (fs : List RfcField) (v : Bytes) (vs : List Bytes) : lower f.name = k → IsValue f.raw v → Values k fs vs →
      Values k (f :: fs) (v :: vs)

/-- The part of the field grammar that the server understands: something follows the colon, and it is printable ASCII and spaces. -/
def RfcField.Plain (f : RfcField) : Prop := f.raw ≠ [] ∧ ∀ b ∈ f.raw, IsText b

instance (f : RfcField) : Decidable f.Plain := inferInstanceAs (Decidable (_ ∧ _))

end Httpd.Spec
