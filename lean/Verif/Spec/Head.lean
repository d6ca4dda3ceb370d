import Verif.Base.Bytes
/-!
# Specification: request and response heads as the peer writes them

Does not mention the model.
-/

namespace Httpd.Spec

/-- Printable ASCII or space. -/
def IsText (b : Byte) : Prop := 32 ≤ b ∧ b ≤ 126

instance (b : Byte) : Decidable (IsText b) := inferInstanceAs (Decidable (_ ∧ _))

/-- Printable ASCII without space. -/
def IsVisible (b : Byte) : Prop := 33 ≤ b ∧ b ≤ 126

instance (b : Byte) : Decidable (IsVisible b) := inferInstanceAs (Decidable (_ ∧ _))

/-- ASCII lower-casing of a name. -/
def lower (s : Bytes) : Bytes := s.map (fun b => if 65 ≤ b ∧ b ≤ 90 then b + 32 else b)

/-- A header field with the optional spaces around its value. -/
structure Field where
  name : Bytes
  value : Bytes
  pre : Nat
  post : Nat

/-- `name: value` CRLF. -/
def Field.line (f : Field) : Bytes :=
  f.name ++ [58] ++ List.replicate f.pre 32 ++ f.value ++ List.replicate f.post 32 ++ [13, 10]

/-- A head: three words and header fields. -/
structure WireHead where
  w0 : Bytes
  w1 : Bytes
  w2 : Bytes
  fields : List Field

/-- The header section: the field lines and the empty line. -/
def encodeFields (fs : List Field) : Bytes := (fs.map Field.line).flatten ++ [13, 10]

/-- The first line. -/
def WireHead.start (h : WireHead) : Bytes := h.w0 ++ [32] ++ h.w1 ++ [32] ++ h.w2 ++ [13, 10]

/-- The bytes on the wire. -/
def WireHead.encode (h : WireHead) : Bytes := h.start ++ encodeFields h.fields

/-- A well-formed field whose line has at most `maxLine` bytes (line end included). At least one byte follows the colon. -/
structure Field.WF (maxLine : Nat) (f : Field) : Prop where
  name_ne : f.name ≠ []
  name_vis : ∀ b ∈ f.name, IsVisible b ∧ b ≠ 58
  name_len : f.name.length ≤ 256
  value_text : ∀ b ∈ f.value, IsText b
  value_first : f.value.head? ≠ some 32
  value_last : f.value.getLast? ≠ some 32
  after_colon : 1 ≤ f.pre + f.value.length + f.post
  line_len : f.line.length ≤ maxLine

/-- A well-formed start line within the limits: 128 bytes for the first and last word with their delimiters, `maxUrl` for
the second. -/
structure WireHead.StartWF (maxUrl : Nat) (h : WireHead) : Prop where
  w0_vis : ∀ b ∈ h.w0, IsVisible b
  w0_len : h.w0.length + 1 ≤ 128
  w1_vis : ∀ b ∈ h.w1, IsVisible b
  w1_len : h.w1.length + 1 ≤ maxUrl
  w2_text : ∀ b ∈ h.w2, IsText b
  w2_ne : h.w2 ≠ []
  w2_len : h.w2.length + 2 ≤ 128

/-- A well-formed head within the limits. `maxCount` limits the number of fields. -/
structure WireHead.WF (maxUrl maxLine maxCount : Nat) (h : WireHead) : Prop extends h.StartWF maxUrl where
  fields_wf : ∀ f ∈ h.fields, f.WF maxLine
  fields_count : h.fields.length ≤ maxCount
  line_room : 2 ≤ maxLine

/-- The values sent under a name, in order; names compare without regard to case. -/
def valuesOf (fs : List Field) (k : Bytes) : List Bytes := (fs.filter (fun f => lower f.name = k)).map (·.value)

/-- What looking up a name must return. -/
def lookupFields (fs : List Field) (k : Bytes) : Option (List Bytes) :=
  match valuesOf fs k with
  | [] => none
  | vs => some vs

end Httpd.Spec

namespace Httpd.Spec

/-- ASCII lower-casing of one byte. -/
def lowerByte (b : Byte) : Byte := if 65 ≤ b ∧ b ≤ 90 then b + 32 else b

/-- Two byte strings that differ only in the letter case of header names, a header name being the part of a line before its
first colon. The flag says whether a colon has been seen in the current line. -/
inductive Recased : Bool → Bytes → Bytes → Prop
  | nil (c : Bool) : Recased c [] []
  | lf (c : Bool) {s s' : Bytes} : Recased false s s' → Recased c (10 :: s) (10 :: s')
  | name {b b' : Byte} {s s' : Bytes} : b ≠ 10 → b ≠ 58 → lowerByte b = lowerByte b' → Recased false s s' →
      Recased false (b :: s) (b' :: s')
  | colon {s s' : Bytes} : Recased true s s' → Recased false (58 :: s) (58 :: s')
  | value {b : Byte} {s s' : Bytes} : b ≠ 10 → Recased true s s' → Recased true (b :: s) (b :: s')

end Httpd.Spec
