import Verif.Spec.Logging
/-!
# What a terminal shows

A terminal that knows the sequences for setting the colour of the text (ECMA-48 "select graphic rendition", with the 24-bit colours of
ITU T.416): from the escape character up to the letter `m` nothing is shown; what is shown is shown in the colour set last.
-/

namespace Httpd.Spec

open Httpd

/-- The colour of the text; `none` = the colour the terminal has by default. -/
abbrev Pen := Option (Nat × Nat × Nat)

/-- Numbers separated by semicolons. -/
def sgrNumbers : Nat → Bytes → List Nat
  | acc, [] => [acc]
  | acc, c :: cs => if c = 59 then acc :: sgrNumbers 0 cs else sgrNumbers (acc * 10 + (c.toNat - 48)) cs

/-- The colour after a sequence, given without its first character (the escape) and its last (`m`). -/
def sgrPen (pen : Pen) (seq : Bytes) : Pen :=
  match sgrNumbers 0 (seq.drop 1) with
  | [38, 2, r, g, b] => some (r, g, b)
  | [0] => none
  | _ => pen

/-- What is shown, character by character, when the terminal is inside a sequence of which it has seen `seq` (`none` = outside). -/
def shows : Option Bytes → Pen → Bytes → List (Byte × Pen)
  | _, _, [] => []
  | none, pen, c :: cs => if c = 27 then shows (some []) pen cs else (c, pen) :: shows none pen cs
  | some seq, pen, c :: cs => if c = 109 then shows none (sgrPen pen seq) cs else shows (some (seq ++ [c])) pen cs

/-- A text in one colour. -/
def inPen (txt : Bytes) (pen : Pen) : List (Byte × Pen) := txt.map (·, pen)

/-- A configured colour as the terminal is to show it; no colour, and the colour `(0, 0, 1)`, mean the default. -/
def penOf : Option Color → Pen
  | none => none
  | some c => if (c.r, c.g, c.b) = (0, 0, 1) then none else some (c.r, c.g, c.b)

/-- `IsColourOf levels l c`: `c` is what the scheme configures for the level `l`. -/
inductive IsColourOf : Option LevelColors → Level → Option Color → Prop
  | off (l) : IsColourOf none l none
  | error (t d i w e) : IsColourOf (some { trace := t, debug := d, info := i, warn := w, error := e }) .error e
  | warn (t d i w e) : IsColourOf (some { trace := t, debug := d, info := i, warn := w, error := e }) .warn w
  | info (t d i w e) : IsColourOf (some { trace := t, debug := d, info := i, warn := w, error := e }) .info i
  | debug (t d i w e) : IsColourOf (some { trace := t, debug := d, info := i, warn := w, error := e }) .debug d
  | trace (t d i w e) : IsColourOf (some { trace := t, debug := d, info := i, warn := w, error := e }) .trace t

/-- The colours of the levels unless configured otherwise. -/
def usualColour : Level → Nat × Nat × Nat
  | .error => (237, 90, 101)
  | .warn => (252, 211, 55)
  | .info => (91, 174, 35)
  | .debug => (46, 49, 124)
  | .trace => (94, 102, 91)

/-- The line of a record as it is to be shown, the colour of its level being `c`. -/
def shownLine (scheme : ColorScheme) (c : Option Color) (item : Item) : List (Byte × Pen) :=
  inPen ([91] ++ levelWord item.level ++ [93]) (penOf c) ++ inPen b!" " none ++ inPen item.time (penOf scheme.time) ++ inPen b!" (" none ++
  inPen item.file (penOf scheme.file) ++ inPen b!":" none ++ inPen (natToBytes item.line) (penOf scheme.line) ++ inPen b!") " none ++
  inPen item.msg (penOf c) ++
  (if item.kvs = [] then [] else
    inPen b!" { " none ++
    (inPen b!" , " none).intercalate (item.kvs.map fun kv => inPen kv.1 (penOf scheme.key) ++ inPen b!": " none ++ inPen kv.2 (penOf c)) ++
    inPen b!" }" none) ++
  inPen b!"\r\n" none

/-- No text of the record holds an escape character. -/
def NoEscape (item : Item) : Prop := 27 ∉ item.time ∧ 27 ∉ item.file ∧ 27 ∉ item.msg ∧ ∀ kv ∈ item.kvs, 27 ∉ kv.1 ∧ 27 ∉ kv.2

end Httpd.Spec
