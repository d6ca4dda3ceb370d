import Verif.Base.RustInt
/-!
# Which command lines name a file (C239)

Written down from the usage line that the program prints: `httpd [config]`.
-/

namespace Httpd.Spec

/-- An argument that is not taken for a flag. -/
def NoFlag (a : Bytes) : Prop := a = b!"-" ∨ a.head? ≠ some 45

/-- This command line names this file. Without a file it names `""`. A name that begins with a hyphen stands after `--`. -/
inductive Names : List Bytes → List Nat → Prop
  | none : Names [] []
  | dashes : Names [b!"--"] []
  | one (a : Bytes) (f : List Nat) : NoFlag a → decodeUtf8 a = some f → Names [a] f
  | oneDashes (a : Bytes) (f : List Nat) : NoFlag a → decodeUtf8 a = some f → Names [a, b!"--"] f
  | dashesOne (a : Bytes) (f : List Nat) : decodeUtf8 a = some f → Names [b!"--", a] f

/-- The flags that ask for help: `--help`, and `-h` with or without further short flags. -/
def IsHelp (a : Bytes) : Prop := a = b!"--help" ∨ b!"-h" <+: a

/-- This command line asks for help: the first argument does, or the second one and the first is a file. -/
inductive AsksHelp : List Bytes → Prop
  | first (a : Bytes) (rest : List Bytes) : IsHelp a → AsksHelp (a :: rest)
  | second (a h : Bytes) (rest : List Bytes) : NoFlag a → (decodeUtf8 a).isSome → IsHelp h → AsksHelp (a :: h :: rest)

end Httpd.Spec
