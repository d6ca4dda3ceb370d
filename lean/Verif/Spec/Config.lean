import Verif.Model.Config
/-!
# Sizes, durations, paths: what they mean

`Unicode`, `Str` and the configuration records come from the model; nothing else of it is used.
-/

namespace Httpd.Spec

/-- ASCII lower case of one code point. -/
def lowerPoint (c : Nat) : Nat := if 65 ≤ c ∧ c ≤ 90 then c + 32 else c

/-- What is assumed of the Unicode tables: they are right about ASCII. -/
structure LawfulUnicode (U : Unicode) : Prop where
  numeric_ascii : ∀ c, c < 128 → (U.numeric c = true ↔ 48 ≤ c ∧ c ≤ 57)
  lower_ascii : ∀ s : Str, (∀ c ∈ s, c < 128) → U.lower s = s.map lowerPoint

/-- A string without its white space. -/
def squeeze (s : Str) : Str := s.filter (fun c => !isUnicodeWhitespace c)

/-- An ASCII letter. -/
def IsLetter (c : Nat) : Prop := (65 ≤ c ∧ c ≤ 90) ∨ (97 ≤ c ∧ c ≤ 122)

/-- A number followed by a unit. -/
structure Term where
  digits : Str
  unit : Str
deriving DecidableEq

/-- A number in decimal digits, at least one, and a unit in ASCII letters, possibly none. -/
structure Term.WF (t : Term) : Prop where
  digits_ne : t.digits ≠ []
  digits_ok : ∀ c ∈ t.digits, 48 ≤ c ∧ c ≤ 57
  unit_ok : ∀ c ∈ t.unit, IsLetter c

/-- A non-empty sequence of terms, in which only the last one may go without a unit. -/
def WellSpelt : List Term → Prop
  | [] => False
  | [t] => t.WF
  | t :: u :: ts => t.WF ∧ t.unit ≠ [] ∧ WellSpelt (u :: ts)

/-- `s` is a spelling of the terms, with white space anywhere. -/
def Spells (s : Str) (ts : List Term) : Prop := WellSpelt ts ∧ squeeze s = ts.flatMap (fun t => t.digits ++ t.unit)

/-- The number written by decimal digits. -/
def decOf : Str → Nat
  | [] => 0
  | d :: ds => (d - 48) * 10 ^ ds.length + decOf ds

/-- What the units of sizes stand for. -/
def sizeTable : List (Str × Nat) :=
  [(u!"", 1), (u!"b", 1), (u!"k", 2 ^ 10), (u!"kb", 2 ^ 10), (u!"m", 2 ^ 20), (u!"mb", 2 ^ 20), (u!"g", 2 ^ 30), (u!"gb", 2 ^ 30)]

/-- What the code takes the units of sizes to stand for. -/
def actualSizeTable : List (Str × Nat) :=
  [(u!"", 1), (u!"b", 1), (u!"k", 2 ^ 10), (u!"kb", 2 ^ 10), (u!"m", 2 ^ 20), (u!"mb", 2 ^ 20),
   (u!"g", 1204 * 2 ^ 20), (u!"gb", 1204 * 2 ^ 20)]

/-- What the units of durations stand for, in milliseconds. -/
def durationTable : List (Str × Nat) :=
  [(u!"", 1), (u!"ms", 1), (u!"s", 1000), (u!"m", 60000), (u!"h", 3600000), (u!"d", 86400000), (u!"w", 604800000)]

/-- The sum of the terms; `none` if some unit is unknown. Units are compared ignoring case. -/
def total (table : List (Str × Nat)) : List Term → Option Nat
  | [] => some 0
  | t :: ts =>
    match table.lookup (t.unit.map lowerPoint), total table ts with
    | some f, some n => some (decOf t.digits * f + n)
    | _, _ => none

/-- The term is in gigabytes. -/
def Term.InG (t : Term) : Prop := t.unit.map lowerPoint = u!"g" ∨ t.unit.map lowerPoint = u!"gb"

/-- Every number by itself is below 2^64. -/
def NumbersFit (ts : List Term) : Prop := ∀ t ∈ ts, decOf t.digits < 2 ^ 64

/-- Two lists of the same length, related element by element. -/
inductive Each2 {α β : Type} (R : α → β → Prop) : List α → List β → Prop
  | nil : Each2 R [] []
  | cons {a b l m} : R a b → Each2 R l m → Each2 R (a :: l) (b :: m)

/-- White space at neither end. -/
def Trimmed (s : Str) : Prop :=
  (∀ c, s.head? = some c → isUnicodeWhitespace c = false) ∧ (∀ c, s.getLast? = some c → isUnicodeWhitespace c = false)

/-- The end of a path that stands for nothing: slashes, and single dots after slashes. -/
inductive Filler : Str → Prop
  | nil : Filler []
  | slash (t : Str) : Filler t → Filler (47 :: t)
  | dot (t : Str) : Filler t → Filler (47 :: 46 :: t)

/-- `c` is the last component of the path `p`: the path is something ending in a slash (or nothing), then `c`, then slashes and
dots that stand for nothing. -/
def LastComponent (p c : Str) : Prop :=
  c ≠ [] ∧ c ≠ [46] ∧ 47 ∉ c ∧ ∃ pre post, p = pre ++ c ++ post ∧ (pre = [] ∨ pre.getLast? = some 47) ∧ Filler post

/-- `stem` is the file name `name` without its last extension: nothing is taken off if there is no dot or only one in front. -/
def IsStem (name stem : Str) : Prop :=
  (stem = name ∧ 46 ∉ name.tail) ∨ ∃ ext, name = stem ++ [46] ++ ext ∧ 46 ∉ ext ∧ stem ≠ []

/-- What one item of a glob adds to the services: nothing unless it is a visible regular file; then one service, named by its
trimmed name or else the file name without extension. -/
inductive Adds : GlobItem → List (Str × ServiceConfig) → Prop
  | err : Adds .err []
  | notFile (path text parsed) : Adds (.ok path false text parsed) []
  | noName (path isFile text parsed) : (∀ c, LastComponent path c → c = [46, 46]) → Adds (.ok path isFile text parsed) []
  | hidden (path isFile text parsed name) : LastComponent path name → name.head? = some 46 → Adds (.ok path isFile text parsed) []
  | named (path name s) : LastComponent path name → name.head? ≠ some 46 → trimUnicode s.name ≠ [] →
      Adds (.ok path true true (some s)) [(trimUnicode s.name, { s with name := trimUnicode s.name })]
  | unnamed (path name stem s) : LastComponent path name → name.head? ≠ some 46 → trimUnicode s.name = [] → IsStem name stem →
      Adds (.ok path true true (some s)) [(stem, { s with name := stem })]

/-- A piece of a path that counts: not empty, not a single dot, no slash inside. -/
def Piece (c : Str) : Prop := c ≠ [] ∧ c ≠ [46] ∧ 47 ∉ c

/-- The pieces of a path: slashes separate, single dots and empty pieces do not count. -/
inductive Pieces : Str → List Str → Prop
  | nil : Pieces [] []
  | dot : Pieces [46] []
  | last (c) : Piece c → Pieces c [c]
  | slash (t cs) : Pieces t cs → Pieces (47 :: t) cs
  | dotSlash (t cs) : Pieces t cs → Pieces (46 :: 47 :: t) cs
  | piece (c t cs) : Piece c → Pieces t cs → Pieces (c ++ 47 :: t) (c :: cs)

/-- Two paths, both absolute or both relative, that certainly name the same file: they have the same pieces. -/
def SameFile (p q : Str) : Prop := (p.head? = some 47 ↔ q.head? = some 47) ∧ ∃ cs, Pieces p cs ∧ Pieces q cs

end Httpd.Spec
