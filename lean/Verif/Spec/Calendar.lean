/-!
# The Gregorian calendar and the order of texts

Independent of the model: dates are numbered by counting days, not by a calculation.
-/

namespace Httpd.Spec

/-- Every fourth year is a leap year, but of the full centuries only every fourth. -/
def Leap (y : Nat) : Prop := (4 ∣ y ∧ ¬ 100 ∣ y) ∨ 400 ∣ y

instance (y : Nat) : Decidable (Leap y) := inferInstanceAs (Decidable (_ ∨ _))

/-- The number of days of a month. -/
def monthDays (y : Nat) : Nat → Nat
  | 1 => 31
  | 2 => if Leap y then 29 else 28
  | 3 => 31
  | 4 => 30
  | 5 => 31
  | 6 => 30
  | 7 => 31
  | 8 => 31
  | 9 => 30
  | 10 => 31
  | 11 => 30
  | 12 => 31
  | _ => 0

/-- Month and day exist. -/
def IsDate (y m d : Nat) : Prop := 1 ≤ m ∧ m ≤ 12 ∧ 1 ≤ d ∧ d ≤ monthDays y m

/-- The day after. -/
def tomorrow : Nat × Nat × Nat → Nat × Nat × Nat
  | (y, m, d) => if d < monthDays y m then (y, m, d + 1) else if m < 12 then (y, m + 1, 1) else (y + 1, 1, 1)

/-- The date `n` days after 0000-01-01. -/
def dayAfter : Nat → Nat × Nat × Nat
  | 0 => (0, 1, 1)
  | n + 1 => tomorrow (dayAfter n)

/-- The order of texts: that of dictionaries, by code points. -/
def TextLt : List Nat → List Nat → Prop
  | _, [] => False
  | [], _ :: _ => True
  | a :: s, b :: t => a < b ∨ a = b ∧ TextLt s t

/-- A digit. -/
def digit (n : Nat) : Nat := 48 + n % 10

/-- `YYYY-MM-DD HH:MM:SS.mmm` -/
def stampText (y m d h mi s ms : Nat) : List Nat :=
  [digit (y / 1000), digit (y / 100), digit (y / 10), digit y, 45, digit (m / 10), digit m, 45, digit (d / 10), digit d, 32,
    digit (h / 10), digit h, 58, digit (mi / 10), digit mi, 58, digit (s / 10), digit s, 46, digit (ms / 100), digit (ms / 10), digit ms]

/-- `.YYYYMMDD` -/
def dayText (y m d : Nat) : List Nat :=
  [46, digit (y / 1000), digit (y / 100), digit (y / 10), digit y, digit (m / 10), digit m, digit (d / 10), digit d]

end Httpd.Spec
