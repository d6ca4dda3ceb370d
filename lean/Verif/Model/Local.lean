import Verif.Model.TimeFormat
/-!
# Model of src/utils/luxon.rs:40-91: times from calendar dates

`local` makes a time of a date and a time of day; `endofday` and `endofhour` hand it the fields of the local time. What chrono 0.4 documents: `from_ymd_opt` is
`None` unless the date exists, `and_hms_milli_opt` unless the time of day does (1000 to 1999 milliseconds are those of a leap second, in the last second of a
minute only). `maxYear` is the last year that chrono has. Years before 0 are not represented.
-/

namespace Httpd

/-- `NaiveDate::from_ymd_opt`: the number of the day, counted from 0000-01-01. -/
def ymdOpt (maxYear y m d : Nat) : Option Nat :=
  if y ≤ maxYear ∧ 1 ≤ m ∧ 1 ≤ d ∧ d ≤ (monthLens y).getD (m - 1) 0 then
    some (((List.range y).map yearLen).sum + ((monthLens y).take (m - 1)).sum + (d - 1))
  else none

/-- `NaiveDate::and_hms_milli_opt`: milliseconds of the day. -/
def hmsMilliOpt (h mi s ms : Nat) : Option Nat :=
  if h < 24 ∧ mi < 60 ∧ s < 60 ∧ (ms < 1000 ∨ s = 59 ∧ ms < 2000) then some (h * 3600000 + mi * 60000 + s * 1000 + ms) else none

/-- src/utils/luxon.rs:40-63 `local`: the time, or the text of the error. `anyhow::option` takes its text as it is, `anyhow::error` writes it with `{:?}`
(src/utils/anyhow.rs:18-20, 31-36). -/
def luxonLocal (z : Zone) (maxYear y m d h mi s ms : Nat) : Except Str Int :=
  match ymdOpt maxYear y m d with
  | none => .error u!"to local datetime failed, date"
  | some n =>
    match hmsMilliOpt h mi s ms with
    | none => .error u!"to local datetime failed, time"
    | some k =>
      match z.fromLocal (((n : Int) - 719528) * 86400000 + k) with
      | .none => .error u!"\"to local datetime failed, local\""
      | .single t => .ok t
      | .ambiguous => .error u!"\"to local datetime failed, range\""

/-- src/utils/luxon.rs:65-77 `endofday`, given the current time; `none` = `Err` or a panic of line 75. -/
def endOfDay (z : Zone) (maxYear : Nat) (t : Int) : Option Nat :=
  let lv := clockDate (z.clock t)
  match luxonLocal z maxYear lv.year lv.month lv.day 0 0 0 0 with
  | .ok u => if 0 ≤ u + 86400000 then some (u + 86400000).toNat else none
  | .error _ => none

/-- src/utils/luxon.rs:79-91 `endofhour`, given the current time; `none` = `Err` or a panic of line 89. -/
def endOfHour (z : Zone) (maxYear : Nat) (t : Int) : Option Nat :=
  let lv := clockDate (z.clock t)
  match luxonLocal z maxYear lv.year lv.month lv.day (z.clock t / 3600000 % 24) 0 0 0 with
  | .ok u => if 0 ≤ u + 3600000 then some (u + 3600000).toNat else none
  | .error _ => none

end Httpd
