/-!
# Model of src/utils/luxon.rs: local time and the ends of days and hours

Times are milliseconds since the Unix epoch. A time zone is what chrono knows of it: the offset at every time, and what
`from_local_datetime` makes of a local time.
-/

namespace Httpd

/-- `chrono::LocalResult`. -/
inductive LocalResult
  | none
  | single (t : Int)
  | ambiguous
deriving DecidableEq

/-- A time zone. Local times are milliseconds, too. -/
structure Zone where
  off : Int → Int
  fromLocal : Int → LocalResult

/-- The local time. -/
def Zone.localTime (z : Zone) (t : Int) : Int := t + z.off t

/-- Milliseconds in a day and in an hour. -/
def dayMs : Int := 86400000
def hourMs : Int := 3600000

/-- src/utils/luxon.rs:65-91 `endofday` (`p = dayMs`) and `endofhour` (`p = hourMs`): the local time with everything below days (hours)
set to zero, as a time, plus 24 hours (one hour). The functions go through the date, see `Model/Local` and C209. `none` = `Err` or a panic of line 75/89; the callers unwrap. -/
def endOf (z : Zone) (p t : Int) : Option Nat :=
  match z.fromLocal (z.localTime t / p * p) with
  | .single u => if 0 ≤ u + p then some (u + p).toNat else none
  | _ => none

end Httpd
