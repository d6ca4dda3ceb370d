import Verif.Model.Clock
import Verif.Model.Logging
/-!
# Model of src/utils/luxon.rs:29-33 `fmtlocal`: calendar, time of day, layouts

What chrono 0.4 documents: `DateTime<Local>` has a date of the proleptic Gregorian calendar and a time of day; `format` goes through the
layout, copies what is not a specifier and writes the value of each specifier; a `%` that does not begin a specifier makes the formatter
fail, and then `to_string` panics. The specifiers that the code itself uses are defined here (`%Y %m %d %H %M %S %.3f`, and `%%`), the
others are a parameter.

A local time is the number of milliseconds since 0000-01-01 00:00:00.000 of the local clock; earlier times are not represented.
-/

namespace Httpd

/-! ## Calendar -/

/-- A leap year of the Gregorian calendar. -/
def isLeap (y : Nat) : Bool := y % 4 = 0 && (y % 100 ≠ 0 || y % 400 = 0)

/-- The number of days of a year. -/
def yearLen (y : Nat) : Nat := if isLeap y then 366 else 365

/-- The lengths of the months of a year. -/
def monthLens (y : Nat) : List Nat := [31, if isLeap y then 29 else 28, 31, 30, 31, 30, 31, 31, 30, 31, 30, 31]

/-- `NaiveDate`: year, month (from 1), day (from 1). -/
structure Date where
  year : Nat
  month : Nat
  day : Nat
deriving DecidableEq

/-- Year and day of the year (from 0) of the `n`-th day after the first of year `y`. -/
def splitYear : Nat → Nat → Nat → Nat × Nat
  | 0, y, n => (y, n)
  | fuel + 1, y, n => if n < yearLen y then (y, n) else splitYear fuel (y + 1) (n - yearLen y)

/-- Month and day of the month (from 0) of the `n`-th day after the first of month `m`, given the lengths of the months from `m` on. -/
def splitMonth : List Nat → Nat → Nat → Nat × Nat
  | [], m, n => (m, n)
  | l :: ls, m, n => if n < l then (m, n) else splitMonth ls (m + 1) (n - l)

/-- The date of the `n`-th day after 0000-01-01. -/
def dateOf (n : Nat) : Date :=
  match splitYear (n / 365 + 1) 0 n with
  | (y, o) =>
    match splitMonth (monthLens y) 1 o with
    | (m, d) => ⟨y, m, d + 1⟩

/-- The local time of a time zone at a time (milliseconds since the Unix epoch), from 0000-01-01 on, 719528 days before. -/
def Zone.clock (z : Zone) (t : Int) : Nat := (z.localTime t + 719528 * 86400000).toNat

/-- The date of a local time. -/
def clockDate (l : Nat) : Date := dateOf (l / 86400000)

/-! ## Layouts -/

/-- The last `w` decimal digits of a number, with leading zeros. -/
def padded : Nat → Nat → Str
  | 0, _ => []
  | w + 1, n => padded w (n / 10) ++ [48 + n % 10]

/-- `%Y`: four digits; a sign and all digits from the year 10000 on. -/
def yearText (y : Nat) : Str := if y < 10000 then padded 4 y else [43] ++ (natToBytes y).map UInt8.toNat

/-- A part of a layout. -/
inductive Piece
  | char (c : Nat)
  | year | month | day | hour | minute | second
  /-- `%.3f` -/
  | dotMillis
  | other (text : Nat → Str)

/-- The specifiers that the code does not use itself: given what follows the `%`, how many characters belong to the specifier (less one)
and its text at a local time; `none` if no specifier begins there. -/
abbrev Specifiers := Str → Option (Nat × (Nat → Str))

/-- chrono's `StrftimeItems`. `none`: there is an `Item::Error` among them. -/
def parseLayout (x : Specifiers) : Nat → Str → Option (List Piece)
  | _, [] => some []
  | 0, _ :: _ => none
  | fuel + 1, c :: rest =>
    if c ≠ 37 then (parseLayout x fuel rest).map (.char c :: ·)
    else
      match rest with
      | [] => none
      | 37 :: rest => (parseLayout x fuel rest).map (.char 37 :: ·)
      | 89 :: rest => (parseLayout x fuel rest).map (.year :: ·)
      | 109 :: rest => (parseLayout x fuel rest).map (.month :: ·)
      | 100 :: rest => (parseLayout x fuel rest).map (.day :: ·)
      | 72 :: rest => (parseLayout x fuel rest).map (.hour :: ·)
      | 77 :: rest => (parseLayout x fuel rest).map (.minute :: ·)
      | 83 :: rest => (parseLayout x fuel rest).map (.second :: ·)
      | 46 :: 51 :: 102 :: rest => (parseLayout x fuel rest).map (.dotMillis :: ·)
      | rest =>
        match x rest with
        | none => none
        | some (n, text) => (parseLayout x fuel (rest.drop (n + 1))).map (.other text :: ·)

/-- The text of a part at a local time. -/
def Piece.text (l : Nat) : Piece → Str
  | .char c => [c]
  | .year => yearText (clockDate l).year
  | .month => padded 2 (clockDate l).month
  | .day => padded 2 (clockDate l).day
  | .hour => padded 2 (l / 3600000 % 24)
  | .minute => padded 2 (l / 60000 % 60)
  | .second => padded 2 (l / 1000 % 60)
  | .dotMillis => [46] ++ padded 3 (l % 1000)
  | .other f => f l

/-- src/utils/luxon.rs:29-33 `fmtlocal` at a local time. `none` = panic of `to_string`. -/
def fmtLocal (x : Specifiers) (layout : Str) (l : Nat) : Option Str :=
  (parseLayout x layout.length layout).map (fun ps => (ps.map (Piece.text l)).flatten)

/-! ## Where layouts are used -/

/-- src/logging/json_line_renderer.rs:39-43, src/logging/colorful_line_renderer.rs:52-56: the layout of a renderer. -/
def layoutOf (timelayout : Str) : Str := if timelayout.isEmpty then u!"%Y-%m-%d %H:%M:%S%.3f" else timelayout

/-- src/logging/rotation_file_appender.rs:134-153: the part of the name of a rotated file that depends on the time. -/
def rotationStamp (x : Specifiers) (hourly : Bool) (l : Nat) : Option Str :=
  fmtLocal x (if hourly then u!".%Y%m%d%H" else u!".%Y%m%d") l

/-- UTF-8 (`String::as_bytes`). -/
def encodeUtf8 (s : Str) : Bytes := (s.map enc).flatten
where
  enc (c : Nat) : Bytes :=
    if c < 0x80 then [UInt8.ofNat c]
    else if c < 0x800 then [UInt8.ofNat (0xC0 + c / 64), UInt8.ofNat (0x80 + c % 64)]
    else if c < 0x10000 then [UInt8.ofNat (0xE0 + c / 4096), UInt8.ofNat (0x80 + c / 64 % 64), UInt8.ofNat (0x80 + c % 64)]
    else
      [UInt8.ofNat (0xF0 + c / 262144), UInt8.ofNat (0x80 + c / 4096 % 64), UInt8.ofNat (0x80 + c / 64 % 64), UInt8.ofNat (0x80 + c % 64)]

/-- The text of a time in a record: renderers get the layout of the root section `[logging]` (src/config/mod.rs:216, 222). `none` = panic. -/
def Config.timeText (x : Specifiers) (c : Config) (l : Nat) : Option Bytes :=
  (fmtLocal x (layoutOf c.logging.timelayout) l).map encodeUtf8

/-- src/logging/consumer.rs:94-124, 157-195 once more, for a record whose time has yet to be rendered: the thread panics if it comes to
render a time that cannot be. It renders only if there is an appender for the record. -/
inductive Handled
  | ub
  | panic
  | ok (bufs : List Bytes) (writes : Writes)
deriving DecidableEq

/-- See `Handled`; `time` is the text of the time, if it has one. Filters do not look at times. -/
def Consumer.handleAt (c : Consumer) (time : Option Bytes) (item : Item) (bufs : List Bytes) : Handled :=
  match time with
  | some txt =>
    match c.handle { item with time := txt } bufs with
    | some (bufs, writes) => .ok bufs writes
    | none => .ub
  | none =>
    match c.handle { item with time := [] } bufs with
    | some (_, []) => .ok bufs []
    | some (_, _ :: _) => .panic
    | none => .ub

end Httpd
