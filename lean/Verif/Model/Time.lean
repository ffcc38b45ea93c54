import Verif.Model.Show

/-!
# `show_time` and `show_date`, `src/Misc/pgptime.cpp`

`gmtime` of the C library is modelled as the Gregorian calendar from the start of 1970, without leap seconds; the texts are for times that are not before that.
-/
namespace OpenPGP

/-- Whether there is a 29th of February (the calendar behind `gmtime`, pgptime.cpp:18, 32). -/
def leap (y : Nat) : Bool := y % 4 == 0 && (y % 100 != 0 || y % 400 == 0)

/-- The days of a year (`gmtime`, pgptime.cpp:18, 32). -/
def yearDays (y : Nat) : Nat := if leap y then 366 else 365

/-- The days of a month, counted from 0 (`gmtime`, pgptime.cpp:18, 32). -/
def monthDays (y m : Nat) : Nat :=
  if m = 1 then (if leap y then 29 else 28) else if m = 3 ∨ m = 5 ∨ m = 8 ∨ m = 10 then 30 else 31

/-- The year of a day, counted from the start of year `y`, and the day in that year (`gmtime`, pgptime.cpp:18, 32). -/
def yearOf : (fuel y d : Nat) → Nat × Nat
  | 0, y, d => (y, d)
  | f + 1, y, d => if d < yearDays y then (y, d) else yearOf f (y + 1) (d - yearDays y)

/-- The month of a day, counted from the start of month `m` of the year `y`, and the day in that month (`gmtime`, pgptime.cpp:18, 32). -/
def monthOf (y : Nat) : (fuel m d : Nat) → Nat × Nat
  | 0, m, d => (m, d)
  | f + 1, m, d => if d < monthDays y m then (m, d) else monthOf y f (m + 1) (d - monthDays y m)

/-- `struct tm`: the year in full, the month and the day of the week from 0. -/
structure Tm where
  year : Nat
  mon : Nat
  mday : Nat
  hour : Nat
  min : Nat
  sec : Nat
  wday : Nat
  deriving DecidableEq, Repr

/-- `gmtime` (used in pgptime.cpp:18, 32). The first day of 1970 was a Thursday. -/
def gmtime (t : Nat) : Tm :=
  let days := t / 86400
  let y := yearOf (days / 365) 1970 days
  let m := monthOf y.1 11 0 y.2
  ⟨y.1, m.1, m.2 + 1, t / 3600 % 24, t / 60 % 60, t % 60, (days + 4) % 7⟩

/-- `dayofweek` (pgptime.h:33). -/
def weekNames : List String := ["Sun", "Mon", "Tues", "Wed", "Thur", "Fri", "Sat"]

/-- `month` (pgptime.h:34). -/
def monthNames : List String := ["Jan", "Feb", "Mar", "Apr", "May", "Jun", "Jul", "Aug", "Sept", "Oct", "Nov", "Dec"]

/-- `std::setfill('0') << std::setw(2) << n`. -/
def dec2 (n : Nat) : Bytes := if n < 10 then 48 :: dec n else dec n

/-- `show_time` (pgptime.cpp:16-29). -/
def showTime (t : Nat) : Bytes :=
  let g := gmtime t
  ascii (weekNames.getD g.wday "") ++ ascii " " ++ ascii (monthNames.getD g.mon "") ++ ascii " " ++ dec g.mday ++ ascii " " ++ dec2 g.hour ++ ascii ":" ++ dec2 g.min ++ ascii ":" ++
    dec2 g.sec ++ ascii " UTC " ++ dec g.year

/-- `show_date` (pgptime.cpp:31-38). -/
def showDate (t : Nat) : Bytes :=
  let g := gmtime t
  dec g.year ++ ascii "-" ++ dec2 (g.mon + 1) ++ ascii "-" ++ dec2 g.mday

end OpenPGP
