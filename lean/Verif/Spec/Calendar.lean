import Mathlib.Data.Nat.Basic

/-!
# The Gregorian calendar
-/
namespace OpenPGP.Calendar

/-- Every fourth year is a leap year, of the hundredth years only every fourth. -/
def IsLeap (y : Nat) : Prop := 4 ∣ y ∧ (100 ∣ y → 400 ∣ y)

instance (y : Nat) : Decidable (IsLeap y) := inferInstanceAs (Decidable (_ ∧ _))

/-- The lengths of the months of a year. -/
def months (y : Nat) : List Nat := [31, if IsLeap y then 29 else 28, 31, 30, 31, 30, 31, 31, 30, 31, 30, 31]

/-- The days from the start of 1970 to the start of a year. -/
def daysTo : (y : Nat) → Nat
  | 0 => 0
  | y + 1 => if y < 1970 then 0 else daysTo y + (months y).sum

/-- The seconds from the start of 1970 to a moment; month and day are counted from 1. -/
def seconds (year month day hour minute second : Nat) : Nat :=
  (((daysTo year + ((months year).take (month - 1)).sum + (day - 1)) * 24 + hour) * 60 + minute) * 60 + second

/-- A date and a time of the day. -/
def Valid (year month day hour minute second : Nat) : Prop :=
  1970 ≤ year ∧ 1 ≤ month ∧ month ≤ 12 ∧ 1 ≤ day ∧ day ≤ (months year).getD (month - 1) 0 ∧ hour < 24 ∧ minute < 60 ∧ second < 60

/-- Two decimal digits, in ASCII. -/
def twoDigits (n : Nat) : List UInt8 := [UInt8.ofNat (48 + n / 10), UInt8.ofNat (48 + n % 10)]

end OpenPGP.Calendar
