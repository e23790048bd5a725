import Verif.Model.Date
/-! Specification of the Gregorian calendar, by counting days. -/
namespace Verif.Spec.Calendar
open Verif Verif.Date

/-- Leap years. -/
def Leap (y : Nat) : Prop := y % 4 = 0 ∧ (y % 100 ≠ 0 ∨ y % 400 = 0)

instance (y : Nat) : Decidable (Leap y) := inferInstanceAs (Decidable (_ ∧ _))

/-- The length of a month. -/
def monthLength (y m : Nat) : Nat :=
  if m = 2 then (if Leap y then 29 else 28)
  else if m = 4 ∨ m = 6 ∨ m = 9 ∨ m = 11 then 30 else 31

/-- The length of a year. -/
def yearLength (y : Nat) : Nat := if Leap y then 366 else 365

/-- A date of the calendar with a time of the day, in the years 1 to 9999. -/
def Valid (t : DateTime) : Prop :=
  1 ≤ t.year ∧ t.year ≤ 9999 ∧ 1 ≤ t.month ∧ t.month ≤ 12 ∧ 1 ≤ t.day ∧ t.day ≤ monthLength t.year t.month ∧
  t.hour < 24 ∧ t.minute < 60 ∧ t.second < 60

/-- Number of days in the years before `y` (from year 1). -/
def daysOfYears : Nat → Nat
  | 0 => 0
  | y + 1 => if y = 0 then 0 else daysOfYears y + yearLength y

/-- Number of days in the months of the year `y` before `m`. -/
def daysOfMonths (y : Nat) : Nat → Nat
  | 0 => 0
  | m + 1 => if m = 0 then 0 else daysOfMonths y m + monthLength y m

/-- The number of a day, 1 for the first of January of the year 1. -/
def dayNumber (y m d : Nat) : Nat := daysOfYears y + daysOfMonths y m + d

/-- Seconds since 1970. -/
def epoch (t : DateTime) : Int :=
  ((dayNumber t.year t.month t.day : Int) - dayNumber 1970 1 1) * 86400 + t.hour * 3600 + t.minute * 60 + t.second

end Verif.Spec.Calendar
