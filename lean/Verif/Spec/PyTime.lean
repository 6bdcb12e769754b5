import Verif.Model.PyTime

/-
  Specification: the proleptic Gregorian calendar, by counting days.
-/

namespace Olecf.Spec

/-- A leap year: divisible by 4, and by 400 if divisible by 100. -/
def Leap (y : Nat) : Prop := y % 4 = 0 ∧ (y % 100 = 0 → y % 400 = 0)

instance (y : Nat) : Decidable (Leap y) := by unfold Leap; infer_instance

def yearDays (y : Nat) : Nat := if Leap y then 366 else 365

/-- The days of the months January to December. -/
def monthTable (y : Nat) : List Nat :=
  [31, if Leap y then 29 else 28, 31, 30, 31, 30, 31, 31, 30, 31, 30, 31]

/-- The number of days of the month `m` (1 to 12). -/
def monthDays (y m : Nat) : Nat := (monthTable y).getD (m - 1) 0

/-- The days before the first of January of the year `y`, counted from the year 1 on. -/
def daysBeforeYear (y : Nat) : Nat := ((List.range (y - 1)).map fun k => yearDays (k + 1)).sum

/-- The days of the year `y` before the month `m`. -/
def daysBeforeMonth (y m : Nat) : Nat := ((monthTable y).take (m - 1)).sum

/-- The days before a date, from the first of January of the year 1 on. -/
def dayNumber (y m d : Nat) : Nat := daysBeforeYear y + daysBeforeMonth y m + (d - 1)

/-- An existing date with a time of the day, in the range of Python's datetime. -/
structure ValidDateTime (t : PyDateTime) : Prop where
  year : 1 ≤ t.year ∧ t.year ≤ 9999
  month : 1 ≤ t.month ∧ t.month ≤ 12
  day : 1 ≤ t.day ∧ t.day ≤ monthDays t.year t.month
  hour : t.hour < 24
  minute : t.minute < 60
  second : t.second < 60
  micro : t.micro < 1000000

/-- The microseconds from the beginning of the year 1 to a date and time. -/
def microsOf (t : PyDateTime) : Nat :=
  (((dayNumber t.year t.month t.day * 24 + t.hour) * 60 + t.minute) * 60 + t.second) * 1000000 +
    t.micro

/-- The microseconds from the beginning of the year 1 to the instant of a FILETIME: 100 nanoseconds
  since 1 January 1601. -/
def filetimeMicros (ft : Nat) : Nat := dayNumber 1601 1 1 * 86400000000 + ft / 10

/-- Contract for Python's datetime constructor: existing dates and times are accepted as they are,
  all others are refused. -/
def IsPython (api : DateTimeApi) : Prop :=
  (∀ t, ValidDateTime t → api.make t = some t) ∧ ∀ t, ¬ ValidDateTime t → api.make t = none

end Olecf.Spec
