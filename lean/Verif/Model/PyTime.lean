import Verif.Model.Base

/-
  Model of the date and time conversion of the Python bindings (pyolecf/pyolecf_datetime.c).
-/

namespace Olecf

/-- The fields of a Python datetime object (PyDateTime_FromDateAndTime). -/
structure PyDateTime where
  year : Nat
  month : Nat
  day : Nat
  hour : Nat
  minute : Nat
  second : Nat
  micro : Nat
  deriving Repr, DecidableEq

/-- pyolecf/pyolecf_datetime.c:70-75: the check for a leap year. -/
def leapCheck (year : Nat) : Bool :=
  (year % 4 == 0 && year % 100 != 0) || year % 400 == 0

/-- pyolecf/pyolecf_datetime.c:98-137: the number of days of a month; `none`: the error for an
  unsupported month. -/
def monthCheck (year month : Nat) : Option Nat :=
  if month = 2 then some (if leapCheck year then 29 else 28)
  else if month = 4 ∨ month = 6 ∨ month = 9 ∨ month = 11 then some 30
  else if month = 1 ∨ month = 3 ∨ month = 5 ∨ month = 7 ∨ month = 8 ∨ month = 10 ∨ month = 12 then
    some 31
  else none

/-- pyolecf/pyolecf_datetime.c:48-65: the loop over the centuries.  The year is a 16-bit value. -/
def centuryLoop (year days : Nat) : Nat × Nat :=
  if 0 < days then
    let century := if year % 400 = 0 then 36525 else 36524
    if days ≤ century then (year, days)
    else centuryLoop ((year + 100) % 2 ^ 16) (days - century)
  else (year, days)
  termination_by days
  decreasing_by
    show days - (if year % 400 = 0 then 36525 else 36524) < days
    split <;> omega

/-- pyolecf/pyolecf_datetime.c:66-87: the loop over the years. -/
def yearLoop (year days : Nat) : Nat × Nat :=
  if 0 < days then
    let inYear := if leapCheck year then 366 else 365
    if days ≤ inYear then (year, days)
    else yearLoop ((year + 1) % 2 ^ 16) (days - inYear)
  else (year, days)
  termination_by days
  decreasing_by
    show days - (if leapCheck year = true then 366 else 365) < days
    split <;> omega

/-- pyolecf/pyolecf_datetime.c:88-148: the loop over the months, from `month` on.  `n` bounds the
  number of rounds (the month only grows and 13 is an error); 13 rounds are given, see
  `datetimeFromElements`. -/
def monthLoop (year : Nat) : Nat → Nat → Nat → Option (Nat × Nat)
  | 0, _, _ => none
  | n + 1, month, days =>
    if 0 < days then
      match monthCheck year month with
      | none => none
      | some inMonth =>
        if days ≤ inMonth then some (month, days) else monthLoop year n (month + 1) (days - inMonth)
    else some (month, days)

/-- PyDateTime_FromDateAndTime (Python C API, contract): a datetime object for the fields of an
  existing date in the years 1 to 9999 and a time of the day; a ValueError for all others. -/
structure DateTimeApi where
  make : PyDateTime → Option PyDateTime

/-- pyolecf/pyolecf_datetime.c:34-169 (pyolecf_datetime_new_from_time_elements).  The day of the
  month is converted to 8 bits. -/
def datetimeFromElements (api : DateTimeApi) (year days hours minutes seconds micro : Nat) :
    Res PyDateTime :=
  let (year, days) := centuryLoop year days
  let (year, days) := yearLoop year days
  match monthLoop year 13 1 days with
  | none => .err
  | some (month, days) =>
    match api.make ⟨year, month, days % 2 ^ 8, hours, minutes, seconds, micro⟩ with
    | some d => .ok d
    | none => .err

/-- pyolecf/pyolecf_datetime.c:288-345 (pyolecf_datetime_new_from_filetime). -/
def datetimeFromFiletime (api : DateTimeApi) (filetime : Nat) : Res PyDateTime :=
  let micro := filetime % 10000000 / 10
  let filetime := filetime / 10000000
  let seconds := filetime % 60
  let filetime := filetime / 60
  let minutes := filetime % 60
  let filetime := filetime / 60
  let hours := filetime % 24
  let filetime := filetime / 24
  let days := (filetime + 1) % 2 ^ 64
  if 36159 ≤ days then
    datetimeFromElements api 1700 (days - 36159) hours minutes seconds micro
  else
    datetimeFromElements api 1601 days hours minutes seconds micro

end Olecf
