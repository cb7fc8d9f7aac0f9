import Verif.Timestamp.Model

/-!
# Calendar specification

The Gregorian calendar as a "next day" function, counted from 1970-01-01.  Independent of the code.
-/

namespace Abc.Timestamp.Spec

/-- Gregorian leap years. -/
def isLeap (y : Int) : Bool := y % 4 == 0 && (y % 100 != 0 || y % 400 == 0)

/-- Number of days of a month. -/
def monthLength (y m : Int) : Int :=
  if m = 2 then (if isLeap y then 29 else 28)
  else if m = 4 ∨ m = 6 ∨ m = 9 ∨ m = 11 then 30
  else 31

/-- The day after a date. -/
def nextDay (d : Date) : Date :=
  if d.day < monthLength d.year d.month then { d with day := d.day + 1 }
  else if d.month < 12 then ⟨d.year, d.month + 1, 1⟩
  else ⟨d.year + 1, 1, 1⟩

/-- The Gregorian date `n` days after 1970-01-01. -/
def civil : Nat → Date
  | 0 => ⟨1970, 1, 1⟩
  | n + 1 => nextDay (civil n)

end Abc.Timestamp.Spec
