/-!
# Specification of the Gregorian calendar

Independent of the model: the leap-year rule, month lengths, the successor of a calendar day, and the
calendar obtained by walking day by day from Thursday 1 January 1970.
-/

namespace Dal.Spec

/-- Gregorian leap years. -/
def isLeap (y : Int) : Bool := (y % 4 == 0 && y % 100 != 0) || y % 400 == 0

/-- Number of days of month `m` (1..12) of year `y`. -/
def monthLen (y m : Int) : Int :=
  if m = 2 then (if isLeap y then 29 else 28)
  else if m = 4 ∨ m = 6 ∨ m = 9 ∨ m = 11 then 30 else 31

/-- A year/month/day triple that exists in the calendar. -/
structure RealDate (y m d : Int) : Prop where
  m1 : 1 ≤ m
  m12 : m ≤ 12
  d1 : 1 ≤ d
  dl : d ≤ monthLen y m

/-- The calendar day after `(y, m, d)`. -/
def nextDay : Int × Int × Int → Int × Int × Int
  | (y, m, d) =>
    if d < monthLen y m then (y, m, d + 1)
    else if m < 12 then (y, m + 1, 1)
    else (y + 1, 1, 1)

/-- The calendar day `n` days after 1970-01-01. -/
def dayAfterEpoch : Nat → Int × Int × Int
  | 0 => (1970, 1, 1)
  | n + 1 => nextDay (dayAfterEpoch n)

/-- Lexicographic order of calendar triples. -/
def before (a b : Int × Int × Int) : Prop :=
  a.1 < b.1 ∨ (a.1 = b.1 ∧ (a.2.1 < b.2.1 ∨ (a.2.1 = b.2.1 ∧ a.2.2 < b.2.2)))

/-- Weekday (0 = Sunday) `n` days after 1970-01-01, which was a Thursday. -/
def weekdayAfterEpoch : Nat → Nat
  | 0 => 4
  | n + 1 => (weekdayAfterEpoch n + 1) % 7

end Dal.Spec
