/-!
# Model of `Date_` (dal/time/date.hpp, dal/time/date.cpp)

A date is its 16-bit serial (`serial_`, date.hpp:42); `0` is the invalid date (date.hpp:59).
-/

namespace Dal.Date

/-- `EXCEL_OFFSET`, date.cpp:13. -/
def excelOffset : Int := 25568

/-- `ExcelDateToYMD`, date.cpp:15-27, on the Excel serial `xl`.
The floating-point truncations are written as exact integer quotients:
`int((s - 1867216.25)/36524.25) = (4s - 7468865) tdiv 146097`,
`int((B - 122.1)/365.25) = (20B - 2442) tdiv 7305`, `int(365.25*C) = 1461C tdiv 4`,
`int((B-D)/30.6001) = 10000(B-D) tdiv 306001`, `int(30.6001*E) = 306001E tdiv 10000`.
`C01_rounding_immaterial` shows that floating-point rounding changes none of them.  The casts to `short` keep
the value (years of the supported range fit in 16 bits). -/
def toYMD (xl : Int) : Int × Int × Int :=
  let s := xl + 2415019
  let alpha := (4 * s - 7468865).tdiv 146097
  let A := s + 1 + alpha - alpha.tdiv 4
  let B := A + 1524
  let C := (20 * B - 2442).tdiv 7305
  let D := (1461 * C).tdiv 4
  let E := (10000 * (B - D)).tdiv 306001
  let dd := B - D - (306001 * E).tdiv 10000
  let m := E - (if E > 13 then 13 else 1)
  let y := C - (if m > 2 then 4716 else 4715)
  (y, m, dd)

/-- `ExcelDateFromYMD`, date.cpp:29-34 (C++ `/` truncates; note the grouping `(3 * X) / 100` of
line 33). -/
def fromYMD (yy mm dd : Int) : Int :=
  (1461 * (yy + (mm - 14).tdiv 12)).tdiv 4
    + (367 * (mm - 2 - 12 * ((mm - 14).tdiv 12))).tdiv 12
    - ((3 * (yy + 4900 + (mm - 14).tdiv 12)).tdiv 100).tdiv 4 + dd - 693894

/-- Conversion of an `int` to `uint16_t`: reduction modulo 2^16. -/
def toU16 (n : Int) : Nat := (n % 65536).toNat

/-- `SerialFromYMD`, date.cpp:36-42; `0` is the invalid serial. -/
def serialFromYMD (yy mm dd : Int) : Nat :=
  let xl := fromYMD yy mm dd
  let r := toU16 (xl - excelOffset)
  if (r : Int) + excelOffset = xl then r else 0

/-- `Date_`, date.hpp:41-42. -/
structure Date where
  /-- `serial_`, a `uint16_t` -/
  serial : Nat
  deriving DecidableEq, Repr

/-- `Date_(int yyyy, int mm, int dd)`, date.cpp:45. -/
def mk' (yy mm dd : Int) : Date := ⟨serialFromYMD yy mm dd⟩

/-- `Date_::IsValid`, date.hpp:59 (the upper bound is the range of `uint16_t`). -/
def Date.Valid (d : Date) : Prop := 0 < d.serial ∧ d.serial < 65536

instance (d : Date) : Decidable d.Valid := by unfold Date.Valid; infer_instance

/-- `Date::ToExcel`, date.cpp:55. -/
def toExcel (d : Date) : Int := d.serial + excelOffset

/-- `Date::FromExcel`, date.cpp:47-53. -/
def fromExcel (xl : Int) : Date :=
  if xl > excelOffset ∧ xl < excelOffset + 65536 then ⟨toU16 (xl - excelOffset)⟩ else ⟨0⟩

/-- `Date::Year`, date.cpp:57-61. -/
def year (d : Date) : Int := (toYMD (toExcel d)).1
/-- `Date::Month`, date.cpp:63-67. -/
def month (d : Date) : Int := (toYMD (toExcel d)).2.1
/-- `Date::Day`, date.cpp:69-73. -/
def day (d : Date) : Int := (toYMD (toExcel d)).2.2

/-- `Date_::AddDays`, date.hpp:63-67: addition modulo 2^16. -/
def addDays (d : Date) (n : Int) : Date := ⟨(d.serial + toU16 n) % 65536⟩

/-- `operator-(Date_, Date_)`, date.cpp:117. -/
def sub (a b : Date) : Int := toExcel a - toExcel b

/-- `operator<(Date_, Date_)`, date.hpp:84. -/
def lt (a b : Date) : Prop := a.serial < b.serial
instance (a b : Date) : Decidable (lt a b) := by unfold lt; infer_instance

/-- `Date::DayOfWeek`, date.cpp:83-86 (`KNOWN_SUNDAY = 974`). -/
def dayOfWeek (d : Date) : Int := (toExcel d - 974).tmod 7

/-- `Date::IsWeekEnd`, date.hpp:24. -/
def isWeekEnd (d : Date) : Bool := (dayOfWeek d).tmod 6 == 0

/-- `Date::DaysInMonth`, date.cpp:88-91. -/
def daysInMonth (y m : Int) : Int :=
  if m = 12 then 31 else sub (mk' y (m + 1) 1) (mk' y m 1)

/-- `Date::EndOfMonth`, date.cpp:93-97. -/
def endOfMonth (d : Date) : Date :=
  let yy := year d
  let mm := month d
  if mm = 12 then addDays (mk' (yy + 1) 1 1) (-1) else addDays (mk' yy (mm + 1) 1) (-1)

/-- The year/month carry of `Date::AddMonths`, date.cpp:104-110. -/
def carryMonths (yy mm n : Int) : Int × Int :=
  let ny := n.tdiv 12
  let yy := yy + ny
  let mm := mm + (n - 12 * ny)
  let p := if mm > 12 then (yy + 1, mm - 12) else (yy, mm)
  if p.2 < 1 then (p.1 - 1, p.2 + 12) else p

/-- `Date::AddMonths`, date.cpp:99-115. -/
def addMonths (d : Date) (n : Int) (preserveEom : Bool) : Date :=
  let toEom := preserveEom && (day d == daysInMonth (year d) (month d))
  let t := carryMonths (year d) (month d) n
  let dMax := daysInMonth t.1 t.2
  let dd := if toEom || decide (day d > dMax) then dMax else day d
  mk' t.1 t.2 dd

/-- `Date::Minimum`, date.cpp:119. -/
def minimum : Date := fromExcel (excelOffset + 1)
/-- `Date::Maximum`, date.cpp:121. -/
def maximum : Date := addDays minimum 0xFFF0

end Dal.Date
