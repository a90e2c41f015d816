import Verif.Time.IncrementModel
import Verif.Time.DateTextModel
import Verif.Strings.EnumTables
import Verif.Strings.StringModel

/-!
# Reading and applying date increments

Source: `dal/time/dateincrement.cpp` 145–215, `dal/time/periodlength.cpp` 29–36.

`parseHols` stands for the constructor of `Holidays_` from a text; `none` is an exception or, where an increment is applied, an overflow of `int` or a search
that does not return. `sgn` says whether `char` is signed.
-/

namespace Dal.Incr
open Dal.Date Dal.Strings

/-- The value of `DateStepSize_` of an enumerator. -/
def stepOfName (s : Str) : Option StepSize :=
  if s = "Y".toList then some .Y else if s = "M".toList then some .M else if s = "W".toList then some .W
  else if s = "CD".toList then some .CD else if s = "BD".toList then some .BD else none

/-- The increments that are made of one text without `&`: `IncrementNextSpecial_` with the enumerator of its day and `IncrementMultistep_`. -/
inductive Single where
  | special (day : Str)
  | steps (n : Nat) (unit : StepSize) (hols : Hol.Hols)

/-- `ParseIncrement` for a text without `&` (dateincrement.cpp 196–209). The number is read before the unit, and the holidays before both. -/
def parseSingle (sgn : Bool) (parseHols : Str → Option Hol.Hols) (src : Str) : Option Single :=
  if src = [] then none
  else
    let digits := src.takeWhile Char.isDigit
    let rest := src.dropWhile Char.isDigit
    if digits = [] then (readEnum sgn specialDayTable src).map .special
    else
      -- the first semicolon of the text is not a digit, so it is the first one of the rest
      (if ';' ∈ rest then parseHols (rest.dropWhile (· ≠ ';')).tail else some []).bind fun hols =>
        (DateText.stoi digits).bind fun n =>
          -- `substr` from `npos` throws
          if rest = [] then none
          else (readEnum sgn dateStepSizeTable (rest.takeWhile (· ≠ ';'))).bind fun u => (stepOfName u).map fun k => .steps n.toNat k hols

/-- `ParseIncrement` (dateincrement.cpp 187–210): the parts, applied in their order; the pieces of a split text have no `&`. -/
def parseIncrement (sgn : Bool) (parseHols : Str → Option Hol.Hols) (src : Str) : Option (List Single) :=
  if '&' ∈ src then (split '&' false src).mapM (parseSingle sgn parseHols) else (parseSingle sgn parseHols src).map fun s => [s]

/-- One increment forward or backward (dateincrement.cpp 87–110 and 146–151). `12 * n` and `7 * n` are computed in `int`. -/
def applySingle (fwd : Bool) (d : Date) : Single → Option Date
  | .special day =>
    if day = "CDS".toList then some (toCDS d fwd) else if day = "IMM".toList then some (toIMM d fwd 3)
    else if day = "IMM1".toList then some (toIMM d fwd 1) else if day = "EOM".toList then some (toEOM d fwd) else none
  | .steps n u h =>
    if (u = .Y ∧ 2147483647 < 12 * n) ∨ (u = .W ∧ 2147483647 < 7 * n) then none else stepBy u n h fwd d

/-- `IncrementCompound_::Apply` (dateincrement.cpp 160–165). -/
def applyAll (fwd : Bool) : List Single → Date → Option Date
  | [], d => some d
  | s :: rest, d => (applySingle fwd d s).bind (applyAll fwd rest)

/-- `while (mm > 12) ++yy, mm -= 12;` (periodlength.cpp 32–33); a period has at most twelve months, so once is enough. -/
def nominalCarry (y m : Int) : Int × Int := if m > 12 then (y + 1, m - 12) else (y, m)

/-- `PeriodLength_::Months` (periodlength.cpp 14–27) by enumerator. -/
def periodMonths (s : Str) : Option Int :=
  if s = "ANNUAL".toList then some 12 else if s = "SEMIANNUAL".toList then some 6 else if s = "QUARTERLY".toList then some 3
  else if s = "MONTHLY".toList then some 1 else none

/-- `Date::NominalMaturity` (periodlength.cpp 29–36). -/
def nominalMaturity (start : Date) (months : Int) : Date :=
  let p := nominalCarry (year start) (month start + months)
  mk' p.1 p.2 (min (day start) (daysInMonth p.1 p.2))

end Dal.Incr
