import Mathlib.Algebra.Order.Field.Rat
import Mathlib.Data.Rat.Floor
import Verif.Time.DateModel

/-! # Model of date text, future codes and date-times (date.cpp, dateutils.cpp, datetime.cpp) -/

namespace Dal.DateText
open Dal.Date

/-- `"%0wd"` / `"%wd"` of a non-negative number, padded on the left with `c`. -/
def padded (c : Char) (w : Nat) (n : Nat) : List Char :=
  List.replicate (w - (Nat.toDigits 10 n).length) c ++ Nat.toDigits 10 n

/-- `Date::ToString`, date.cpp:75-81.  Year, month and day of a date are never negative. -/
def toString' (d : Date) : List Char :=
  padded ' ' 4 (year d).toNat ++ '-' :: (padded '0' 2 (month d).toNat ++
    '-' :: padded '0' 2 (day d).toNat)

/-- Full match of the regular expression `([0-9]+)sep([0-9]+)sep([0-9]+)`, dateutils.cpp:13-14, with
its three groups.  `sep` is not a digit, so the match is unique. -/
def matchTriple (sep : Char) (s : List Char) : Option (List Char × List Char × List Char) :=
  let a := s.takeWhile Char.isDigit
  let r1 := s.dropWhile Char.isDigit
  if a = [] ∨ r1.head? ≠ some sep then none else
    let b := r1.tail.takeWhile Char.isDigit
    let r2 := r1.tail.dropWhile Char.isDigit
    if b = [] ∨ r2.head? ≠ some sep then none else
      let c := r2.tail
      if c ≠ [] ∧ c.all Char.isDigit then some (a, b, c) else none

/-- `String::ToInt` on a string of digits: `std::stoi` throws above `INT_MAX`. -/
def stoi (s : List Char) : Option Int :=
  let n := Nat.ofDigitChars 10 s 0
  if n ≤ 2147483647 then some n else none

/-- `Date::IsDateString`, dateutils.cpp:18-20. -/
def isDateString (s : List Char) : Bool := (matchTriple '/' s).isSome || (matchTriple '-' s).isSome

/-- `Date::FromString`, dateutils.cpp:22-39; `none` is an exception. -/
def fromString (s : List Char) : Option Date :=
  match matchTriple '/' s with
  | some g =>
    (stoi g.1).bind fun mm => (stoi g.2.1).bind fun dd => (stoi g.2.2).bind fun yy =>
      some (mk' (yy + if g.2.2.length = 2 then 2000 else 0) mm dd)
  | none =>
    match matchTriple '-' s with
    | some g =>
      (stoi g.1).bind fun yy => (stoi g.2.1).bind fun mm => (stoi g.2.2).bind fun dd =>
        some (mk' yy mm dd)
    | none => none

/-- The table of `Date::MonthFromFutureCode`, dateutils.cpp:42-43. -/
def futureMonths : List Int :=
  [0, 0, 0, 0, 0, 1, 2, 3, 0, 4, 5, 0, 6, 7, 0, 0, 8, 0, 0, 0, 9, 10, 0, 11, 0, 12]

/-- `Date::MonthFromFutureCode`, dateutils.cpp:41-48, on a byte; `none` is an exception. -/
def monthFromFutureCode (code : Nat) : Option Int :=
  if 65 ≤ code ∧ code ≤ 90 then
    match futureMonths[code - 65]? with
    | some m => if m > 0 then some m else none
    | none => none
  else none

/-- `DateTime_`; the `double` fraction is modelled by an exact rational. -/
structure DateTime where
  date : Date
  frac : Rat
  deriving DecidableEq

/-- Constructor from a date and a fraction, datetime.cpp:19-21. -/
def mkFrac (d : Date) (f : Rat) : Option DateTime := if f < 1 then some ⟨d, f⟩ else none

/-- Constructor from hours, minutes, seconds, datetime.cpp:23-27. -/
def mkHMS (d : Date) (h m s : Int) : Option DateTime :=
  let secs := 60 * (60 * h + m) + s
  if 0 ≤ secs ∧ secs < 86400 then some ⟨d, secs / 86400⟩ else none

/-- Constructor from milliseconds, datetime.cpp:29-34. -/
def mkMSec (msec : Int) : Option DateTime :=
  let whole := msec.tdiv 86400000
  let f : Rat := ((msec - 86400000 * whole : Int) : Rat) / 86400000
  if f < 1 then some ⟨addDays minimum whole, f⟩ else none

/-- `operator+=` and `operator+`, datetime.cpp:36-51; `none` is an exception. -/
def add (t : DateTime) (f : Rat) : Option DateTime :=
  if f > 0 then
    let g := t.frac + f
    let dt := ⌊g⌋
    if dt > 0 then some ⟨addDays t.date dt, g - dt⟩ else some ⟨t.date, g⟩
  else none

/-- `operator-`, datetime.cpp:53-55. -/
def diff (l r : DateTime) : Rat := (sub l.date r.date : Rat) + l.frac - r.frac

/-- `operator<`, datetime.cpp:57-59. -/
def ltDT (l r : DateTime) : Prop := lt l.date r.date ∨ (l.date = r.date ∧ l.frac < r.frac)

/-- C++ conversion of a floating value to `int`: truncation towards zero. -/
def trunc (q : Rat) : Int := if 0 ≤ q then ⌊q⌋ else ⌈q⌉

/-- `FracToHMS`, datetime.cpp:12-16. -/
def fracToHMS (f : Rat) : Int × Int × Int :=
  (trunc (24 * f), (trunc (1440 * f)).tmod 60, (trunc (86400 * f)).tmod 60)

/-- `DateTime::MSec`, datetime.cpp:84-87. -/
def msec (t : DateTime) : Int := 86400000 * sub t.date minimum + trunc (t.frac * 86400000)

end Dal.DateText
