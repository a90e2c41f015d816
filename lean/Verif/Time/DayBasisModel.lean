import Mathlib.Data.Rat.Defs
import Mathlib.Algebra.Order.Field.Rat
import Verif.Time.DateModel

/-!
# Model of day-count fractions (dal/time/daybasis.cpp)

`double` results are modelled by exact rationals; every quotient computed by the code is a quotient
of two integers of at most 17 bits, so the only difference is one rounding per division.
-/

namespace Dal.DayBasis
open Dal.Date

/-- `ACT_360`, daybasis.cpp:68-69. -/
def act360 (a b : Date) : Rat := (sub b a : Rat) / 360
/-- `ACT_365F`, daybasis.cpp:70-71. -/
def act365F (a b : Date) : Rat := (sub b a : Rat) / 365

/-- `ActActISDA`, daybasis.cpp:15-22; `none`: the recursion is deeper than `fuel`. -/
def actAct : Nat → Date → Date → Option Rat
  | 0, _, _ => none
  | fuel + 1, a, b =>
    let nextYear := mk' (year a + 1) 1 1
    let denom : Rat := sub nextYear (mk' (year a) 1 1)
    if b.serial ≤ nextYear.serial then some ((sub b a : Rat) / denom)
    else (actAct fuel nextYear b).map (fun r => (sub nextYear a : Rat) / denom + r)

/-- The loop of `AnnualDaysL`, daybasis.cpp:27-35; `none`: still running after `fuel` iterations. -/
def annualDaysLLoop : Nat → Int → Int → Date → Option Rat
  | 0, _, _, _ => none
  | fuel + 1, mm, yy, b =>
    let yy := if mm > 2 then yy + 1 else yy
    if lt b (mk' yy 3 1) then some 365
    else if daysInMonth yy 2 = 29 then some 366
    else annualDaysLLoop fuel 2 yy b

/-- `AnnualDaysL`, daybasis.cpp:24-36. -/
def annualDaysL (fuel : Nat) (a b : Date) : Option Rat :=
  annualDaysLLoop fuel (month (addDays a 1)) (year (addDays a 1)) b

/-- `DaysL`, daybasis.cpp:38-41. -/
def daysL (e : Date) : Rat := sub (mk' (year e + 1) 1 1) (mk' (year e) 1 1)

/-- `Act365L`, daybasis.cpp:43-45. -/
def act365L (fuel : Nat) (a b : Date) (annual : Bool) (e : Date) : Option Rat :=
  if annual then (annualDaysL fuel a e).map (fun n => (sub b a : Rat) / n)
  else some ((sub b a : Rat) / daysL e)

/-- The day adjustments of `Bond`, daybasis.cpp:55-61: the pair `(d1, d2)`. -/
def bondDays (a b : Date) : Int × Int :=
  let p := if month a = 2 ∧ day a = daysInMonth (year a) (month a) then
      (30, if month b = 2 ∧ day b = daysInMonth (year b) (month b) then 30 else day b)
    else (day a, day b)
  if p.1 > 30 then (p.1, min p.1 p.2) else p

/-- `Bond`, daybasis.cpp:47-63. -/
def bond (a b : Date) : Rat :=
  ((360 * (year b - year a) + 30 * (month b - month a) + ((bondDays a b).2 - (bondDays a b).1) : Int)
    : Rat) / 360

end Dal.DayBasis
