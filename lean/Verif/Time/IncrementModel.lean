import Verif.Time.HolidaysModel

/-! # Model of special-day increments and schedules (dal/time/dateincrement.cpp, dal/time/schedules.cpp) -/

namespace Dal.Incr
open Dal.Date

/-- The `do { mm += forward ? 1 : -1; } while (mm % n);` loops, dateincrement.cpp:63-65 and 79-81.
The fuel is larger than the number of iterations the C++ loop makes (at most `n`, with `n` 1 or 3). -/
def advance (fwd : Bool) (n : Int) : Nat → Int → Int
  | 0, mm => mm
  | f + 1, mm =>
    let mm' := mm + (if fwd then 1 else -1)
    if mm'.tmod n = 0 then mm' else advance fwd n f mm'

/-- `MonthInRange`, dateincrement.cpp:50-55.  Its arguments satisfy 0 ≤ m ≤ 15, so each `while` runs
at most once. -/
def monthInRange (y m : Int) : Int × Int :=
  let p := if m > 12 then (y + 1, m - 12) else (y, m)
  if p.2 < 1 then (p.1 - 1, p.2 + 12) else p

/-- `IMMDay`, dateincrement.cpp:71. -/
def immDay (yy mm : Int) : Int := 21 - dayOfWeek (mk' yy mm 18)

/-- `ToCDS`, dateincrement.cpp:57-69. -/
def toCDS (from_ : Date) (fwd : Bool) : Date :=
  let mm := month from_
  let dd := day from_
  let mm := if (if fwd then decide (dd ≥ 20) else decide (dd ≤ 20)) then advance fwd 3 12 mm else mm
  let p := monthInRange (year from_) mm
  mk' p.1 p.2 20

/-- `ToIMM`, dateincrement.cpp:73-85. -/
def toIMM (from_ : Date) (fwd : Bool) (immMonths : Int) : Date :=
  let yy := year from_
  let mm := month from_
  let dd := day from_
  let mm := if (if fwd then decide (dd ≥ immDay yy mm) else decide (dd ≤ immDay yy mm))
    then advance fwd immMonths 12 mm else mm
  let p := monthInRange yy mm
  mk' p.1 p.2 (immDay p.1 p.2)

/-- `SpecialDay_::Step` for `EOM`, dateincrement.cpp:97-98. -/
def toEOM (from_ : Date) (fwd : Bool) : Date :=
  if fwd then endOfMonth from_ else addDays (mk' (year from_) (month from_) 1) (-1)

/-- `DateStepSize_`, dateincrement.cpp:30-42. -/
inductive StepSize | Y | M | W | CD | BD
  deriving DecidableEq, Repr

/-- `DateStepSize_::operator()`, dateincrement.cpp:114-142, for a non-negative count (ParseIncrement
only reads digits).  `Holidays::None()` is the empty list of centres; `none`: a business-day search
does not return. -/
def stepBy (k : StepSize) (n : Nat) (h : Hol.Hols) (fwd : Bool) (d : Date) : Option Date :=
  let sign : Int := if fwd then 1 else -1
  let r : Option Date := match k with
    | .Y => some (addMonths d (12 * n * sign) false)
    | .M => some (addMonths d (n * sign) false)
    | .W => some (addDays d (7 * n * sign))
    | .CD => some (addDays d (n * sign))
    | .BD => (if fwd then Hol.stepFwd h n d.serial else Hol.stepBack h n d.serial).map Date.mk
  if h ≠ [] then
    r.bind (fun x => (if fwd then Hol.nextBus h x.serial else Hol.prevBus h x.serial).map Date.mk)
  else r

/-- `IncrementCompound_::Apply`, dateincrement.cpp:159-164: the parts are applied left to right, in
both directions. -/
def compound (parts : List (Date → Date)) (d : Date) : Date := parts.foldl (fun x f => f x) d

/-- The forward loop of `DateGenerate`, schedules.cpp:24-30, after `cur` has been pushed; returns the
dates pushed after it, in order.  `none`: still running after `fuel` iterations. -/
def genFwd (fwd : Date → Date) (maturity : Date) : Nat → Date → Option (List Date)
  | 0, _ => none
  | fuel + 1, cur =>
    let pin := fwd cur
    if lt maturity pin then some []
    else (genFwd fwd maturity fuel pin).map (fun l => pin :: l)

/-- The backward loop, schedules.cpp:34-40. -/
def genBack (back : Date → Date) (start : Date) : Nat → Date → Option (List Date)
  | 0, _ => none
  | fuel + 1, cur =>
    let pin := back cur
    if lt pin start then some []
    else (genBack back start fuel pin).map (fun l => pin :: l)

/-- `DateGenerate(..., "Forward")`, schedules.cpp:23-32. -/
def dateGenFwd (fwd : Date → Date) (start maturity : Date) (fuel : Nat) : Option (List Date) :=
  (genFwd fwd maturity fuel start).map (fun l =>
    let ds := start :: l
    if maturity ≠ ds.getLast (by simp [ds]) then ds ++ [maturity] else ds)

/-- `DateGenerate(..., "Backward")`, schedules.cpp:33-43. -/
def dateGenBack (back : Date → Date) (start maturity : Date) (fuel : Nat) : Option (List Date) :=
  (genBack back start fuel maturity).map (fun l =>
    let ds := maturity :: l
    (if start ≠ ds.getLast (by simp [ds]) then ds ++ [start] else ds).reverse)

/-- The business-day adjustment and `Unique` of `MakeSchedule`, schedules.cpp:59-67; `none` if a
NextBus search does not return. -/
def adjust (h : Hol.Hols) (following : Bool) (ds : List Date) : Option (List Nat) :=
  (ds.mapM (fun d => if following then Hol.nextBus h d.serial else some d.serial)).map Hol.unique

end Dal.Incr
