import Mathlib.Algebra.Order.Field.Basic

/-!
# Historical index paths

`/repo/dal/indice/indexpath.cpp` and `indexpath.hpp` 34–47.

Simplifications: `double` is an ordered field `K`; a `DateTime_` is the number of days since the start of the calendar (day and fraction together;
wrapping of `AddDays` is C02, the order of `DateTime_` C10), so `+=` adds; a `std::map` is the function from times to fixings. An exception is `none`;
so is a loop that has not ended after `fuel` rounds.
-/

namespace Dal.Indice

variable {K : Type} [Field K] [LinearOrder K] [IsStrictOrderedRing K]

/-- `IndexPathHistorical_::Expectation` (`indexpath.cpp` 26–30), with `std::max(a, b)` = `a < b ? b : a` and `std::min(a, b)` = `b < a ? b : a`. -/
def expectation (fixings : K → Option K) (t : K) (lo hi : K) : Option K :=
  match fixings t with
  | none => none
  | some x =>
    let m := if x < hi then x else hi
    some (if lo < m then m else lo)

/-- `IndexPathHistorical_::FixInRangeProb` (`indexpath.cpp` 32–48). -/
def fixInRange (fixings : K → Option K) (t : K) (lower upper ramp : K) : Option K :=
  match fixings t with
  | none => none
  | some fixed =>
    if fixed ≥ lower ∧ fixed ≤ upper then some 1
    else if fixed ≥ lower - ramp ∧ fixed < lower then some (1 - (lower - fixed) / ramp)
    else if fixed ≤ upper + ramp ∧ fixed > upper then some (1 - (fixed - upper) / ramp)
    else some 0

/-- `DateTime_::operator+=` (`/repo/dal/time/datetime.cpp` 36–45) throws unless what is added is positive. -/
def advance (t frac : K) : Option K := if frac > 0 then some (t + frac) else none

/-- The loop of `AllInRangeProb` (`indexpath.cpp` 58–63). -/
def allLoop (fixings : K → Option K) (to_ lower upper interval ramp : K) : Nat → K → K → Option K
  | 0, _, _ => none
  | fuel + 1, current, prob =>
    if current < to_ then
      match (match fixings current with
        | none => some prob
        | some _ => (fixInRange fixings current lower upper ramp).map (prob * ·)) with
      | none => none
      | some prob =>
        match advance current interval with
        | none => none
        | some current => allLoop fixings to_ lower upper interval ramp fuel current prob
    else some prob

/-- `IndexPathHistorical_::AllInRangeProb` (`indexpath.cpp` 50–65). -/
def allInRange (fixings : K → Option K) (fuel : Nat) (from_ to_ lower upper interval ramp : K) : Option K :=
  allLoop fixings to_ lower upper interval ramp fuel from_ 1

/-- `IndexPath_::Extremum` (`indexpath.cpp` 12–24). -/
def extremum (fixings : K → Option K) (fuel : Nat) (maximum : Bool) (from_ to_ interval lo hi : K) : Option K :=
  match allInRange fixings fuel from_ to_ lo hi interval 0 with
  | none => none
  | some prob => if prob > 0 ∧ maximum = true then some hi else if prob > 0 then some lo else some 0

end Dal.Indice
