import Verif.Interp.LinearModel

/-!
# Piecewise functions of the date and discount curves

`/repo/dal/curve/piecewiseconstant.hpp` 13–43, `piecewiseconstant.cpp` 35–67, `piecewiselinear.hpp` 13–29, `piecewiselinear.cpp` 13–51,
`ycimp.cpp` 52–88.

Simplifications: `double` is an ordered field; a date is its day number, and a difference of dates the difference of the numbers (for `Date_` itself see
C01); the vectors of knots and of values have the same size `n` (the constructors do not check it, and with fewer values than knots `Sofar` reads outside);
a vector is a function of the index. `exp` is a parameter. A base curve is another piecewise linear one: the only kind there is.
-/

namespace Dal.Curve

open Dal.Interp (search)

variable {K : Type} [Field K] [LinearOrder K]

/-- `LowerBound` of a date in the knots (`/repo/dal/utilities/algorithms.hpp` 110–112). -/
def lowerBound (n : Nat) (knots : Nat → Int) (t : Int) : Nat := search (fun i => decide (knots i < t)) n 0 n

/-- `UpperBound` of a date in the knots (`/repo/dal/utilities/algorithms.hpp` 114–116). -/
def upperBound (n : Nat) (knots : Nat → Int) (t : Int) : Nat := search (fun i => decide (¬ t < knots i)) n 0 n

/-- `PiecewiseConstant_` (`piecewiseconstant.hpp` 13–31), without its `sofar_`, which is computed from the rest whenever it changes. -/
structure Pwc (K : Type) where
  n : Nat
  knots : Nat → Int
  fRight : Nat → K

/-- `PiecewiseConstant_::Sofar` (`piecewiseconstant.cpp` 35–42), by index. -/
def Pwc.sofar (c : Pwc K) : Nat → K
  | 0 => 0
  | i + 1 => c.sofar i + ((c.knots (i + 1) - c.knots i : Int) : K) * c.fRight i

/-- `PiecewiseConstant_::IntegralTo` (`piecewiseconstant.cpp` 44–53). -/
def Pwc.integralTo (c : Pwc K) (t : Int) : K :=
  let iGE := lowerBound c.n c.knots t
  if iGE = 0 then 0
  else if iGE < c.n ∧ c.knots iGE = t then c.sofar iGE
  else c.sofar (iGE - 1) + ((t - c.knots (iGE - 1) : Int) : K) * c.fRight (iGE - 1)

/-- `PWC::F` (`piecewiseconstant.cpp` 55–67): the value and whether the date is a knot. -/
def Pwc.f (c : Pwc K) (t : Int) : K × Bool :=
  let iGE := lowerBound c.n c.knots t
  if iGE ≠ c.n ∧ c.knots iGE = t then (c.fRight iGE, true)
  else (if iGE = 0 then 0 else c.fRight (iGE - 1), false)

/-- `PWC::Integral` (`piecewiseconstant.hpp` 39–43). -/
def Pwc.integral (c : Pwc K) (s t : Int) : K := c.integralTo t - c.integralTo s

/-- `PiecewiseLinear_` (`piecewiselinear.hpp` 13–29), without `sofar_`. -/
structure Pwl (K : Type) where
  n : Nat
  knots : Nat → Int
  fLeft : Nat → K
  fRight : Nat → K

/-- `PiecewiseLinear_::Sofar` (`piecewiselinear.cpp` 13–21), by index. -/
def Pwl.sofar (c : Pwl K) : Nat → K
  | 0 => 0
  | i + 1 => c.sofar i + ((c.knots (i + 1) - c.knots i : Int) : K) * ((c.fLeft (i + 1) + c.fRight i) / 2)

/-- `PiecewiseLinear_::IntegralTo` (`piecewiselinear.cpp` 23–37): `none` when the front of no values is read. -/
def Pwl.integralTo (c : Pwl K) (t : Int) : Option K :=
  let iGE := lowerBound c.n c.knots t
  if iGE = 0 then (if c.n = 0 then none else some (-c.fLeft 0 * ((c.knots 0 - t : Int) : K)))
  else if iGE = c.n then some (c.sofar (c.n - 1) + c.fRight (c.n - 1) * ((t - c.knots (c.n - 1) : Int) : K))
  else if c.knots iGE = t then some (c.sofar iGE)
  else
    let iLT := iGE - 1
    let elapsed : K := ((t - c.knots iLT : Int) : K)
    let elapsedFrac := elapsed / ((c.knots iGE - c.knots iLT : Int) : K)
    let fStart := c.fRight iLT
    let fStop := fStart + elapsedFrac * (c.fLeft iGE - fStart)
    some (c.sofar iLT + elapsed * (fStart + fStop) / 2)

/-- `PiecewiseLinear_::ValueAt` (`piecewiselinear.cpp` 39–51). -/
def Pwl.valueAt (c : Pwl K) (t : Int) (fromRight : Bool) : Option K :=
  let iGE := if fromRight then upperBound c.n c.knots t else lowerBound c.n c.knots t
  if iGE = 0 then (if c.n = 0 then none else some (c.fLeft 0))
  else if iGE = c.n then some (c.fRight (c.n - 1))
  else
    let iLT := iGE - 1
    let elapsed : K := ((t - c.knots iLT : Int) : K)
    let elapsedFrac := elapsed / ((c.knots iGE - c.knots iLT : Int) : K)
    let fStart := c.fRight iLT
    some (fStart + elapsedFrac * (c.fLeft iGE - fStart))

/-- `DiscountPWLF_::operator()` (`ycimp.cpp` 68–71): the curve is the list of its own forwards, those of its base, of the base of the base and so on. -/
def discount (exp : K → K) : List (Pwl K) → Int → Int → Option K
  | [], _, _ => some 1
  | c :: base, s, t => (c.integralTo t).bind fun it => (c.integralTo s).bind fun is =>
    (discount exp base s t).map fun b => exp (-(it - is) / 365) * b

/-- `ApplyDX_PWLF` (`ycimp.cpp` 52–59): the increments are for the left and right value of each knot in turn. -/
def Pwl.applyDX (c : Pwl K) (dx : Nat → K) (leverage : K) : Pwl K :=
  { c with fLeft := fun i => c.fLeft i + leverage * dx (2 * i), fRight := fun i => c.fRight i + leverage * dx (2 * i + 1) }

end Dal.Curve
