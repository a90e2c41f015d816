import Mathlib.Algebra.Order.Field.Basic
import Mathlib.Tactic.Ring

/-!
# Linear interpolation

Model of `dal/math/interp/interp.hpp` 34–45, `interp.cpp` 28–45, `interp2d.hpp` 29–51, `interp2d.cpp` 28–37 and of the searches and the test
of order they use (`dal/utilities/algorithms.hpp` 110–116, 140–149).

Simplifications: numbers are elements of an ordered field, so there is no rounding and no NaN; a vector is its size and a function from
indices. The searches of the standard library are modelled by the halving search of its usual implementation. Reading outside a vector is
`none`.
-/

namespace Dal.Interp

variable {K : Type} [Field K] [LinearOrder K]

/-- The halving search behind `std::lower_bound` and `std::upper_bound` (`algorithms.hpp` 110–116): the first of `len` positions from
`first` that is not `before`. The fuel is any number not below `len`. -/
def search (before : Nat → Bool) : Nat → Nat → Nat → Nat
  | 0, first, _ => first
  | _, first, 0 => first
  | fuel + 1, first, len =>
    let half := len / 2
    if before (first + half) then search before fuel (first + half + 1) (len - half - 1) else search before fuel first half

/-- `LowerBound` (`algorithms.hpp` 110–112) on a vector of size `n`. -/
def lowerBound (x : Nat → K) (n : Nat) (x0 : K) : Nat := search (fun i => decide (x i < x0)) n 0 n

/-- `UpperBound` (`algorithms.hpp` 114–116) on a vector of size `n`. -/
def upperBound (x : Nat → K) (n : Nat) (x0 : K) : Nat := search (fun i => decide (¬ x0 < x i)) n 0 n

/-- `IsMonotonic(c, std::less_equal<>())` (`algorithms.hpp` 140–149). -/
def isMonotonic (x : Nat → K) (n : Nat) : Bool := (List.range (n - 1)).all fun i => decide (x i ≤ x (i + 1))

/-- `IsZero` (`dal/platform/platform.hpp` 62), for the tolerance `eps`. -/
def isZero (eps x : K) : Bool := decide (x < eps ∧ -x < eps)

/-- `InterpLinearImplX` (`interp.hpp` 34–45), for vectors of the same size. -/
def linear (eps : K) (n : Nat) (x y : Nat → K) (x0 : K) : Option K :=
  let pge := lowerBound x n x0
  if pge = n then
    if n = 0 then none else some (y (n - 1))
  else if pge = 0 ∨ isZero eps (x0 - x pge) = true then some (y pge)
  else
    let plt := pge - 1
    let gFrac := (x0 - x plt) / (x pge - x plt)
    some (y plt + gFrac * (y (plt + 1) - y plt))

/-- The data of an `Interp1Linear_` (`interp.hpp` 47–49). -/
structure Linear (K : Type) where
  n : Nat
  x : Nat → K
  f : Nat → K

/-- The constructor (`interp.cpp` 28–32), for vectors of sizes `n` and `m`: `none` when it throws. -/
def newLinear (n m : Nat) (x f : Nat → K) : Option (Linear K) :=
  if n = m ∧ isMonotonic x n = true then some ⟨n, x, f⟩ else none

/-- `Interp1Linear_::operator()` (`interp.cpp` 39–41). -/
def Linear.eval (eps : K) (i : Linear K) (x0 : K) : Option K := linear eps i.n i.x i.f x0

/-- `Interp2DLinearImplX` (`interp2d.hpp` 29–51): the rows belong to `x`, the columns to `y`. -/
def linear2 (eps : K) (n m : Nat) (x y : Nat → K) (f : Nat → Nat → K) (x0 y0 : K) : Option K :=
  let n2 := upperBound x n x0
  if n2 = n then
    if n = 0 then none else linear eps m y (f (n2 - 1)) y0
  else if n2 = 0 then linear eps m y (f 0) y0
  else
    let n1 := n2 - 1
    (linear eps m y (f n1) y0).bind fun z1 => (linear eps m y (f n2) y0).bind fun z2 =>
      some (z1 + (z2 - z1) * ((x0 - x n1) / (x n2 - x n1)))

/-- The data of an `Interp2Linear_` (`interp2d.hpp` 53–56). -/
structure Linear2 (K : Type) where
  n : Nat
  m : Nat
  x : Nat → K
  y : Nat → K
  f : Nat → Nat → K

/-- The constructor (`interp2d.cpp` 28–33), for a matrix of `rows` and `cols`: `none` when it throws. -/
def newLinear2 (n m rows cols : Nat) (x y : Nat → K) (f : Nat → Nat → K) : Option (Linear2 K) :=
  if (n = rows ∧ m = cols) ∧ isMonotonic x n = true ∧ isMonotonic y m = true then some ⟨n, m, x, y, f⟩ else none

/-- `Interp2Linear_::operator()` (`interp2d.cpp` 35–37). -/
def Linear2.eval (eps : K) (i : Linear2 K) (x0 y0 : K) : Option K := linear2 eps i.n i.m i.x i.y i.f x0 y0

end Dal.Interp
