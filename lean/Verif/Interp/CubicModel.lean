import Verif.Interp.LinearModel

/-!
# Cubic splines

Model of `dal/math/interp/interpcubic.cpp` 30–128 and of `Boundary_` (`interpcubic.hpp` 12–16).

Simplifications: numbers are elements of an ordered field, so there is no rounding; a vector is its size and a function from indices. The
constructor that takes the second derivatives, used when a spline is read from storage, does no work and is not modelled.
-/

namespace Dal.Interp

variable {K : Type} [Field K] [LinearOrder K]

/-- A write to a vector. -/
def put (v : Nat → K) (i : Nat) (x : K) : Nat → K := fun j => if j = i then x else v j

/-- `Boundary_` (`interpcubic.hpp` 12–16). -/
structure Boundary (K : Type) where
  order : Int
  value : K

/-- The fields of a `Cubic1_` (`interpcubic.cpp` 31–32). -/
structure Cubic (K : Type) where
  n : Nat
  x : Nat → K
  f : Nat → K
  fpp : Nat → K

/-- `IsMonotonic(c)` (`dal/utilities/algorithms.hpp` 140–151), with `std::less`. -/
def isStrict (x : Nat → K) (n : Nat) : Bool := (List.range (n - 1)).all fun i => decide (x i < x (i + 1))

/-- The left boundary (`interpcubic.cpp` 75–92): the first elements of `u` and `fpp_`; `none` when it throws. -/
def leftBoundary (x f : Nat → K) (lhs : Boundary K) : Option (K × K) :=
  let dx := x 1 - x 0
  if lhs.order = 1 then some (-(1 / 2), ((f 1 - f 0) / dx - lhs.value) * (3 / dx))
  else if lhs.order = 2 then some (0, lhs.value)
  else if lhs.order = 3 then some (1, -dx * lhs.value)
  else none

/-- The decomposition loop (`interpcubic.cpp` 93–102), for `i` from 1 to the count: the vectors `u` and `fpp_`. -/
def decomposeLoop (x f : Nat → K) : Nat → (Nat → K) × (Nat → K) → (Nat → K) × (Nat → K)
  | 0, s => s
  | c + 1, s =>
    let (u, fpp) := decomposeLoop x f c s
    let i := c + 1
    let dx := x i - x (i - 1)
    let d2 := x (i + 1) - x (i - 1)
    let sig := dx / d2
    let p := sig * u (i - 1) + 2
    let temp := (f (i + 1) - f i) / (x (i + 1) - x i) - (f i - f (i - 1)) / dx
    (put u i ((sig - 1) / p), put fpp i ((6 * temp - dx * fpp (i - 1)) / (p * d2)))

/-- The right boundary (`interpcubic.cpp` 103–118): the last element of `fpp_`. -/
def rightBoundary (n : Nat) (x f : Nat → K) (rhs : Boundary K) (u fpp : Nat → K) : Option K :=
  let dx := x (n - 1) - x (n - 2)
  if rhs.order = 1 then
    let un := (3 / dx) * (rhs.value - (f (n - 1) - f (n - 2)) / dx)
    some ((2 * un - fpp (n - 2)) / (2 + u (n - 2)))
  else if rhs.order = 2 then some rhs.value
  else if rhs.order = 3 then some ((dx * rhs.value + fpp (n - 2)) / (1 - u (n - 2)))
  else none

/-- The back substitution (`interpcubic.cpp` 119–120), for the elements below the count, from the last down. -/
def backLoop (u : Nat → K) : Nat → (Nat → K) → (Nat → K)
  | 0, fpp => fpp
  | k + 1, fpp => backLoop u k (put fpp k (fpp k + u k * fpp (k + 1)))

/-- The constructor (`interpcubic.cpp` 65–121), for vectors of sizes `n` and `m`: `none` when it throws. -/
def newCubic (n m : Nat) (x f : Nat → K) (lhs rhs : Boundary K) : Option (Cubic K) :=
  if (n > 2 ∧ isStrict x n = true) ∧ n = m then
    (leftBoundary x f lhs).bind fun first =>
    let (u, fpp) := decomposeLoop x f (n - 2) (put (fun _ => 0) 0 first.1, put (fun _ => 0) 0 first.2)
    (rightBoundary n x f rhs u fpp).bind fun last =>
    some ⟨n, x, f, backLoop u (n - 1) (put fpp (n - 1) last)⟩
  else none

/-- `Cubic1_::operator()` (`interpcubic.cpp` 51–62). -/
def Cubic.eval (c : Cubic K) (x0 : K) : K :=
  let pGE := lowerBound c.x c.n x0
  if pGE ≠ c.n ∧ c.x pGE = x0 then c.f pGE
  else
    let iGE := min (c.n - 1) (max 1 pGE)
    let iLT := iGE - 1
    let h := c.x iGE - c.x iLT
    let b := (x0 - c.x iLT) / h
    let a := 1 - b
    a * c.f iLT + b * c.f iGE - a * b * ((1 + a) * c.fpp iLT + (1 + b) * c.fpp iGE) * (h * h) / 6

/-- `IsInBounds` (`interpcubic.cpp` 34–36). -/
def Cubic.isInBounds (c : Cubic K) (x0 : K) : Bool := decide (x0 ≥ c.x 0 ∧ x0 ≤ c.x (c.n - 1))

end Dal.Interp
