import Mathlib.Algebra.Order.Field.Basic
import Mathlib.Tactic.Ring

/-!
# Smoothing

Model of `dal/math/smooth.cpp` 12–41.

Simplifications: numbers are elements of an ordered field, so there is no rounding; a vector is its size and a function from indices.
Dividing by zero and reading outside a vector are `none`, as are exceptions.
-/

namespace Dal.Smooth

variable {K : Type} [Field K] [LinearOrder K]

/-- A write to a vector. -/
def put (v : Nat → K) (i : Nat) (x : K) : Nat → K := fun j => if j = i then x else v j

/-- The loop filling `coupling` (`smooth.cpp` 18–19), for `i` from 1 to the count. -/
def couplingLoop (dxMin lambda : K) (x : Nat → K) : Nat → (Nat → K) → (Nat → K)
  | 0, c => c
  | k + 1, c => let c := couplingLoop dxMin lambda x k c; put c (k + 1) (lambda / max (x (k + 1) - x k) dxMin)

/-- `coupling` (`smooth.cpp` 17–20). -/
def coupling (dxMin lambda : K) (n : Nat) (x : Nat → K) : Nat → K :=
  put (couplingLoop dxMin lambda x (n - 1) (fun _ => 0)) (n - 1) 0

/-- The forward recursion (`smooth.cpp` 23–31), up to the index: the vectors `beta` and `gamma`. -/
def forward (c w y : Nat → K) : Nat → Option ((Nat → K) × (Nat → K))
  | 0 => some (put (fun _ => 0) 0 (w 0 + c 0), put (fun _ => 0) 0 (w 0 * y 0))
  | i + 1 => (forward c w y i).bind fun (beta, gamma) =>
    if beta i = 0 then none
    else some (put beta (i + 1) (w (i + 1) + c i + c (i + 1) - c i * c i / beta i), put gamma (i + 1) (w (i + 1) * y (i + 1) + c i * gamma i / beta i))

/-- The back-substitution (`smooth.cpp` 35–36), for the indices below the count, from the last down. -/
def backward (c beta gamma : Nat → K) : Nat → (Nat → K) → Option (Nat → K)
  | 0, z => some z
  | j + 1, z => if beta j = 0 then none else backward c beta gamma j (put z j ((gamma j + c j * z (j + 1)) / beta j))

/-- `SmoothedVals` (`smooth.cpp` 12–41), for vectors of sizes `n`, `m` and `wn`; an empty `weight` stands for ones. -/
def smoothed (dxMin : K) (n m wn : Nat) (x y weight : Nat → K) (lambda : K) : Option (Nat → K) :=
  if (List.range (n - 1)).all (fun i => decide (x i ≤ x (i + 1))) = true ∧ m = n ∧ n > 1 then
    if wn ≠ 0 ∧ wn < n then none
    else
      let w := if wn = 0 then fun _ => 1 else weight
      let c := coupling dxMin lambda n x
      (forward c w y (n - 1)).bind fun (beta, gamma) =>
      if beta (n - 1) = 0 then none
      else backward c beta gamma (n - 1) (put (fun _ => 0) (n - 1) (gamma (n - 1) / beta (n - 1)))
  else none

end Dal.Smooth
