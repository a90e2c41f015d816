import Mathlib.Algebra.Order.Field.Basic
import Mathlib.Data.Matrix.Mul

/-!
# Conjugate gradients

`/repo/dal/math/matrix/bcg.cpp` 46–123, `bcg.hpp` 9–24.

Simplifications, for the whole file:
* `double` is a linearly ordered field `K`, so rounding is not modelled; `sqrt` is a parameter.
* A vector of size `n` is a function from `Fin n`, so that the sizes checked at 53 and 86 agree by construction.
* The matrix (`Sparse::Square_`, `sparse.hpp` 17–29) is the pair of its two virtual multiplications, and the preconditioner
  (`HasPreConditioner_`) the pair of its two solves: any functions. Without preconditioner the vector is copied
  (`bcg.cpp` 18–29): the identity.
* Where a division has divisor zero the quotient is not a number or infinite, the test at 74 and 119 fails from then on, and the loop ends with
  the exception: `nonfinite`, an outcome of its own.
-/

namespace Dal.Cg

variable {K : Type} [Field K] [LinearOrder K] {n : Nat}

/-- What a call ends in: a return with `*x` overwritten, the exception at 77 and 122, the exceptions at 54 and 87, or the exception at 77 and 122
after a division by zero. -/
inductive Outcome (K : Type) (n : Nat) where
  | returned (x : Fin n → K)
  | exhausted
  | refused
  | nonfinite

/-- The variables of `CGSolve` that live from one pass to the next: `/repo/dal/math/matrix/bcg.cpp` 58–63. There is no `betaPrev` before the first
pass. -/
structure St (K : Type) (n : Nat) where
  x : Fin n → K
  r : Fin n → K
  p : Fin n → K
  betaPrev : Option K

/-- `ii > 0 ? beta / betaPrev : 0.0`: `/repo/dal/math/matrix/bcg.cpp` 67, 107. -/
def multiplier (beta : K) : Option K → Option K
  | none => some 0
  | some b => if b = 0 then none else some (beta / b)

/-- One pass of `CGSolve`: `/repo/dal/math/matrix/bcg.cpp` 65–73. -/
def cgStep (A P : (Fin n → K) → (Fin n → K)) (s : St K n) : Option (St K n) :=
  let z := P s.r
  let beta := dotProduct z s.r
  (multiplier beta s.betaPrev).bind fun c =>
    let p := c • s.p + z
    let q := A p
    let d := dotProduct q p
    if d = 0 then none
    else some ⟨s.x + (beta / d) • p, s.r + (-(beta / d)) • q, p, some beta⟩

/-- The loop: `/repo/dal/math/matrix/bcg.cpp` 64–77. -/
def cgLoop (sqrt : K → K) (A P : (Fin n → K) → (Fin n → K)) (tNorm : K) : Nat → St K n → Outcome K n
  | 0, _ => .exhausted
  | k + 1, s =>
    match cgStep A P s with
    | none => .nonfinite
    | some s => if sqrt (dotProduct s.r s.r) ≤ tNorm then .returned s.x else cgLoop sqrt A P tNorm k s

/-- `CGSolve`: `/repo/dal/math/matrix/bcg.cpp` 46–78. `eps` is `EPSILON` of `IsPositive` (`/repo/dal/platform/platform.hpp` 64). -/
def cgSolve (eps : K) (sqrt : K → K) (A P : (Fin n → K) → (Fin n → K)) (b : Fin n → K) (tolRel tolAbs : K) (maxIterations : Int) (x : Fin n → K) :
    Outcome K n :=
  if (eps ≤ tolRel ∨ eps ≤ tolAbs) ∧ 0 < maxIterations then
    cgLoop sqrt A P (tolRel * sqrt (dotProduct b b) + tolAbs) maxIterations.toNat ⟨x, b - A x, 0, none⟩
  else .refused

/-- The variables of `BCGSolve`: `/repo/dal/math/matrix/bcg.cpp` 91–102. -/
structure BSt (K : Type) (n : Nat) where
  x : Fin n → K
  r : Fin n → K
  rr : Fin n → K
  p : Fin n → K
  pp : Fin n → K
  betaPrev : Option K

/-- One pass of `BCGSolve`: `/repo/dal/math/matrix/bcg.cpp` 104–118. -/
def bcgStep (A At P Pt : (Fin n → K) → (Fin n → K)) (s : BSt K n) : Option (BSt K n) :=
  let z := P s.r
  let zz := Pt s.rr
  let beta := dotProduct zz s.r
  (multiplier beta s.betaPrev).bind fun c =>
    let p := c • s.p + z
    let pp := c • s.pp + zz
    let q := A p
    let qq := At pp
    let d := dotProduct q pp
    if d = 0 then none
    else some ⟨s.x + (beta / d) • p, s.r + (-(beta / d)) • q, s.rr + (-(beta / d)) • qq, p, pp, some beta⟩

/-- The loop: `/repo/dal/math/matrix/bcg.cpp` 103–122. -/
def bcgLoop (sqrt : K → K) (A At P Pt : (Fin n → K) → (Fin n → K)) (tNorm : K) : Nat → BSt K n → Outcome K n
  | 0, _ => .exhausted
  | k + 1, s =>
    match bcgStep A At P Pt s with
    | none => .nonfinite
    | some s => if sqrt (dotProduct s.r s.r) ≤ tNorm then .returned s.x else bcgLoop sqrt A At P Pt tNorm k s

/-- `BCGSolve`: `/repo/dal/math/matrix/bcg.cpp` 80–123. -/
def bcgSolve (eps : K) (sqrt : K → K) (A At P Pt : (Fin n → K) → (Fin n → K)) (b : Fin n → K) (tolRel tolAbs : K) (maxIterations : Int)
    (x : Fin n → K) : Outcome K n :=
  if (eps ≤ tolRel ∨ eps ≤ tolAbs) ∧ 0 < maxIterations then
    bcgLoop sqrt A At P Pt (tolRel * sqrt (dotProduct b b) + tolAbs) maxIterations.toNat ⟨x, b - A x, b - A x, 0, 0, none⟩
  else .refused

end Dal.Cg
