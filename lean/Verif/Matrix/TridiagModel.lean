import Mathlib.Algebra.Order.Field.Basic

/-!
# Tridiagonal matrices

Source: `dal/math/matrix/banded.cpp` 13–114 and 303–334, `dal/math/matrix/banded.hpp` 15–50.

Simplifications: doubles are elements of an ordered field, so there is no rounding.  A vector is a function of its index together with the
size of the matrix; the sizes agree by construction (`diag_` has `n` entries, `above_` and `below_` have `n - 1`) and the loops below
are those of the code, so that they touch only indices in range, which is a theorem for the loops that write.  A failed `REQUIRE` is
`none`.  The threshold of `IsZero` (`platform.hpp` 55 and 62) is a parameter `eps`.
-/

namespace Dal.Tri

variable {K : Type} [Field K] [LinearOrder K] [IsStrictOrderedRing K]

/-- `IsZero` (`platform.hpp` 62). -/
def isZero (eps x : K) : Bool := decide (x < eps) && decide (-x < eps)

/-- The data of a tridiagonal matrix (`banded.hpp` 15–19); `n` is at least 1 (`banded.cpp` 329). -/
structure Mat (K : Type) where
  n : Nat
  diag : Nat → K
  above : Nat → K
  below : Nat → K

/-- `v[i] += c`, and other writes. -/
def upd (v : Nat → K) (i : Nat) (c : K) : Nat → K := fun k => if k = i then c else v k

/-- The first loop of `TriMultiply` (`banded.cpp` 21–23), for `k` steps. -/
def addAbove (x above : Nat → K) : Nat → (Nat → K) → (Nat → K)
  | 0, r => r
  | k + 1, r => let r := addAbove x above k r; upd r k (r k + x (k + 1) * above k)

/-- The second loop of `TriMultiply` (`banded.cpp` 24–26), for `k` steps. -/
def addBelow (x below : Nat → K) : Nat → (Nat → K) → (Nat → K)
  | 0, r => r
  | k + 1, r => let r := addBelow x below k r; upd r (k + 1) (r (k + 1) + x k * below k)

/-- `TriMultiply` (`banded.cpp` 16–27), for a result that is not the argument. -/
def triMultiply (n : Nat) (x diag above below : Nat → K) : Nat → K :=
  addBelow x below (n - 1) (addAbove x above (n - 1) (fun i => x i * diag i))

/-- `TriMultiply` when the result is the argument (`banded.cpp` 16–27): every step reads what the earlier ones wrote. -/
def triMultiplyInPlace (n : Nat) (x diag above below : Nat → K) : Nat → K :=
  let rec lower : Nat → (Nat → K) → (Nat → K)
    | 0, r => r
    | k + 1, r => let r := lower k r; upd r (k + 1) (r (k + 1) + r k * below k)
  let rec upper : Nat → (Nat → K) → (Nat → K)
    | 0, r => r
    | k + 1, r => let r := upper k r; upd r k (r k + r (k + 1) * above k)
  lower (n - 1) (upper (n - 1) (fun i => x i * diag i))

/-- The loop of `TridagBetaInverse` (`banded.cpp` 33–40): at index `j` with `gammaA`, `left` more to do after this one. -/
def betaLoop (eps : K) (diag above below : Nat → K) : Nat → Nat → K → (Nat → K) → Option (Nat → K)
  | left, j, gamma, ret =>
    let beta := diag j - gamma
    if isZero eps beta then none
    else
      let ret := upd ret j (1 / beta)
      match left with
      | 0 => some ret
      | left + 1 => betaLoop eps diag above below left (j + 1) (above j * ret j * below j) ret

/-- `TridagBetaInverse` (`banded.cpp` 29–41). -/
def betaInverse (eps : K) (n : Nat) (diag above below : Nat → K) : Option (Nat → K) :=
  betaLoop eps diag above below (n - 1) 0 0 (fun _ => 0)

/-- The forward loop of `TriSolve` (`banded.cpp` 53–54), for `j = 1 … k`. -/
def forward (b above betaInv : Nat → K) : Nat → (Nat → K) → (Nat → K)
  | 0, x => x
  | k + 1, x => let x := forward b above betaInv k x; upd x (k + 1) ((b (k + 1) - above k * x k) * betaInv (k + 1))

/-- The backward loop of `TriSolve` (`banded.cpp` 55–56), for `j = k … 1`. -/
def backward (below betaInv : Nat → K) : Nat → (Nat → K) → (Nat → K)
  | 0, x => x
  | k + 1, x => backward below betaInv k (upd x k (x k - below k * betaInv k * x (k + 1)))

/-- `TriSolve` (`banded.cpp` 43–57). -/
def triSolve (n : Nat) (b above below betaInv : Nat → K) : Nat → K :=
  backward below betaInv (n - 1) (forward b above betaInv (n - 1) (upd (fun _ => 0) 0 (b 0 * betaInv 0)))

/-- `TriDecomp_` and `TriDecompSymm_` (`banded.cpp` 59–106): the matrix and the inverses of the pivots. -/
structure Decomp (K : Type) where
  mat : Mat K
  betaInv : Nat → K

/-- `TriDiagonal_::Decompose` (`banded.cpp` 322–326); the symmetric form uses `above_` for `below_`, which are equal then. -/
def decompose (eps : K) (m : Mat K) : Option (Decomp K) :=
  (betaInverse eps m.n m.diag m.above m.below).map fun bi => ⟨m, bi⟩

/-- `MultiplyLeft` of the matrix and of its decomposition (`banded.cpp` 67–70 and 316–318). -/
def multiplyLeft (m : Mat K) (x : Nat → K) : Nat → K := triMultiply m.n x m.diag m.above m.below

/-- `MultiplyRight` of the matrix and of its decomposition (`banded.cpp` 71–74 and 319–321). -/
def multiplyRight (m : Mat K) (x : Nat → K) : Nat → K := triMultiply m.n x m.diag m.below m.above

/-- `SolveLeft` (`banded.cpp` 75–78 and 98–101). -/
def solveLeft (d : Decomp K) (b : Nat → K) : Nat → K := triSolve d.mat.n b d.mat.below d.mat.above d.betaInv

/-- `SolveRight` (`banded.cpp` 79–82 and 98–101). -/
def solveRight (d : Decomp K) (b : Nat → K) : Nat → K := triSolve d.mat.n b d.mat.above d.mat.below d.betaInv

/-- `TriDiagonal_::operator()` (`banded.cpp` 108–114 and 309–315). -/
def elem (m : Mat K) (i j : Nat) : K :=
  if i = j then m.diag i else if i = j + 1 then m.below j else if j = i + 1 then m.above i else 0

/-- `TriDiagonal_::Set` (`banded.hpp` 27–31, with `banded.cpp` 108–114 and 305–307): `none` when outside the band. -/
def setElem (m : Mat K) (i j : Nat) (v : K) : Option (Mat K) :=
  if i = j then some { m with diag := upd m.diag i v }
  else if i = j + 1 then some { m with below := upd m.below j v }
  else if j = i + 1 then some { m with above := upd m.above i v }
  else none

end Dal.Tri
