import Verif.Matrix.TridiagModel

/-!
# Banded matrices

Source: `dal/math/matrix/banded.cpp` 116–301, 328–333 and 385–391.

Simplifications: doubles are elements of an ordered field and the square root is a parameter; a vector is a function of its index with its
size given by the matrix; where the code can leave a matrix or a vector, the model says so (`Res.undefined`); a failed `REQUIRE` is
`Res.throws`.  `LowerBandAccumulator_::Add` is in `Matrix/AccumModel.lean`, `QForm` under C75.
-/

namespace Dal.Band

open Dal.Tri (isZero upd)

variable {K : Type} [Field K] [LinearOrder K] [IsStrictOrderedRing K]

/-- What a computation does. -/
inductive Res (α : Type) where
  | ok (a : α)
  | throws
  | undefined

/-- `BandElements_` (`banded.cpp` 120–146): row `i` stores the columns `i - nBelow …` of the matrix; `view` is read for rows below `rows` and
columns below `cols`. -/
structure Elements (K : Type) where
  rows : Nat
  cols : Nat
  nBelow : Nat
  view : Nat → Nat → K

/-- `BandElements_(size, n_above, n_below)` (`banded.cpp` 125–128). -/
def Elements.make (size nAbove nBelow : Nat) : Elements K := ⟨size, 1 + nBelow + nAbove, nBelow, fun _ _ => 0⟩

/-- Whether a place is in the band (`banded.cpp` 134–135). -/
def Elements.inBand (v : Elements K) (row col : Nat) : Bool := decide (row ≤ col + v.nBelow) && decide (col + v.nBelow - row < v.cols)

/-- `operator()` for a row of the matrix (`banded.cpp` 133–138). -/
def Elements.get (v : Elements K) (row col : Nat) : K := if v.inBand row col then v.view row (col + v.nBelow - row) else 0

/-- `operator()` for any row (`banded.cpp` 133–138): in the band of a row that does not exist it reads outside the matrix. -/
def Elements.read (v : Elements K) (row col : Nat) : Option K :=
  if v.inBand row col ∧ v.rows ≤ row then none else some (v.get row col)

/-- A write through `At` (`banded.cpp` 140–145), for a row of the matrix; `none`: refused. -/
def Elements.write (v : Elements K) (row col : Nat) (x : K) : Option (Elements K) :=
  if v.inBand row col then
    some { v with view := fun r c => if r = row ∧ c = col + v.nBelow - row then x else v.view r c }
  else none

/-- The inner loop of `BandedMultiply` (`banded.cpp` 159–161), for `count` values of `jj` from `j0`. -/
def multRow (transpose : Bool) (v : Elements K) (x : Nat → K) (i j0 : Nat) : Nat → (Nat → K) → (Nat → K)
  | 0, b => b
  | c + 1, b =>
    let b := multRow transpose v x i j0 c b
    let j := j0 + c
    let t := if transpose then j else i
    upd b t (b t + x (if transpose then i else j) * v.get i j)

/-- The outer loop of `BandedMultiply` (`banded.cpp` 157–162), for the first `k` rows. -/
def multRows (transpose : Bool) (v : Elements K) (x : Nat → K) (n : Nat) : Nat → (Nat → K) → (Nat → K)
  | 0, b => b
  | k + 1, b =>
    let b := multRows transpose v x n k b
    multRow transpose v x k (k - v.nBelow) (min n (k + v.cols - v.nBelow) - (k - v.nBelow)) b

/-- `BandedMultiply` (`banded.cpp` 151–163) for vectors of the size of the matrix. -/
def multiply (transpose : Bool) (v : Elements K) (x : Nat → K) : Nat → K := multRows transpose v x v.rows v.rows (fun _ => 0)

/-- The inner loop of `BandedLSolve` (`banded.cpp` 173–174). -/
def residual (v : Elements K) (x : Nat → K) (i j0 : Nat) : Nat → K → K
  | 0, r => r
  | c + 1, r => residual v x i j0 c r - x (j0 + c) * v.get i (j0 + c)

/-- The loop of `BandedLSolve` (`banded.cpp` 171–177), for the first `k` rows; `none`: refused. -/
def lSolveRows (eps : K) (v : Elements K) (b : Nat → K) : Nat → (Nat → K) → Option (Nat → K)
  | 0, x => some x
  | k + 1, x => (lSolveRows eps v b k x).bind fun x =>
      if isZero eps (v.get k k) then none
      else some (upd x k (residual v x k (k - v.nBelow) (k - (k - v.nBelow)) (b k) / v.get k k))

/-- `BandedLSolve` (`banded.cpp` 166–178). -/
def lSolve (eps : K) (v : Elements K) (b : Nat → K) : Option (Nat → K) :=
  if v.cols ≠ v.nBelow + 1 then none else lSolveRows eps v b v.rows (fun _ => 0)

/-- The inner loop of `BandedLTransposeSolve` (`banded.cpp` 188–189): `jj` goes down from `jmax` to `ii + 1`; `none`: `x` is read outside. -/
def residualT (v : Elements K) (x : Nat → K) (i : Nat) : Nat → K → Option K
  | 0, r => some r
  | c + 1, r =>
    let j := i + (c + 1)
    if v.rows ≤ j then none else residualT v x i c (r - x j * v.get j i)

/-- The loop of `BandedLTransposeSolve` (`banded.cpp` 186–192), for rows `k - 1` down to 0. -/
def ltSolveRows (eps : K) (v : Elements K) (b : Nat → K) : Nat → (Nat → K) → Res (Nat → K)
  | 0, x => .ok x
  | k + 1, x =>
    match residualT v x k (max (v.rows - 1) (k + v.nBelow) - k) (b k) with
    | none => .undefined
    | some r => if isZero eps (v.get k k) then .throws else ltSolveRows eps v b k (upd x k (r / v.get k k))

/-- `BandedLTransposeSolve` (`banded.cpp` 181–193). -/
def ltSolve (eps : K) (v : Elements K) (b : Nat → K) : Res (Nat → K) :=
  if v.cols ≠ v.nBelow + 1 then .throws else ltSolveRows eps v b v.rows (fun _ => 0)

/-- The inner loop of `IsSymmetric` (`banded.cpp` 286–288): `count` values of `jj` from `j`; `none`: a read outside the matrix. -/
def symmRow (eps : K) (v : Elements K) (i : Nat) : Nat → Nat → Option Bool
  | 0, _ => some true
  | c + 1, j =>
    match v.read i j, v.read j i with
    | some a, some b => if isZero eps (a - b) then symmRow eps v i c (j + 1) else some false
    | _, _ => none

/-- The outer loop of `IsSymmetric` (`banded.cpp` 285–289). -/
def symmRows (eps : K) (v : Elements K) (width : Nat) : Nat → Nat → Option Bool
  | 0, _ => some true
  | c + 1, i =>
    match symmRow eps v i (max (v.rows - 1) (i + width) + 1 - (i - width)) (i - width) with
    | some true => symmRows eps v width c (i + 1)
    | r => r

/-- `Banded_::IsSymmetric` (`banded.cpp` 281–291). -/
def isSymmetric (eps : K) (v : Elements K) : Option Bool := symmRows eps v (max v.nBelow (v.cols - v.nBelow - 1)) v.rows 0

/-- The innermost loop of `BandedCholesky_` (`banded.cpp` 208–209). -/
def cholResidual (val : Elements K) (i j k0 : Nat) : Nat → K → K
  | 0, r => r
  | c + 1, r => cholResidual val i j k0 c r - val.get i (k0 + c) * val.get j (k0 + c)

/-- The loop over `jj` in `BandedCholesky_` (`banded.cpp` 206–221): `count` values from `j`; `none`: a failed `REQUIRE`. -/
def cholRow (sqrt : K → K) (eps small : K) (llt : Elements K) (i k0 : Nat) : Nat → Nat → Elements K → Option (Elements K)
  | 0, _, val => some val
  | c + 1, j, val =>
    let r := cholResidual val i j k0 (j - k0) (llt.get i j)
    let next := if j < i then
        if isZero eps r then val.write i j 0
        else if isZero eps (val.get j j) then none else val.write i j (r / val.get j j)
      else if -small < r then val.write i i (sqrt r) else none
    next.bind (cholRow sqrt eps small llt i k0 c (j + 1))

/-- The loop over `ii` in `BandedCholesky_` (`banded.cpp` 204–222). -/
def cholRows (sqrt : K → K) (eps small : K) (llt : Elements K) : Nat → Nat → Elements K → Option (Elements K)
  | 0, _, val => some val
  | c + 1, i, val => (cholRow sqrt eps small llt i (i - llt.nBelow) (i + 1 - (i - llt.nBelow)) (i - llt.nBelow) val).bind
      (cholRows sqrt eps small llt c (i + 1))

/-- The constructor of `BandedCholesky_` (`banded.cpp` 200–223): the room it makes is for `n_above = llt.nBelow_` and `n_below = 0`. -/
def cholesky (sqrt : K → K) (eps small : K) (llt : Elements K) : Option (Elements K) :=
  if llt.cols ≠ 2 * llt.nBelow + 1 then none else cholRows sqrt eps small llt llt.rows 0 (Elements.make llt.rows llt.nBelow 0)

/-- `Banded_::Decompose` (`banded.cpp` 292–295). -/
def decompose (sqrt : K → K) (eps small : K) (v : Elements K) : Res (Elements K) :=
  match isSymmetric eps v with
  | none => .undefined
  | some false => .throws
  | some true =>
    match cholesky sqrt eps small v with
    | none => .throws
    | some d => .ok d

/-- `LowerBandAccumulator_::SolveLeft` (`banded.cpp` 385–387). -/
def accSolveLeft (eps : K) (v : Elements K) (b : Nat → K) : Option (Nat → K) := lSolve eps v b

/-- `LowerBandAccumulator_::SolveRight` (`banded.cpp` 389–391). -/
def accSolveRight (eps : K) (v : Elements K) (b : Nat → K) : Option (Nat → K) := lSolve eps v b

end Dal.Band
