import Verif.Matrix.BandedModel

/-!
# Accumulating rows into a banded triangle

Source: `dal/math/matrix/banded.cpp` 339–383 and `banded.hpp` 49–58, `LowerBandAccumulator_::Add`; the solves are in `Matrix/BandedModel.lean`.

Simplifications: doubles are elements of an ordered field and the square root is a parameter; a division of zero by zero, after which `ASSURE` throws since not-a-number is not zero, and every
failed `REQUIRE` are `none`.
-/

namespace Dal.Band
open Dal.Tri (isZero)

variable {K : Type} [Field K] [LinearOrder K] [IsStrictOrderedRing K]

/-- The constructor (`banded.cpp` 347). -/
def accNew (size nBelow : Nat) : Elements K := Elements.make size 0 nBelow

/-- Writing a whole row of the store. -/
def setRow (a : Elements K) (i : Nat) (row : Nat → K) : Elements K := { a with view := fun r => if r = i then row else a.view r }

/-- `AllOf(row, IsZero<double>)` (`banded.cpp` 357). -/
def rowZero (eps : K) (cols : Nat) (row : Nat → K) : Bool := (List.range cols).all fun j => isZero eps (row j)

/-- `std::copy(v.begin(), v.end(), row.end() - v.size())` (`banded.cpp` 358). -/
def copyBack (cols : Nat) (row : Nat → K) (v : List K) : Nat → K := fun j => if cols - v.length ≤ j ∧ j < cols then v.getD (j - (cols - v.length)) 0 else row j

/-- What the loop of the rotation leaves in the vector (`banded.cpp` 370–373). -/
def rotVec (c s : K) (cols : Nat) (row : Nat → K) (v : List K) : List K := v.mapIdx fun t x => c * x - s * row (cols - v.length + t)

/-- What it leaves in the row (`banded.cpp` 370–375): `save` is the entry of the row. -/
def rotRow (c s : K) (cols len : Nat) (row : Nat → K) : Nat → K := fun j => if cols - len ≤ j ∧ j < cols then c * row j + s * row j else row j

/-- The vector for the row above (`banded.cpp` 378–381), the last row visited having been `i`: for `i = 0` it is not used any more. -/
def shorten (i : Nat) (v : List K) : List K := if v.length + 1 ≤ i then v.getLast?.toList ++ v.dropLast else v.dropLast

/-- The loop of `Add` (`banded.cpp` 355–382), from row `i` when the counter is `i + 1`. An empty vector is all zero, so that lines 364–365 are never reached. -/
def addLoop (sqrt : K → K) (eps : K) : Nat → Elements K → List K → Option (Elements K)
  | 0, a, _ => some a
  | i + 1, a, v =>
    if rowZero eps a.cols (a.view i) then some (setRow a i (copyBack a.cols (a.view i) v))
    else if v.all (isZero eps) then some a
    else (v.getLast?).bind fun b =>
      let d := a.view i (a.cols - 1)
      let r := sqrt (b * b + d * d)
      if r = 0 then none
      else if isZero eps (d / r * b - b / r * d) then
        addLoop sqrt eps i (setRow a i (rotRow (d / r) (b / r) a.cols v.length (a.view i))) (shorten i (rotVec (d / r) (b / r) a.cols (a.view i) v))
      else none

/-- `LowerBandAccumulator_::Add` (`banded.cpp` 349–383). -/
def add (sqrt : K → K) (eps : K) (a : Elements K) (v : List K) (offset : Int) : Option (Elements K) :=
  if v.length ≤ a.cols ∧ (v.length : Int) + offset < a.rows then addLoop sqrt eps ((v.length : Int) + offset + 1).toNat a v else none

/-- A sequence of calls. -/
def addAll (sqrt : K → K) (eps : K) : List (List K × Int) → Elements K → Option (Elements K)
  | [], a => some a
  | e :: l, a => (add sqrt eps a e.1 e.2).bind (addAll sqrt eps l)

end Dal.Band
