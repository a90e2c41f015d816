import Mathlib.Algebra.Order.Field.Basic
import Mathlib.Algebra.Order.Floor.Ring
import Mathlib.Analysis.SpecialFunctions.Log.Basic
import Mathlib.Analysis.SpecialFunctions.Sqrt

/-!
# Time lines of simulation models and the filling of scenarios

Source: `dal/model/utilities.hpp`, `dal/model/dupire.hpp`, `dal/model/blackscholes.hpp`, `dal/script/event.cpp`.

Simplification: doubles are elements of an ordered field with a floor function (real numbers where square roots occur), so that sums and quotients are exact.
`none` stands for undefined behaviour and for loops that have not ended after `fuel` rounds.
-/

namespace Dal.TimeLine

section fill
variable {K : Type*} [Field K] [LinearOrder K] [IsStrictOrderedRing K] [FloorRing K]

/-- `std::set_union` with the comparison `x < y - minDx` (`utilities.hpp` 15–18). -/
def setUnion (minDx : K) : List K → List K → List K
  | [], b => b
  | a, [] => a
  | x :: a, y :: b =>
    if x < y - minDx then x :: setUnion minDx a (y :: b)
    else if y < x - minDx then y :: setUnion minDx (x :: a) b
    else x :: setUnion minDx a b
  termination_by a b => a.length + b.length

/-- `while (t < stop) { push t; t += spacing; }` (`utilities.hpp` 36–39). -/
def steps (spacing stop : K) : Nat → K → Option (List K)
  | 0, t => if t < stop then none else some []
  | fuel + 1, t => if t < stop then (steps spacing stop fuel (t + spacing)).map (t :: ·) else some []

/-- The conversion to `int` (`utilities.hpp` 31): `none` outside its range. -/
def toInt (x : K) : Option Int :=
  let i := if 0 ≤ x then ⌊x⌋ else ⌈x⌉
  if -2147483648 ≤ i ∧ i ≤ 2147483647 then some i else none

/-- The loop over the sequence (`utilities.hpp` 27–45) after `cur`, the last element of `filled`, has been pushed; the elements pushed from here on. The
addition of one to the number of points overflows at the largest `int`. -/
def fillFrom (eps maxDx minDx : K) (fuel : Nat) (cur : K) : List K → Option (List K)
  | [] => some []
  | next :: rest =>
    (if maxDx < next - cur then
      (toInt ((next - cur) / maxDx - eps)).bind fun i =>
        if i = 2147483647 ∨ i + 1 = 0 then none
        else steps ((next - cur) / ((i + 1 : Int) : K)) (next - minDx) fuel (cur + (next - cur) / ((i + 1 : Int) : K))
    else some []).bind fun pts => (fillFrom eps maxDx minDx fuel next rest).map fun r => pts ++ next :: r

/-- `FillData` (`utilities.hpp` 10–48): an empty sequence has no first element. -/
def fillData (eps maxDx minDx : K) (fuel : Nat) (original add : List K) : Option (List K) :=
  match (if add ≠ [] then setUnion minDx original add else original) with
  | [] => none
  | x :: rest => (fillFrom eps maxDx minDx fuel x rest).map (x :: ·)

/-- `std::binary_search` on a sorted range (`dupire.hpp` 107): the first element that is not smaller is not larger. -/
def onLine (product : List K) (t : K) : Bool :=
  match product.find? (fun x => decide (¬ x < t)) with
  | some x => decide (¬ t < x)
  | none => false

/-- `Dupire_::Allocate` (`dupire.hpp` 103–108): the time line and the flags of the steps in common with the product. -/
def dupireAllocate (eps maxDt halfDay : K) (fuel : Nat) (product : List K) : Option (List K × List Bool) :=
  (fillData eps maxDt halfDay fuel product [0]).map fun line => (line, line.map (onLine product))

/-- `BlackScholes_::Allocate` (`blackscholes.hpp` 91–101): the time line and the flags of its steps; reading the first element of an empty product line is
undefined. -/
def bsAllocate (product : List K) : Option (List K × List Bool) :=
  match product with
  | [] => none
  | t :: _ => some (0 :: product.filter (fun x => decide (0 < x)), decide (t = 0) :: (product.filter (fun x => decide (0 < x))).map fun _ => true)

end fill

/-- One call of `FillScenario`: the entry of the path, the position on the time line and the state. -/
structure Fill (S : Type*) where
  idx : Nat
  pos : Nat
  state : S

/-- The loop of `GeneratePath` (`dupire.hpp` 154–164, `blackscholes.hpp` 140–145) at position `pos` in state `s`; `size` is the size of the path, of the
numeraires and of the definitions. -/
def pathFrom {S : Type*} (step : Nat → S → S) (size : Nat) : List Bool → Nat → Nat → S → Option (List (Fill S))
  | [], _, _, _ => some []
  | f :: rest, pos, idx, s =>
    if f then
      if idx < size then (pathFrom step size rest (pos + 1) (idx + 1) (step pos s)).map (⟨idx, pos, s⟩ :: ·) else none
    else pathFrom step size rest (pos + 1) idx (step pos s)

/-- `GeneratePath` (`dupire.hpp` 146–165, `blackscholes.hpp` 130–146): the calls of `FillScenario` in their order. The state is the logarithm of the spot. -/
def generatePath {S : Type*} (step : Nat → S → S) (size : Nat) (flags : List Bool) (s : S) : Option (List (Fill S)) :=
  pathFrom step size flags 0 0 s

/-- The state after `i` steps. -/
def stateAt {S : Type*} (step : Nat → S → S) (s : S) : Nat → S
  | 0 => s
  | i + 1 => step i (stateAt step s i)

/-- `BlackScholes_::Init` and one step of `GeneratePath` (`blackscholes.hpp` 109–117 and 142): the logarithm of the spot at the next time. -/
noncomputable def bsStep (rate div vol : ℝ) (line : List ℝ) (gauss : Nat → ℝ) (i : Nat) (x : ℝ) : ℝ :=
  x + ((rate - div - 0.5 * vol * vol) * (line.getD (i + 1) 0 - line.getD i 0) + vol * Real.sqrt (line.getD (i + 1) 0 - line.getD i 0) * gauss i)

/-- The part of `ScriptProduct_::PreProcess` that makes the time line (`event.cpp` 148–156): it is appended to what there is. -/
def preProcess (evaluationDate : Nat) (eventDates : List Nat) (line : List Rat) : List Rat :=
  line ++ eventDates.map fun (d : Nat) => (((d : Int) - evaluationDate : Int) : Rat) / 365

end Dal.TimeLine
