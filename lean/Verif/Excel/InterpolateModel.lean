import Verif.Interp.LinearModel
import Verif.Interp.CubicModel
import Verif.Numeric.SmoothModel

/-!
# The interpolators of the public interface

Model of `public/excel/__interp.cpp` 134–190, `public/src/interp.cpp` 11–15 and of the conditions checked on the arguments by the generated
`public/auto/MG_Interp1_New_Linear_public.inc` 14–19, `MG_Interp1_New_Linear_Smoothed_public.inc` 14–25, `MG_Interp1_New_Cubic_public.inc`
14–27 and `MG_Interp2_New_Linear_public.inc` 14–23, on top of the models of the interpolators.

Simplifications: numbers are elements of an ordered field, so there is no rounding and no NaN; the reading of the arguments from the sheet and
the handles are those of other models. An exception while building is `none`; while evaluating, an exception and an undefined read are
distinct.
-/

namespace Dal.Interpolate

open Dal.Interp

variable {K : Type} [Field K] [LinearOrder K]

/-- The outcome of a run. -/
inductive Res (α : Type) where
  | ok (a : α)
  | throws
  | undefined
  deriving DecidableEq

/-- A run followed by another. -/
def Res.bind {α β : Type} : Res α → (α → Res β) → Res β
  | .ok a, g => g a
  | .throws, _ => .throws
  | .undefined, _ => .undefined

/-- The elements of a vector as a function. -/
def els (v : List K) : Nat → K := fun i => v.getD i 0

/-- The classes derived from `Interp1_` (`dal/math/interp/interp.hpp` 13–18). -/
inductive Interp1 (K : Type) where
  | linear (l : Linear K)
  | cubic (c : Cubic K)

/-- `IsInBounds` (`interp.hpp` 17, `interpcubic.cpp` 34–36): the linear interpolator inherits the default. -/
def Interp1.isInBounds : Interp1 K → K → Bool
  | .linear _, _ => true
  | .cubic c, x => c.isInBounds x

/-- `operator()` of the class (`interp.cpp` 39–41, `interpcubic.cpp` 51–62). -/
def Interp1.eval (eps : K) : Interp1 K → K → Option K
  | .linear l, x => l.eval eps x
  | .cubic c, x => some (c.eval x)

/-- `CheckedInterp` (`__interp.cpp` 138–141). -/
def checkedInterp (eps : K) (f : Interp1 K) (x : K) : Res K :=
  if f.isInBounds x = true then (match f.eval eps x with | some v => .ok v | none => .undefined) else .throws

/-- `Interp1_Get` (`__interp.cpp` 143–146): the elements are transformed from the first. -/
def interp1Get (eps : K) (f : Interp1 K) : List K → Res (List K)
  | [] => .ok []
  | x :: xs => (checkedInterp eps f x).bind fun v => (interp1Get eps f xs).bind fun vs => .ok (v :: vs)

/-- `Interp1_New_Linear` (`MG_Interp1_New_Linear_public.inc` 14–22, `__interp.cpp` 134–136, `public/src/interp.cpp` 11–15). -/
def interp1NewLinear (x y : List K) : Option (Interp1 K) :=
  if isStrict (els x) x.length = true then
    if y.length = x.length then (newLinear x.length y.length (els x) (els y)).map .linear else none
  else none

/-- `Interp1_New_Linear_Smoothed` (`MG_Interp1_New_Linear_Smoothed_public.inc` 14–28, `__interp.cpp` 148–151); `dxMin` is `DX_MIN`. A
division by zero while smoothing is `none` too. -/
def interp1NewSmoothed (dxMin : K) (x y : List K) (smoothing : K) (weights : List K) : Option (Interp1 K) :=
  if isStrict (els x) x.length = true then
    if y.length = x.length then
      if smoothing ≥ 0 then
        if weights.length = 0 ∨ weights.length = x.length then
          (Smooth.smoothed dxMin x.length y.length weights.length (els x) (els y) (els weights) smoothing).bind fun z =>
          (newLinear x.length x.length (els x) z).map .linear
        else none
      else none
    else none
  else none

/-- The boundary conditions chosen (`__interp.cpp` 159–167); `front` and `back` of vectors that are not empty. -/
def boundaries (order : List Int) (value : List K) : Boundary K × Boundary K :=
  match order with
  | [] => (⟨3, 0⟩, ⟨3, 0⟩)
  | o :: os =>
    match value with
    | [] => (⟨o, 0⟩, ⟨(o :: os).getLast (List.cons_ne_nil o os), 0⟩)
    | v :: vs => (⟨o, v⟩, ⟨(o :: os).getLast (List.cons_ne_nil o os), (v :: vs).getLast (List.cons_ne_nil v vs)⟩)

/-- The condition on the orders (`MG_Interp1_New_Cubic_public.inc` 22–23). -/
def ordersAllowed (order : List Int) : Bool :=
  decide (order.length ≤ 2) &&
    match order with
    | [] => true
    | o :: os =>
      let back := (o :: os).getLast (List.cons_ne_nil o os)
      decide (o > 0) && decide (back > 0) && decide (o ≤ 3) && decide (back ≤ 3)

/-- `Interp1_New_Cubic` (`MG_Interp1_New_Cubic_public.inc` 14–30, `__interp.cpp` 153–169). -/
def interp1NewCubic (x y : List K) (order : List Int) (value : List K) : Option (Interp1 K) :=
  if isStrict (els x) x.length = true then
    if y.length = x.length then
      if ordersAllowed order = true then
        if value.length ≤ 2 ∧ (value = [] ∨ order ≠ []) then
          let b := boundaries order value
          (newCubic x.length y.length (els x) (els y) b.1 b.2).map .cubic
        else none
      else none
    else none
  else none

/-- `Interp2_New_Linear` (`MG_Interp2_New_Linear_public.inc` 14–26, `__interp.cpp` 184–190), for a matrix of `rows` and `cols`. -/
def interp2NewLinear (x y : List K) (rows cols : Nat) (z : Nat → Nat → K) : Option (Linear2 K) :=
  if isStrict (els x) x.length = true then
    if isStrict (els y) y.length = true then
      if rows = x.length ∧ cols = y.length then newLinear2 x.length y.length rows cols (els x) (els y) z else none
    else none
  else none

/-- `CheckedInterp2` (`__interp.cpp` 171–174): `IsInBounds` is the default (`interp2d.hpp` 26), always true. -/
def checkedInterp2 (eps : K) (f : Linear2 K) (x y : K) : Res K :=
  match f.eval eps x y with
  | some v => .ok v
  | none => .undefined

/-- One row of `Interp2_Get` (`__interp.cpp` 179–180). -/
def rowGet (eps : K) (f : Linear2 K) (x : K) : List K → Res (List K)
  | [] => .ok []
  | y :: ys => (checkedInterp2 eps f x y).bind fun v => (rowGet eps f x ys).bind fun vs => .ok (v :: vs)

/-- `Interp2_Get` (`__interp.cpp` 176–182): the rows of the result. -/
def interp2Get (eps : K) (f : Linear2 K) (xs ys : List K) : Res (List (List K)) :=
  match xs with
  | [] => .ok []
  | x :: xs => (rowGet eps f x ys).bind fun v => (interp2Get eps f xs ys).bind fun vs => .ok (v :: vs)

end Dal.Interpolate
