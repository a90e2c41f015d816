/-!
# N-dimensional arrays

Model of `dal/math/ndarray.cpp` 11–38 and `ndarray.hpp` 17–117, with `InnerProduct` (`dal/utilities/numerics.hpp` 28–31).

Simplifications: sizes and indices are natural numbers, so negative ones and overflow of `int` are left out. Reading or writing outside a
vector and exceptions are `none`. `Swap`, `Fill` and scaling are not modelled.
-/

namespace Dal.Nd

/-- `Strides` (`ndarray.cpp` 11–16), whose loop goes from the last dimension to the first. -/
def strides : List Nat → List Nat
  | [] => []
  | _ :: rest => match rest, strides rest with
    | n :: _, t :: ts => t * n :: t :: ts
    | _, _ => [1]

/-- `InnerProduct` (`numerics.hpp` 28–31), as long as the second vector is not the shorter: `none` when it is read beyond its end. -/
def inner : List Nat → List Nat → Option Nat
  | [], _ => some 0
  | _ :: _, [] => none
  | x :: xs, y :: ys => (inner xs ys).map (x * y + ·)

/-- The loop over `depth` (`ndarray.cpp` 27–32): the next place, or `none` when `depth` reaches the dimension. -/
def next : List Nat → List Nat → Option (List Nat)
  | m :: mins, l :: loc => if l + 1 < m then some ((l + 1) :: loc) else (next mins loc).map (0 :: ·)
  | _, _ => none

/-- The outer loop (`ndarray.cpp` 26–36): the moves from a place on; `none` when the fuel is used up or a vector is read beyond its end. -/
def movesLoop (oldStrides newStrides mins : List Nat) : Nat → List Nat → Option (List (Nat × Nat))
  | 0, _ => none
  | fuel + 1, loc => match next mins loc with
    | none => some []
    | some loc => (inner loc oldStrides).bind fun o => (inner loc newStrides).bind fun n =>
      (movesLoop oldStrides newStrides mins fuel loc).map ((o, n) :: ·)

/-- More than the number of turns of the outer loop. -/
def enough : List Nat → Nat
  | [] => 1
  | m :: mins => max m 1 * enough mins

/-- `Moves` (`ndarray.cpp` 18–38): `none` when it throws. -/
def moves (oldSizes newSizes : List Nat) : Option (List (Nat × Nat)) :=
  if newSizes.length = oldSizes.length then
    let mins := List.zipWith min oldSizes newSizes
    movesLoop (strides oldSizes) (strides newSizes) mins (enough mins) (List.replicate oldSizes.length 0)
  else none

/-- The fields of `ArrayN_` (`ndarray.hpp` 20–22). -/
structure Arr (α : Type) where
  sizes : List Nat
  strides : List Nat
  vals : List α

/-- The constructor (`ndarray.hpp` 25–26), which reads the first stride and size. -/
def newArr {α : Type} (sizes : List Nat) (fill : α) : Option (Arr α) :=
  match strides sizes, sizes with
  | t :: _, s :: _ => some ⟨sizes, strides sizes, List.replicate (t * s) fill⟩
  | _, _ => none

/-- `operator[]`, reading (`ndarray.hpp` 28). -/
def Arr.get {α : Type} (a : Arr α) (at' : List Nat) : Option α := (inner at' a.strides).bind fun i => a.vals[i]?

/-- `operator[]`, writing (`ndarray.hpp` 29). -/
def Arr.put {α : Type} (a : Arr α) (at' : List Nat) (x : α) : Option (Arr α) :=
  (inner at' a.strides).bind fun i => if i < a.vals.length then some { a with vals := a.vals.set i x } else none

/-- The loop over the moves in `Resize` (`ndarray.hpp` 58–59). -/
def moveAll {α : Type} (vals : List α) : List (Nat × Nat) → List α → Option (List α)
  | [], new => some new
  | (o, n) :: rest, new => (vals[o]?).bind fun x => if n < new.length then moveAll vals rest (new.set n x) else none

/-- `Resize` (`ndarray.hpp` 53–61), with the default element `dflt`. The new vector is made while `sizes_` and `strides_` are the old. -/
def Arr.resize {α : Type} (dflt : α) (a : Arr α) (newSizes : List Nat) : Option (Arr α) :=
  (moves a.sizes newSizes).bind fun ms =>
  match a.sizes, a.strides with
  | s :: _, t :: _ => (moveAll a.vals ms (List.replicate (s * t) dflt)).map fun vals => ⟨newSizes, Nd.strides newSizes, vals⟩
  | _, _ => none

/-- `XLoc_` (`ndarray.hpp` 64–78): `Goto()` followed by calls with the indices, then `Offset`. -/
def gotoOffset (strides : List Nat) : List Nat → Nat → Nat → Option Nat
  | [], offset, soFar => if offset = strides.length then some soFar else none
  | i :: is, offset, soFar => (strides[offset]?).bind fun t => gotoOffset strides is (offset + 1) (soFar + i * t)

/-- `Cube_::operator()` (`ndarray.hpp` 90–95), reading. -/
def Arr.cubeGet {α : Type} (a : Arr α) (i j k : Nat) : Option α := (gotoOffset a.strides [i, j, k] 0 0).bind fun o => a.vals[o]?

/-- `SliceBegin` and `SliceEnd` (`ndarray.hpp` 97–107), as positions in the storage. -/
def Arr.sliceBegin {α : Type} (a : Arr α) (i j : Nat) : Option Nat := gotoOffset a.strides [i, j, 0] 0 0
def Arr.sliceEnd {α : Type} (a : Arr α) (i j : Nat) : Option Nat :=
  (a.sliceBegin i j).bind fun b => (gotoOffset a.strides [0, 1, 0] 0 0).map (b + ·)

end Dal.Nd
