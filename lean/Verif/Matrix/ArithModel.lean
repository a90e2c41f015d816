import Mathlib.Algebra.Field.Defs
import Mathlib.Algebra.BigOperators.Group.Finset.Defs
import Mathlib.Data.Real.Sqrt
import Verif.Matrix.ContainerModel

/-! # Model of matrix arithmetic (dal/math/matrix/matrixarithmetic.cpp)

A matrix is here its shape and elements (what `Verif/Matrix/ContainerProps.lean` shows the container to be). Since the functions compare addresses of their
arguments, matrices and vectors live in a store and arguments are either objects of the store or temporaries. Reading outside a matrix or vector is undefined
behaviour. Simplification: exact arithmetic instead of `double`. -/

namespace Dal.MatA
open MatC

variable {K : Type}

/-- A matrix by shape and elements. -/
structure Tbl (K : Type) where
  rows : Nat
  cols : Nat
  at' : Nat → Nat → K

/-- A vector by size and elements. -/
structure Vec (K : Type) where
  size : Nat
  at' : Nat → K

/-- Reading an element. -/
def Tbl.get (m : Tbl K) (i j : Nat) : Option K := if i < m.rows ∧ j < m.cols then some (m.at' i j) else none
/-- Reading an element. -/
def Vec.get (v : Vec K) (i : Nat) : Option K := if i < v.size then some (v.at' i) else none

/-- The outcome of a function which may throw or meet undefined behaviour. -/
inductive Out (α : Type) where
  | ok (a : α)
  | throws
  | ub

/-- The named objects. -/
structure Store (K : Type) where
  mats : Nat → Tbl K
  vecs : Nat → Vec K

/-- A reference to an object of the store, or to a temporary. -/
inductive Ref (T : Type) where
  | named (id : Nat)
  | temp (t : T)

/-- The matrix referred to. -/
def Store.mat (s : Store K) : Ref (Tbl K) → Tbl K
  | .named i => s.mats i
  | .temp t => t
/-- The vector referred to. -/
def Store.vec (s : Store K) : Ref (Vec K) → Vec K
  | .named i => s.vecs i
  | .temp t => t
/-- Comparison of the address of an argument with that of the result. -/
def Ref.is {T : Type} (r : Ref T) (id : Nat) : Bool :=
  match r with
  | .named i => i == id
  | .temp _ => false

/-- Storing a matrix. -/
def Store.setMat (s : Store K) (id : Nat) (m : Tbl K) : Store K := { s with mats := fun i => if i = id then m else s.mats i }
/-- Storing a vector. -/
def Store.setVec (s : Store K) (id : Nat) (v : Vec K) : Store K := { s with vecs := fun i => if i = id then v else s.vecs i }

variable [Field K]

/-- `Transform(&dst, right.Row(jr), LinearIncrement(left(ir, jr)))`, matrixarithmetic.cpp:39 (functionals.hpp:26, algorithms.hpp:42-46; the sizes agree by the
`Resize`): row `ir` of the result gains `left(ir, jr)` times row `jr` of `right`. -/
def addRow (left right : Ref (Tbl K)) (res ir jr : Nat) (s : Store K) : Option (Store K) :=
  ((s.mat left).get ir jr).bind fun a =>
    if ir < (s.mats res).rows ∧ jr < (s.mat right).rows ∧ (s.mat right).cols = (s.mats res).cols then
      some (s.setMat res { s.mats res with at' := fun i j => if i = ir then (s.mats res).at' i j + a * (s.mat right).at' jr j else (s.mats res).at' i j })
    else none

/-- `MultiplyAliasFree` for two matrices, matrixarithmetic.cpp:31-41 (after its check): `Resize`, `Fill(0.0)` and the loops. -/
def multiplyAF (left right : Ref (Tbl K)) (res : Nat) (s : Store K) : Option (Store K) :=
  let s := s.setMat res ⟨(s.mat left).rows, (s.mat right).cols, fun _ _ => 0⟩
  loop (fun ir s => loop (fun jr s => addRow left right res ir jr s) (s.mat right).rows 0 s) (s.mat left).rows 0 s

/-- `Multiply` for two matrices, matrixarithmetic.cpp:60-68: an argument which is the result is copied first. The recursion has depth at most two. -/
def multiply (left right : Ref (Tbl K)) (res : Nat) (s : Store K) : Out (Store K) :=
  if (s.mat left).cols ≠ (s.mat right).rows then .throws
  else
    let left' := if left.is res then .temp (s.mat left) else left
    let right' := if right.is res then .temp (s.mat right) else right
    if right'.is res then .throws
    else match multiplyAF left' right' res s with
      | some s => .ok s
      | none => .ub

/-- `InnerProduct(row, v)`, numerics.hpp:28-31: as many elements as the first argument has. -/
def rowDot (m : Tbl K) (v : Vec K) (ir : Nat) : Option K :=
  loop (fun j acc => (m.get ir j).bind fun a => (v.get j).map fun b => acc + a * b) m.cols 0 0

/-- `MultiplyAliasFree` for a matrix and a vector, matrixarithmetic.cpp:43-48. -/
def multiplyMVAF (left : Ref (Tbl K)) (right : Ref (Vec K)) (res : Nat) (s : Store K) : Option (Store K) :=
  let s := s.setVec res ⟨(s.mat left).rows, fun i => if i < (s.vecs res).size then (s.vecs res).at' i else 0⟩
  loop (fun ir s => (rowDot (s.mat left) (s.vec right) ir).bind fun x =>
      if ir < (s.vecs res).size then some (s.setVec res { s.vecs res with at' := fun i => if i = ir then x else (s.vecs res).at' i }) else none)
    (s.mat left).rows 0 s

/-- `Multiply` for a matrix and a vector, matrixarithmetic.cpp:70-76. -/
def multiplyMV (left : Ref (Tbl K)) (right : Ref (Vec K)) (res : Nat) (s : Store K) : Out (Store K) :=
  if (s.mat left).cols ≠ (s.vec right).size then .throws
  else
    let right' := if right.is res then .temp (s.vec right) else right
    if right'.is res then .throws
    else match multiplyMVAF left right' res s with
      | some s => .ok s
      | none => .ub

/-- `MultiplyAliasFree` for a vector and a matrix, matrixarithmetic.cpp:50-57. -/
def multiplyVMAF (left : Ref (Vec K)) (right : Ref (Tbl K)) (res : Nat) (s : Store K) : Out (Store K) :=
  let s := s.setVec res ⟨(s.mat right).cols, fun _ => 0⟩
  if (s.vec left).size ≠ (s.mat right).rows then .throws
  else match loop (fun ir s => ((s.vec left).get ir).bind fun a =>
        if ir < (s.mat right).rows then
          some (s.setVec res { s.vecs res with at' := fun j => (s.vecs res).at' j + a * (s.mat right).at' ir j })
        else none)
      (s.mat right).rows 0 s with
    | some s => .ok s
    | none => .ub

/-- `Multiply` for a vector and a matrix, matrixarithmetic.cpp:78-84. -/
def multiplyVM (left : Ref (Vec K)) (right : Ref (Tbl K)) (res : Nat) (s : Store K) : Out (Store K) :=
  if (s.vec left).size ≠ (s.mat right).rows then .throws
  else
    let left' := if left.is res then .temp (s.vec left) else left
    if left'.is res then .throws else multiplyVMAF left' right res s

/-- `WeightedInnerProduct`, matrixarithmetic.cpp:86-93. -/
def weightedInner (l : Vec K) (w : Tbl K) (r : Vec K) : Out K :=
  if l.size ≠ w.rows ∨ r.size ≠ w.cols then .throws
  else match loop (fun ir acc => (l.get ir).bind fun a => (rowDot w r ir).map fun x => acc + a * x) w.rows 0 0 with
    | some x => .ok x
    | none => .ub

/-- `CACHE_SIZE`, matrixarithmetic.cpp:97. -/
def cacheSize : Nat := 16

/-- A loop `for (int i = start; i < stop; i += CACHE_SIZE)`; the fuel is at least the number of iterations. -/
def strided {S : Type} (stop : Nat) (body : Nat → S → Option S) : Nat → Nat → S → Option S
  | 0, i, s => if i < stop then none else some s
  | fuel + 1, i, s => if i < stop then (body i s).bind (strided stop body fuel (i + cacheSize)) else some s

/-- `inner_product(src, srcStop, other, init)` over `n` elements of rows `i` and `j` of `a` from column `k` on. -/
def partDot (a : Tbl K) (i j k n : Nat) (init : K) : Option K :=
  loop (fun q acc => (a.get i (k + q)).bind fun x => (a.get j (k + q)).map fun y => acc + x * y) n 0 init

/-- `*dst = inner_product(src, srcStop, a.Row(jInner).begin() + kOuter, *dst)`, matrixarithmetic.cpp:115, with `dst` at `h(ii, jInner)`. -/
def addPart (a : Tbl K) (i j k n : Nat) (h : Tbl K) : Option (Tbl K) :=
  (h.get i j).bind fun x => (partDot a i j k n x).map fun y => { h with at' := fun p q => if p = i ∧ q = j then y else h.at' p q }

/-- `AddJSquaredToUpper`, matrixarithmetic.cpp:96-120, for different matrices. (Moving `src` beyond the end of the storage on the last segment, which the
standard forbids, has no effect and is not modelled.) -/
def addJSquared (a h : Tbl K) : Out (Tbl K) :=
  if h.rows = a.rows ∧ h.cols = a.rows then
    match loop (fun ii h =>
        strided a.rows (fun jOuter h =>
          strided a.cols (fun kOuter h =>
            loop (fun jInner h => addPart a ii jInner kOuter (min (a.cols - kOuter) cacheSize) h)
              (min a.rows (jOuter + cacheSize) - jOuter) jOuter h) (a.cols + 1) 0 h) (a.rows + 1) ii h) a.rows 0 h with
    | some h => .ok h
    | none => .ub
  else .throws

/-- `EPSILON`, platform.hpp:55. -/
noncomputable def epsilon : ℝ := 2 / 10 ^ 14

/-- The loop of `Vols`, matrixarithmetic.cpp:15-26, on `corr`: row `i`, then column `i`, is divided by `max(EPSILON, vol_i)`. -/
noncomputable def volsLoop (cov : Tbl ℝ) : Nat → Nat → (Nat → Nat → ℝ) → (Nat → Nat → ℝ)
  | 0, _, c => c
  | n + 1, i, c =>
    let m := max epsilon (Real.sqrt (cov.at' i i))
    let c1 := fun p q => if p = i then c p q / m else c p q
    let c2 := fun p q => if q = i then c1 p q / m else c1 p q
    volsLoop cov n (i + 1) c2

open Classical in
/-- `Vols(cov, corr)`, matrixarithmetic.cpp:9-28: the volatilities and `*corr`. A negative variance, whose square root is not a number, is
reported as `ub`. -/
noncomputable def vols (cov : Tbl ℝ) : Out (Vec ℝ × Tbl ℝ) :=
  if cov.cols ≠ cov.rows then .throws
  else if ∃ i < cov.rows, cov.at' i i < 0 then .ub
  else .ok (⟨cov.rows, fun i => Real.sqrt (cov.at' i i)⟩, ⟨cov.rows, cov.cols, volsLoop cov cov.rows 0 cov.at'⟩)

end Dal.MatA
