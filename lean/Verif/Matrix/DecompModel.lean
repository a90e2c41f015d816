import Verif.Matrix.BandedModel

/-!
# Diagonal and lower triangular matrices as decompositions

Source: `dal/math/matrix/decompositionsmisc.cpp`, `dal/math/matrix/decompositions.cpp` 9–24, `Transform` of `dal/utilities/algorithms.hpp` 29–34.

Simplifications: doubles are elements of an ordered field and the square root is a parameter; a vector is its size and a function of the
index; a failed `REQUIRE` is `Res.throws`, reading outside a vector or a matrix is `Res.undefined`.  What the destination holds when an
exception leaves it half written is not modelled.
-/

namespace Dal.Decomps

open Dal.Tri (isZero upd)
open Dal.Band (Res)

variable {K : Type} [Field K] [LinearOrder K] [IsStrictOrderedRing K]

/-- `Vector_<>`. -/
structure Vec (K : Type) where
  size : Nat
  val : Nat → K

/-- `Vector_::Resize`: new entries are zero. -/
def Vec.resize (v : Vec K) (n : Nat) : Vec K := ⟨n, fun i => if i < v.size then v.val i else 0⟩

/-- The vector that is read: the source, or, if it is the destination itself, what has been written so far. -/
def look (inPlace : Bool) (src dst : Nat → K) : Nat → K := if inPlace then dst else src

/-- `COPY_ALIAS_AND_FORWARD` (`decompositions.cpp` 9–15): with the source as its own destination, a copy is read. -/
def forward (imp : Bool → Vec K → Vec K → Res (Vec K)) (aliased : Bool) (src dst : Vec K) : Res (Vec K) :=
  if aliased then imp false ⟨src.size, src.val⟩ src else imp false src dst

/-! ### Diagonal matrices -/

/-- `ProtectedDivide_` (lines 16–21). -/
def protectedDivide (eps lhs rhs : K) : Res K := if isZero eps rhs then .throws else .ok (lhs / rhs)

/-- The loop of `std::transform`, for the first entries. -/
def transformLoop (op : K → K → Res K) (inPlace : Bool) (a b : Nat → K) (dst : Nat → K) : Nat → Res (Nat → K)
  | 0 => .ok dst
  | i + 1 =>
    match transformLoop op inPlace a b dst i with
    | .ok d =>
      match op (look inPlace a d i) (b i) with
      | .ok y => .ok (upd d i y)
      | .throws => .throws
      | .undefined => .undefined
    | .throws => .throws
    | .undefined => .undefined

/-- `Transform` (`algorithms.hpp` 29–34): the sizes must agree. -/
def transform (op : K → K → Res K) (inPlace : Bool) (a b dst : Vec K) : Res (Vec K) :=
  if a.size = dst.size ∧ b.size = dst.size then
    match transformLoop op inPlace a.val b.val dst.val a.size with
    | .ok d => .ok ⟨dst.size, d⟩
    | .throws => .throws
    | .undefined => .undefined
  else .throws

/-- `Diagonal_::XMultiply_af` (lines 37–39). -/
def diagMultiplyAf (vals : Vec K) (inPlace : Bool) (x b : Vec K) : Res (Vec K) := transform (fun l r => .ok (l * r)) inPlace x vals b

/-- `Diagonal_::XSolve_af` (lines 41–44). -/
def diagSolveAf (eps : K) (vals : Vec K) (inPlace : Bool) (b x : Vec K) : Res (Vec K) := transform (protectedDivide eps) inPlace b vals x

/-- `Multiply`, `MultiplyLeft`, `MultiplyRight` of a diagonal matrix (`decompositions.hpp` 30–34). -/
def diagMultiply (vals : Vec K) : Bool → Vec K → Vec K → Res (Vec K) := forward (diagMultiplyAf vals)

/-- `Solve`, `SolveLeft`, `SolveRight` of a diagonal matrix (`decompositions.hpp` 36–40). -/
def diagSolve (eps : K) (vals : Vec K) : Bool → Vec K → Vec K → Res (Vec K) := forward (diagSolveAf eps vals)

/-- The loop of `MakeCorrelated` (lines 50–53), for the first entries; `iid` holds `left` numbers. -/
def correlatedLoop (sqrt : K → K) (eps : K) (vals : Nat → K) (left : Nat) (iid : Nat → K) (dst : Nat → K) : Nat → Res (Nat → K)
  | 0 => .ok dst
  | i + 1 =>
    match correlatedLoop sqrt eps vals left iid dst i with
    | .ok d =>
      if vals i ≤ -eps then .throws
      else if left ≤ i then .undefined
      else .ok (upd d i (sqrt (max (vals i) 0) * iid i))
    | .throws => .throws
    | .undefined => .undefined

/-- `Diagonal_::MakeCorrelated` (lines 46–55), from the place `pos` of a vector of independent numbers: the result and the place after. -/
def diagCorrelated (sqrt : K → K) (eps : K) (vals iids : Vec K) (pos : Nat) (devs : Vec K) : Res (Vec K × Nat) :=
  match correlatedLoop sqrt eps vals.val (iids.size - pos) (fun i => iids.val (pos + i)) (devs.resize vals.size).val vals.size with
  | .ok d => .ok (⟨(devs.resize vals.size).size, d⟩, pos + vals.size)
  | .throws => .throws
  | .undefined => .undefined

/-! ### Lower triangular matrices -/

/-- `SquareMatrix_`. -/
structure Sq (K : Type) where
  n : Nat
  at' : Nat → Nat → K

/-- `std::inner_product` of `n` pairs of entries from `start` on. -/
def inner (init : K) (f g : Nat → K) (start : Nat) : Nat → K
  | 0 => init
  | n + 1 => inner init f g start n + f (start + n) * g (start + n)

/-- A loop writing `f d i` at the places 0, 1, … -/
def fillUp (f : (Nat → K) → Nat → Res K) (dst : Nat → K) : Nat → Res (Nat → K)
  | 0 => .ok dst
  | i + 1 =>
    match fillUp f dst i with
    | .ok d =>
      match f d i with
      | .ok y => .ok (upd d i y)
      | .throws => .throws
      | .undefined => .undefined
    | .throws => .throws
    | .undefined => .undefined

/-- A loop writing `f d i` at the places `k - 1`, …, 0. -/
def fillDown (f : (Nat → K) → Nat → Res K) : Nat → (Nat → K) → Res (Nat → K)
  | 0, d => .ok d
  | i + 1, d =>
    match f d i with
    | .ok y => fillDown f i (upd d i y)
    | .throws => .throws
    | .undefined => .undefined

/-- The result of a loop writing to a vector. -/
def asVec (v : Vec K) : Res (Nat → K) → Res (Vec K)
  | .ok d => .ok ⟨v.size, d⟩
  | .throws => .throws
  | .undefined => .undefined

/-- `LowerTriangular_::XMultiplyLeft_af` (lines 65–70): the sum stops before the diagonal. -/
def lowMultiplyLeftAf (m : Sq K) (inPlace : Bool) (x b : Vec K) : Res (Vec K) :=
  asVec (b.resize m.n) (fillUp (fun d i => if x.size < i then .undefined else .ok (inner 0 (look inPlace x.val d) (m.at' i) 0 i)) (b.resize m.n).val m.n)

/-- `LowerTriangular_::XMultiplyRight_af` (lines 72–77): the sum goes on to the end of the vector. -/
def lowMultiplyRightAf (m : Sq K) (inPlace : Bool) (x b : Vec K) : Res (Vec K) :=
  asVec (b.resize m.n) (fillUp (fun d i => if x.size < i ∨ m.n < x.size then .undefined
    else .ok (inner 0 (look inPlace x.val d) (fun k => m.at' k i) i (x.size - i))) (b.resize m.n).val m.n)

/-- `LowerTriangular_::XSolveLeft_af` (lines 79–89). -/
def lowSolveLeftAf (eps : K) (m : Sq K) (inPlace : Bool) (b x : Vec K) : Res (Vec K) :=
  asVec (x.resize m.n) (fillUp (fun d i => if b.size ≤ i then .undefined
    else protectedDivide eps (-inner (-look inPlace b.val d i) d (m.at' i) 0 i) (m.at' i i)) (x.resize m.n).val m.n)

/-- `LowerTriangular_::XSolveRight_af` (lines 91–101). -/
def lowSolveRightAf (eps : K) (m : Sq K) (inPlace : Bool) (b x : Vec K) : Res (Vec K) :=
  asVec (x.resize m.n) (fillDown (fun d i => if b.size ≤ i then .undefined
    else protectedDivide eps (-inner (-look inPlace b.val d i) d (fun k => m.at' k i) (i + 1) (m.n - (i + 1))) (m.at' i i)) m.n (x.resize m.n).val)

/-- `MultiplyLeft` of a lower triangular matrix. -/
def lowMultiplyLeft (m : Sq K) : Bool → Vec K → Vec K → Res (Vec K) := forward (lowMultiplyLeftAf m)
/-- `MultiplyRight` of a lower triangular matrix. -/
def lowMultiplyRight (m : Sq K) : Bool → Vec K → Vec K → Res (Vec K) := forward (lowMultiplyRightAf m)
/-- `SolveLeft` of a lower triangular matrix. -/
def lowSolveLeft (eps : K) (m : Sq K) : Bool → Vec K → Vec K → Res (Vec K) := forward (lowSolveLeftAf eps m)
/-- `SolveRight` of a lower triangular matrix. -/
def lowSolveRight (eps : K) (m : Sq K) : Bool → Vec K → Vec K → Res (Vec K) := forward (lowSolveRightAf eps m)

end Dal.Decomps
