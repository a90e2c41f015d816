import Verif.Matrix.TridiagModel
import Verif.Interp.LinearModel
import Mathlib.Analysis.SpecialFunctions.Arsinh
import Mathlib.Algebra.Order.Floor.Ring

/-!
# Finite differences in one dimension

Source: `dal/math/pde/finitedifference.cpp`, `dal/math/pde/fd1d.cpp`, `dal/math/pde/fd1d.hpp`, `dal/math/pde/meshers`.

Simplifications: doubles are elements of an ordered field (real numbers where the code calls `asinh`), so there is no rounding. A vector is a
function of the index; where the code does not make its size itself the size is carried along, and reading beyond it is `none`, as is a failed
`REQUIRE`. Tridiagonal matrices are those of `Verif.Matrix.TridiagModel`, linear interpolation that of `Verif.Interp.LinearModel`.
-/

namespace Dal.Fd

open Dal.Tri

/-- `FDM1DMesher_` (`fdm1dmesher.hpp` 10–25). -/
structure Mesh (K : Type) where
  n : Nat
  loc : Nat → K
  dplus : Nat → K
  dminus : Nat → K

section
variable {K : Type} [Field K] [LinearOrder K] [IsStrictOrderedRing K]

/-- The vectors as the constructor of the base makes them (`fdm1dmesher.hpp` 12). -/
def blank (size : Nat) : Mesh K := ⟨size, fun _ => 0, fun _ => 0, fun _ => 0⟩

/-- The loop of `Uniform1DMesher_` (`uniform1dmesher.hpp` 19–22), for `k` steps. -/
def uniformLoop (start dx : K) : Nat → Mesh K → Mesh K
  | 0, m => m
  | k + 1, m =>
    let m := uniformLoop start dx k m
    { m with loc := upd m.loc k (start + k * dx), dplus := upd m.dplus k dx, dminus := upd m.dminus (k + 1) dx }

/-- Overwriting the last location and the two spacings that do not exist (`uniform1dmesher.hpp` 24–25). -/
def close (null stop : K) (m : Mesh K) : Mesh K :=
  { m with loc := upd m.loc (m.n - 1) stop, dplus := upd m.dplus (m.n - 1) null, dminus := upd m.dminus 0 null }

/-- `Uniform1DMesher_` (`uniform1dmesher.hpp` 14–26); `null` is `Null_<double>()`. Without a point there is no last location. -/
def uniform (null start stop : K) (size : Nat) : Option (Mesh K) :=
  if start < stop ∧ 0 < size then
    some (close null stop (uniformLoop start ((stop - start) / (size - 1)) (size - 1) (blank size)))
  else none

/-- The loop of `Dx` and of `Dxx` (`finitedifference.cpp` 18–26 and 39–46), writing row `i` for `i = 1 … k`: the element below, on and above the
diagonal. -/
def rowLoop (lo di up : Nat → K) : Nat → Mat K → Option (Mat K)
  | 0, m => some m
  | k + 1, m => (rowLoop lo di up k m).bind fun m => (setElem m (k + 1) k (lo (k + 1))).bind fun m =>
      (setElem m (k + 1) (k + 1) (di (k + 1))).bind fun m => setElem m (k + 1) (k + 2) (up (k + 1))

/-- `TriDiagonal_(size)` (`banded.hpp` 18). -/
def zeroMat (n : Nat) : Mat K := ⟨n, fun _ => 0, fun _ => 0, fun _ => 0⟩

/-- `Dx` (`finitedifference.cpp` 11–29). -/
def dxMat (x : Mesh K) : Option (Mat K) :=
  if 2 < x.n then
    (setElem (zeroMat x.n) 0 0 0).bind fun m =>
    (rowLoop (fun i => -x.dplus i / x.dminus i / (x.dminus i + x.dplus i))
      (fun i => (x.dplus i / x.dminus i - x.dminus i / x.dplus i) / (x.dminus i + x.dplus i))
      (fun i => x.dminus i / x.dplus i / (x.dminus i + x.dplus i)) (x.n - 2) m).bind fun m => setElem m (x.n - 1) (x.n - 1) 0
  else none

/-- `Dxx` (`finitedifference.cpp` 31–48). -/
def dxxMat (x : Mesh K) : Option (Mat K) :=
  if 2 < x.n then
    (setElem (zeroMat x.n) 0 0 0).bind fun m =>
    (rowLoop (fun i => 1 / x.dminus i / (1 / 2 * (x.dminus i + x.dplus i)))
      (fun i => -(1 / x.dminus i + 1 / x.dplus i) / (1 / 2 * (x.dminus i + x.dplus i)))
      (fun i => 1 / x.dplus i / (1 / 2 * (x.dminus i + x.dplus i))) (x.n - 2) m).bind fun m => setElem m (x.n - 1) (x.n - 1) 0
  else none

/-- A vector whose size the code does not control. -/
structure Sized (K : Type) where
  size : Nat
  v : Nat → K

/-- `FD1D_` (`fd1d.hpp` 14–43) after `Init` (`fd1d.cpp` 14–21): the operators, the coefficients set by the user and the matrix `A_`. -/
structure Solver (K : Type) where
  dx : Mat K
  dxx : Mat K
  r : Sized K
  mu : Sized K
  var : Sized K
  a : Mat K

/-- `FD1D_::Init` (`fd1d.cpp` 14–21). -/
def init (x : Mesh K) (r mu var : Sized K) : Option (Solver K) :=
  (dxMat x).bind fun dx => (dxxMat x).bind fun dxx => some ⟨dx, dxx, r, mu, var, zeroMat dx.n⟩

/-- The body of the loop of `CalcAx` (`fd1d.cpp` 27–33). -/
def axRow (s : Solver K) (one dtTheta : K) (i : Nat) (a : Mat K) : Option (Mat K) :=
  if i ≠ 0 ∧ i ≠ s.dx.n - 1 then
    if i < s.mu.size ∧ i < s.var.size ∧ i < s.r.size then
      (setElem a i (i - 1) (dtTheta * (s.mu.v i * elem s.dx i (i - 1) + 1 / 2 * s.var.v i * elem s.dxx i (i - 1)))).bind fun a =>
      (setElem a i (i + 1) (dtTheta * (s.mu.v i * elem s.dx i (i + 1) + 1 / 2 * s.var.v i * elem s.dxx i (i + 1)))).bind fun a =>
      setElem a i i (dtTheta * (s.mu.v i * elem s.dx i i + 1 / 2 * s.var.v i * elem s.dxx i i) + one - dtTheta * s.r.v i)
    else none
  else setElem a i i 1

/-- The loop of `CalcAx` (`fd1d.cpp` 26–34), for `k` steps. -/
def axLoop (s : Solver K) (one dtTheta : K) : Nat → Mat K → Option (Mat K)
  | 0, a => some a
  | k + 1, a => (axLoop s one dtTheta k a).bind (axRow s one dtTheta k)

/-- `FD1D_::CalcAx` (`fd1d.cpp` 23–35). -/
def calcAx (s : Solver K) (one dtTheta : K) : Option (Solver K) := (axLoop s one dtTheta s.dx.n s.a).map fun a => { s with a := a }

/-- The explicit half of `RollBwd` (`fd1d.cpp` 38–42); `MultiplyLeft` demands the size of the matrix (`banded.cpp` 18). -/
def explicitHalf (s : Solver K) (dt theta : K) (res : Sized K) : Option (Solver K × Sized K) :=
  (calcAx s 1 (dt * (1 - theta))).bind fun s => if res.size = s.a.n then some (s, ⟨res.size, multiplyLeft s.a res.v⟩) else none

/-- The implicit half of `RollBwd` (`fd1d.cpp` 44–49); `SolveLeft` demands the size of the matrix (`banded.cpp` 76). -/
def implicitHalf (eps : K) (s : Solver K) (dt theta : K) (res : Sized K) : Option (Solver K × Sized K) :=
  (calcAx s 1 (-dt * theta)).bind fun s => (decompose eps s.a).bind fun d => if res.size = s.a.n then some (s, ⟨res.size, solveLeft d res.v⟩) else none

/-- `FD1D_::RollBwd` (`fd1d.cpp` 37–50). -/
def rollBwd (eps : K) (s : Solver K) (dt theta : K) (res : Sized K) : Option (Solver K × Sized K) :=
  (if theta ≠ 1 then explicitHalf s dt theta res else some (s, res)).bind fun p =>
    if theta ≠ 0 then implicitHalf eps p.1 dt theta p.2 else some p

end

/-- `std::lround`: to the nearest integer, halves away from zero. -/
noncomputable def lround (x : ℝ) : Int := if 0 ≤ x then ⌊x + 1 / 2⌋ else ⌈x - 1 / 2⌉

/-- `IsClose` (`dal/platform/platform.hpp` 68–75). -/
def isClose (eps x y : ℝ) : Prop :=
  if x = 0 ∨ y = 0 then |x - y| < 42 * eps * (42 * eps) else |x - y| ≤ 42 * eps * |x| ∧ |x - y| ≤ 42 * eps * |y|

noncomputable instance (eps x y : ℝ) : Decidable (isClose eps x y) := Classical.propDecidable _

/-- The nodes `u` and `z` of the transformation (`concentrating1dmesher.cpp` 30–39): the number of nodes, the abscissas and the ordinates. -/
noncomputable def nodes (size : Nat) (z0 : ℝ) (inner : Bool) : Nat × (Nat → ℝ) × (Nat → ℝ) :=
  if inner then
    (3, (fun i => if i = 0 then 0 else if i = 1 then ((max (min (lround (z0 * (size - 1))) (size - 2)) 1 : Int) : ℝ) / (size - 1) else 1),
      (fun i => if i = 0 then 0 else if i = 1 then z0 else 1))
  else (2, (fun i => if i = 0 then 0 else 1), (fun i => if i = 0 then 0 else 1))

/-- The interior points (`concentrating1dmesher.cpp` 45–48), for `i = 1 … k`. -/
noncomputable def interiorPts (li : ℝ → Option ℝ) (cPoint density c1 c2 dx : ℝ) : Nat → Mesh ℝ → Option (Mesh ℝ)
  | 0, m => some m
  | k + 1, m => (interiorPts li cPoint density c1 c2 dx k m).bind fun m => (li ((k + 1 : Nat) * dx)).bind fun l =>
      some { m with loc := upd m.loc (k + 1) (cPoint + density * Real.sinh (c1 * (1 - l) + c2 * l)) }

/-- The spacings (`concentrating1dmesher.cpp` 53–55), for `k` steps. -/
def spacings {K : Type} [Field K] : Nat → Mesh K → Mesh K
  | 0, m => m
  | k + 1, m =>
    let m := spacings k m
    { m with dplus := upd m.dplus k (m.loc (k + 1) - m.loc k), dminus := upd m.dminus (k + 1) (m.loc (k + 1) - m.loc k) }

/-- `Concentrating1dMesher_` (`concentrating1dmesher.cpp` 13–57) for a size of at least 2 (`none` otherwise, where the code divides by zero). The first
call of `NewLinear` (line 41), whose result is lost, is left out. -/
noncomputable def concentrating (eps null start stop : ℝ) (size : Nat) (cPoint dens : ℝ) (requireCPoint : Bool) : Option (Mesh ℝ) :=
  let density := dens * (stop - start)
  if start ≤ cPoint ∧ cPoint ≤ stop ∧ 0 < density ∧ 2 ≤ size then
    let dx := 1 / ((size : ℝ) - 1)
    let c1 := Real.arsinh ((start - cPoint) / density)
    let c2 := Real.arsinh ((stop - cPoint) / density)
    let li : Option (ℝ → Option ℝ) :=
      if requireCPoint then
        let p := nodes size (-c1 / (c2 - c1)) (decide (¬isClose eps cPoint start ∧ ¬isClose eps cPoint stop))
        (Interp.newLinear p.1 p.1 p.2.1 p.2.2).map fun t => t.eval eps
      else some some
    li.bind fun li => (interiorPts li cPoint density c1 c2 dx (size - 2) (blank size)).bind fun m =>
      some (let m := spacings (size - 1) { m with loc := upd (upd m.loc 0 start) (size - 1) stop }
        { m with dplus := upd m.dplus (size - 1) null, dminus := upd m.dminus 0 null })
  else none

end Dal.Fd
