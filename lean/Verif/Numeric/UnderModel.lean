import Mathlib.Algebra.Order.Field.Basic
import Mathlib.Data.Matrix.Mul

/-!
# Underdetermined search

`/repo/dal/math/optimization/underdetermined.cpp`, `underdetermined.hpp`, `QForm` of `/repo/dal/math/matrix/sparse.cpp` 13–25.

Simplifications, for the whole file:
* `double` is a linearly ordered field `K`, so rounding is not modelled.
* A vector of size `n` is a function from `Fin n`; the sizes of guess, function values, tolerances and Jacobian agree by construction.
* A Jacobian, dense or supplied by the function, is a matrix.
* Solving with the weights and the Cholesky solve are parameters, with `none` for an exception.
* `0 / 0` in `SecantUpdate` is an outcome of its own (`nonfinite`), as are a failed `assert` (`aborts`, in debug builds) and the largest element of an
  empty vector (`undefined`).
-/

namespace Dal.Under

variable {K : Type} [Field K] [LinearOrder K] {m n : Nat}

/-- `UnderdeterminedControls_` (`underdetermined.hpp` 11–32). -/
structure Controls (K : Type) where
  maxEvaluations : Int
  maxRestarts : Int
  maxBacktrackTries : Int
  restartTolerance : K
  backtrackTolerance : K
  maxBacktrack : K

/-- The conditions checked when controls are made (`MG_UnderdeterminedControls_object.hpp` 28–31). -/
def Controls.valid (c : Controls K) : Prop :=
  0 < c.maxEvaluations ∧ 0 < c.maxRestarts ∧ (0 ≤ c.restartTolerance ∧ c.restartTolerance ≤ 1) ∧ c.backtrackTolerance < c.maxBacktrack ∧ c.maxBacktrack < 1

/-- The defaults (`underdetermined.hpp` 19–26). -/
def Controls.default (evaluations restarts : Int) : Controls K := ⟨evaluations, restarts, 5, 2 / 5, 1 / 10, 4 / 5⟩

/-- How a call ends; `running` only when the fuel of the model is used up. -/
inductive Out (α : Type) where
  | ok (a : α)
  /-- "Exhausted function evaluations" -/
  | noEvaluations
  /-- "Exhausted gradient evaluations" -/
  | noGradients
  /-- "Could not find a descent direction" -/
  | noDescent
  /-- an exception of one of the solvers -/
  | unsolved
  | nonfinite
  | aborts
  | undefined
  | running
  deriving DecidableEq

/-- The end of a call, with the numbers of evaluations and gradients still allowed. -/
structure End (α : Type) where
  out : Out α
  evals : Int
  grads : Int

/-! ### The pieces -/

/-- `Function_::Gradient` (lines 21–38): one bump for each column. -/
def gradient (F : (Fin n → K) → (Fin m → K)) (dx : K) (x : Fin n → K) : Matrix (Fin m) (Fin n) K :=
  fun i j => 1 / dx * (F (fun k => if k = j then x k + dx else x k) i - F x i)

/-- `DivideRows` (lines 49–54). -/
def divideRows (tol : Fin m → K) (J : Matrix (Fin m) (Fin n) K) : Matrix (Fin m) (Fin n) K := fun i j => 1 / tol i * J i j

/-- `SecantUpdate` (lines 71–79). -/
def secantUpdate (J : Matrix (Fin m) (Fin n) K) (dx : Fin n → K) (df : Fin m → K) : Option (Matrix (Fin m) (Fin n) K) :=
  let x2 := dotProduct dx dx
  if x2 = 0 then none else some fun i j => J i j + (df i - dotProduct dx (J i)) / x2 * dx j

/-- `SymmetricDecomposition_::QForm` (`sparse.cpp` 13–25): the lower half is computed and copied. -/
def qForm (wSolve : (Fin n → K) → Option (Fin n → K)) (J : Matrix (Fin m) (Fin n) K) : Option (Matrix (Fin m) (Fin m) K) :=
  if ∀ i, (wSolve (J i)).isSome then
    some fun i j => if j ≤ i then dotProduct ((wSolve (J i)).getD 0) (J j) else dotProduct ((wSolve (J j)).getD 0) (J i)
  else none

/-- `QPStep` (lines 115–126). -/
def qpStep (wSolve : (Fin n → K) → Option (Fin n → K)) (chol : Matrix (Fin m) (Fin m) K → (Fin m → K) → Option (Fin m → K)) (f : Fin m → K)
    (J : Matrix (Fin m) (Fin n) K) : Option (Fin n → K) :=
  (qForm wSolve J).bind fun q => (chol q fun i => f i * -1).bind fun y => wSolve (Matrix.vecMul y J)

/-- `XScaledFunc_::F` (lines 94–99), without the count. -/
def scaled (F : (Fin n → K) → (Fin m → K)) (tol : Fin m → K) (x : Fin n → K) : Fin m → K := fun i => F x i / tol i

/-- The minimum of the model of line 236. -/
def kMin (fOld fNew : Fin m → K) : K :=
  (dotProduct fNew fNew - 1 / 2 * dotProduct fOld fNew) / (dotProduct fNew fNew - dotProduct fOld fNew + dotProduct fOld fOld)

/-- What the search is given: the function, its Jacobian at a point (lines 101–112, before the rows are divided), and the step. -/
structure Problem (K : Type) (m n : Nat) where
  F : (Fin n → K) → (Fin m → K)
  tol : Fin m → K
  grad : (Fin n → K) → Matrix (Fin m) (Fin n) K
  step : (Fin m → K) → Matrix (Fin m) (Fin n) K → Option (Fin n → K)

/-! ### `Find` -/

/-- How the loop of lines 225–252 ends. -/
inductive Search (K : Type) (m n : Nat) where
  | found (x : Fin n → K)
  | stepped (x : Fin n → K) (f : Fin m → K) (J : Matrix (Fin m) (Fin n) K) (approx restart : Bool)
  | none (restart : Bool)
  | noEvaluations
  | nonfinite
  | aborts
  | undefined

/-- The loop of lines 225–252, with the tries left, the step, the flags and the evaluations left. -/
def backtrack (debug : Bool) (P : Problem K m n) (c : Controls K) (xOld : Fin n → K) (fOld : Fin m → K) (J : Matrix (Fin m) (Fin n) K) (approx : Bool) :
    Nat → (Fin n → K) → Bool → Int → Search K m n × Int
  | 0, _, restart, ev => (.none restart, ev)
  | t + 1, s, restart, ev =>
    if 0 < ev then
      let xNew := fun k => xOld k + s k
      let fNew := scaled P.F P.tol xNew
      if m = 0 then (.undefined, ev - 1)
      else if ∀ i, fNew i < 1 ∧ -1 < fNew i then (.found xNew, ev - 1)
      else
        let km := kMin fOld fNew
        if km < c.backtrackTolerance then
          if restart then (.stepped xNew fNew J approx restart, ev - 1)
          else
            match secantUpdate J s (fun i => fNew i - fOld i) with
            | some J' => (.stepped xNew fNew J' true restart, ev - 1)
            | none => (.nonfinite, ev - 1)
        else
          let restart := restart || decide (c.restartTolerance < km)
          let k := min c.maxBacktrack (min km (2 * (km - c.backtrackTolerance)))
          if debug && !decide (0 < k) then (.aborts, ev - 1)
          else backtrack debug P c xOld fOld J approx t (fun i => s i * (1 - k)) restart (ev - 1)
    else (.noEvaluations, ev)

/-- The loop of lines 216–254. -/
def findLoop (debug : Bool) (P : Problem K m n) (c : Controls K) :
    Nat → (Fin n → K) → (Fin m → K) → Matrix (Fin m) (Fin n) K → Bool → Bool → Int → Int → End (Fin n → K)
  | 0, _, _, _, _, _, ev, gr => ⟨.running, ev, gr⟩
  | fuel + 1, xOld, fOld, J, approx, restart, ev, gr =>
    if restart && !decide (0 < gr) then ⟨.noGradients, ev, gr⟩
    else
      let J := if restart then divideRows P.tol (P.grad xOld) else J
      let approx := if restart then false else approx
      let gr := if restart then gr - 1 else gr
      match P.step fOld J with
      | none => ⟨.unsolved, ev, gr⟩
      | some s =>
        match backtrack debug P c xOld fOld J approx c.maxBacktrackTries.toNat s false ev with
        | (.found x, ev) => ⟨.ok x, ev, gr⟩
        | (.stepped x f J approx restart, ev) => findLoop debug P c fuel x f J approx restart ev gr
        | (.none restart, ev) => if approx then findLoop debug P c fuel xOld fOld J approx restart ev gr else ⟨.noDescent, ev, gr⟩
        | (.noEvaluations, ev) => ⟨.noEvaluations, ev, gr⟩
        | (.nonfinite, ev) => ⟨.nonfinite, ev, gr⟩
        | (.aborts, ev) => ⟨.aborts, ev, gr⟩
        | (.undefined, ev) => ⟨.undefined, ev, gr⟩

/-- `Underdetermined::Find` (lines 201–255). The last argument of the function, `eff_j_inv`, is never used. -/
def find (debug : Bool) (P : Problem K m n) (guess : Fin n → K) (c : Controls K) (fuel : Nat) : End (Fin n → K) :=
  if 0 < c.maxEvaluations then
    findLoop debug P c fuel guess (scaled P.F P.tol guess) (fun _ _ => 0) false true (c.maxEvaluations - 1) c.maxRestarts
  else ⟨.noEvaluations, c.maxEvaluations, c.maxRestarts⟩

/-! ### `Approximate` -/

/-- `XPenaltyWeight_::MultiplyLeft` (lines 134–138). -/
def penalty (W : Matrix (Fin n) (Fin n) K) (J : Matrix (Fin m) (Fin n) K) (jw : K) (x : Fin n → K) : Fin n → K :=
  fun i => Matrix.mulVec W x i + jw * Matrix.vecMul (Matrix.mulVec J x) J i

/-- `ApproxQPStep` (lines 185–198); `solve` solves with the matrix of the penalty. -/
def approxStep (solve : ((Fin n → K) → Fin n → K) → (Fin n → K) → Option (Fin n → K)) (W : Matrix (Fin n) (Fin n) K) (jw : K) (x0 x : Fin n → K)
    (f : Fin m → K) (J : Matrix (Fin m) (Fin n) K) : Option (Fin n → K) :=
  solve (penalty W J jw) fun i => Matrix.mulVec W (fun k => x0 k - x k) i + -jw * Matrix.vecMul f J i

/-- The loop of lines 272–286; `step x f J` is the step from `x`. A Jacobian of zeros over zeros only matters if the loop goes on, which then is without
recomputing it. -/
def approxLoop (P : Problem K m n) (step : (Fin n → K) → (Fin m → K) → Matrix (Fin m) (Fin n) K → Option (Fin n → K)) (c : Controls K) :
    Nat → Int → Int → (Fin n → K) → (Fin m → K) → Matrix (Fin m) (Fin n) K → Int → Int → End (Fin n → K)
  | 0, _, _, _, _, _, ev, gr => ⟨.running, ev, gr⟩
  | fuel + 1, ie, ticker, x, f, J, ev, gr =>
    if ie < c.maxEvaluations then
      let redo := decide (ticker ≤ 0)
      if redo && !decide (0 < gr) then ⟨.noGradients, ev, gr⟩
      else
        let J := if redo then divideRows P.tol (P.grad x) else J
        let gr := if redo then gr - 1 else gr
        let ticker := if redo then c.maxEvaluations else ticker
        let ie := if redo then ie + 1 else ie
        match step x f J with
        | none => ⟨.unsolved, ev, gr⟩
        | some s =>
          if 0 < ev then
            let xNew := fun k => x k + s k
            let fNew := scaled P.F P.tol xNew
            if c.maxRestarts < ticker then
              match secantUpdate J s (fun i => fNew i - f i) with
              | some J' => approxLoop P step c fuel (ie + 1) (ticker - c.maxRestarts) xNew fNew J' (ev - 1) gr
              | none => if ie + 1 < c.maxEvaluations then ⟨.nonfinite, ev - 1, gr⟩ else ⟨.ok xNew, ev - 1, gr⟩
            else approxLoop P step c fuel (ie + 1) (ticker - c.maxRestarts) xNew fNew J (ev - 1) gr
          else ⟨.noEvaluations, ev, gr⟩
    else ⟨.ok x, ev, gr⟩

/-- The weight of the fit, line 270. -/
def fitWeight (tol : Fin m → K) (fitTol : K) : K := dotProduct tol tol / (fitTol * fitTol)

/-- `Underdetermined::Approximate` (lines 257–288). -/
def approximate (P : Problem K m n) (solve : ((Fin n → K) → Fin n → K) → (Fin n → K) → Option (Fin n → K)) (W : Matrix (Fin n) (Fin n) K) (fitTol : K)
    (guess : Fin n → K) (c : Controls K) (fuel : Nat) : End (Fin n → K) :=
  if 0 < c.maxEvaluations then
    approxLoop P (approxStep solve W (fitWeight P.tol fitTol) guess) c fuel 3 0 guess (scaled P.F P.tol guess) (fun _ _ => 0) (c.maxEvaluations - 1) c.maxRestarts
  else ⟨.noEvaluations, c.maxEvaluations, c.maxRestarts⟩

end Dal.Under
