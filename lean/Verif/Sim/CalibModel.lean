import Verif.Interp.LinearModel
import Verif.Numeric.OptionModel
import Mathlib.Analysis.SpecialFunctions.Sqrt

/-!
# Local volatilities and their calibration

Source: `dal/model/dupire.hpp` 188–251, `dal/model/ivs.hpp`, `dal/math/analytics/vanilla.hpp`.

Simplifications: doubles are real numbers. The implied volatility is a parameter. `none` stands for undefined behaviour: reads outside a row of the matrix of volatilities, and
interpolation on empty vectors.
-/

namespace Dal.Calib

/-- `while (il < nSpots && spots[il] < lo) ++il` (`dupire.hpp` 206–208), with as many rounds as there are spots left. -/
noncomputable def firstIn (spots : Nat → ℝ) (lo : ℝ) : Nat → Nat → Nat
  | 0, il => il
  | left + 1, il => if spots il < lo then firstIn spots lo left (il + 1) else il

/-- `while (ih >= 0 && spots[ih] > hi) --ih` (`dupire.hpp` 209–211); the result is `ih + 1`. -/
noncomputable def lastIn (spots : Nat → ℝ) (hi : ℝ) : Nat → Nat
  | 0 => 0
  | k + 1 => if hi < spots k then lastIn spots hi k else k + 1

/-- A loop that copies the entry `src` to the entries listed (`dupire.hpp` 220–223): `none` when `src` is not in the row. -/
def copyFrom (src : Nat) : List Nat → List ℝ → Option (List ℝ)
  | [], v => some v
  | i :: is, v =>
    match v[src]? with
    | none => none
    | some x => copyFrom src is (v.set i x)

/-- `DupireCalibMaturity` (`dupire.hpp` 188–224) on the row `v`, with the bounds `lo` and `hi` of the spots that are used: `lv` is `LocalVol` at the maturity. The index `ih` is one
less than `ihs`. -/
noncomputable def calibMaturity (lo hi : ℝ) (n : Nat) (spots : Nat → ℝ) (lv : ℝ → ℝ) (v : List ℝ) : Option (List ℝ) :=
  let il := firstIn spots lo n 0
  let ihs := lastIn spots hi n
  let v1 := (List.range' il (ihs - il)).foldl (fun v i => v.set i (lv (spots i))) v
  (copyFrom il (List.range il) v1).bind fun v2 =>
    if ihs = 0 then (if n = 0 then some v2 else none) else copyFrom (ihs - 1) (List.range' ihs (n - ihs)) v2

/-- `std` (`dupire.hpp` 201–203): the call at the money times the root of 2π. -/
noncomputable def stdOf (atmCall : ℝ) : ℝ := atmCall * 2.506628274631

/-- `DupireCalib` (`dupire.hpp` 228–251) on the grid of spots and times: one row for each time, then the transpose. `lv t` is `LocalVol` at the maturity `t`, `call t` the call at
the money. -/
noncomputable def calib (spot : ℝ) (nS nT : Nat) (spots times : Nat → ℝ) (call : ℝ → ℝ) (lv : ℝ → ℝ → ℝ) : Option (List (List ℝ)) :=
  ((List.range nT).mapM fun j =>
    calibMaturity (spot - 2.5 * stdOf (call (times j))) (spot + 2.5 * stdOf (call (times j))) nS spots (lv (times j)) (List.replicate nS 0)).map fun rows =>
      (List.range nS).map fun i => rows.map fun r => r.getD i 0

/-- `RiskView_` (`ivs.hpp` 14–48). -/
structure RiskView where
  isEmpty : Bool
  nK : Nat
  nM : Nat
  strikes : Nat → ℝ
  mats : Nat → ℝ
  spreads : Nat → Nat → ℝ

/-- The default constructor (`ivs.hpp` 21). -/
def RiskView.empty : RiskView := ⟨true, 0, 0, fun _ => 0, fun _ => 0, fun _ _ => 0⟩

/-- The constructor for strikes and maturities (`ivs.hpp` 22–26). -/
def RiskView.new (nK nM : Nat) (strikes mats : Nat → ℝ) : RiskView := ⟨false, nK, nM, strikes, mats, fun _ _ => 0⟩

/-- `RiskView_::Bump` (`ivs.hpp` 47). -/
def RiskView.bump (r : RiskView) (i j : Nat) (by' : ℝ) : Option RiskView :=
  if i < r.nK ∧ j < r.nM then some { r with spreads := fun a b => if a = i ∧ b = j then r.spreads i j + by' else r.spreads a b } else none

/-- `RiskView_::Spread` (`ivs.hpp` 28–30). -/
noncomputable def RiskView.spread (eps : ℝ) (r : RiskView) (strike mat : ℝ) : Option ℝ :=
  if r.isEmpty then some 0 else Interp.linear2 eps r.nK r.nM r.strikes r.mats r.spreads strike mat

/-- `BlackScholes` (`vanilla.hpp` 12–16). -/
noncomputable def blackScholes (spot strike vol mat : ℝ) : Option ℝ := Numeric.blackOpt spot (vol * Real.sqrt mat) strike .call

/-- `IVS_::Call` (`ivs.hpp` 61–64); `none` for the pointer is the null pointer. -/
noncomputable def call (eps : ℝ) (spot : ℝ) (impliedVol : ℝ → ℝ → ℝ) (risk : Option RiskView) (strike mat : ℝ) : Option ℝ :=
  (match risk with
    | none => some 0
    | some r => r.spread eps strike mat).bind fun s => blackScholes spot strike (impliedVol strike mat + s) mat

/-- The differences of `IVS_::LocalVol` (`ivs.hpp` 68–79): the price, its slope in time, its slope and its curvature in the strike. -/
noncomputable def differences (c : ℝ → ℝ → ℝ) (strike mat : ℝ) : ℝ × ℝ × ℝ × ℝ :=
  let c00 := c strike mat
  let dt := 1e-4 * mat
  let ct := (c strike (mat + dt) - c strike (mat - dt)) * 0.5 / dt
  let ds := 1e-4 * strike
  let ckk := (c (strike - ds) mat + c (strike + ds) mat - 2 * c00) / ds / ds
  let ck := (c (strike + ds) mat - c (strike - ds) mat) * 0.5 / ds
  (c00, ct, ck, ckk)

/-- `IVS_::LocalVol` (`ivs.hpp` 66–81) for a surface of calls: `none` for the root of a negative number. -/
noncomputable def localVol (r q : ℝ) (c : ℝ → ℝ → ℝ) (strike mat : ℝ) : Option ℝ :=
  let d := differences c strike mat
  let w := 2 * (d.2.1 + q * d.1 + (r - q) * d.2.2.1) / d.2.2.2
  if w < 0 then none else some (Real.sqrt w / strike)

/-- The loop of `Merton` (`vanilla.hpp` 39–47): `n` is the number of the term, `fact` an `unsigned`. -/
noncomputable def mertonLoop (price : Nat → ℝ) (intensT : ℝ) : Nat → Nat → Nat → ℝ → ℝ → ℝ
  | 0, _, _, _, acc => acc
  | left + 1, n, fact, iT, acc =>
    mertonLoop price intensT left (n + 1) (fact * (n + 1) % 2 ^ 32) (iT * intensT) (acc + Real.exp (-intensT) * iT / fact * price n)

/-- The forward of a term of `Merton` (`vanilla.hpp` 40). -/
noncomputable def mertonSpot (spot mat intens mv2 : ℝ) (n : Nat) : ℝ := spot * Real.exp (n * mv2 - intens * (Real.exp mv2 - 1) * mat)

/-- The volatility of a term of `Merton` (`vanilla.hpp` 41). -/
noncomputable def mertonVol (vol mat stdJmp : ℝ) (n : Nat) : ℝ := Real.sqrt (vol * vol + n * (stdJmp * stdJmp) / mat)

/-- `Merton` (`vanilla.hpp` 20–49), for the price `bs` of a call. -/
noncomputable def merton (bs : ℝ → ℝ → ℝ → ℝ → ℝ) (spot strike vol mat intens meanJmp stdJmp : ℝ) : ℝ :=
  mertonLoop (fun n => bs (mertonSpot spot mat intens (meanJmp + 0.5 * (stdJmp * stdJmp)) n) strike (mertonVol vol mat stdJmp n) mat) (intens * mat) 10 0 1 1 0

end Dal.Calib
