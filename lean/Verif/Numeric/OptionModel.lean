import Mathlib.MeasureTheory.Integral.IntervalIntegral.Basic
import Mathlib.Analysis.SpecialFunctions.Log.Basic
import Mathlib.Analysis.SpecialFunctions.Sqrt
import Mathlib.Analysis.Real.Pi.Bounds

/-!
# Option prices

`/repo/dal/math/distribution/black.hpp`, `black.cpp`, `/repo/dal/protocol/optiontype.hpp` and `/repo/dal/math/specialfunctions.*`.

Simplifications: `double` is ℝ; `erfc` is the complementary error function, and the constants 1.4142135623730951 (`M_SQRT_2`) and 2.506628274631 stand
for √2 and √(2π). Throwing is `none`; so is dividing by zero and taking the logarithm of what is not positive.
-/

namespace Dal.Numeric

open Real

/-- `OptionType_::Value_` (`/repo/dal/auto/MG_OptionType_enum.hpp` 6–13). -/
inductive OptionType where
  | notSet | call | put | straddle
  deriving DecidableEq

/-- `OptionType_::Payout` (`optiontype.hpp` 25–37). -/
noncomputable def payout (type : OptionType) (spot strike : ℝ) : Option ℝ :=
  match type with
  | .call => some (max 0 (spot - strike))
  | .put => some (max 0 (strike - spot))
  | .straddle => some |spot - strike|
  | .notSet => none

/-- `EPSILON` (`/repo/dal/platform/platform.hpp` 55). -/
noncomputable def epsilon : ℝ := 2e-14

/-- `IsZero` (`platform.hpp` 62). -/
def IsZero (x : ℝ) : Prop := x < epsilon ∧ -x < epsilon

/-- `IsPositive` (`platform.hpp` 64). -/
def IsPositive (x : ℝ) : Prop := x ≥ epsilon

/-- `std::erfc`. -/
noncomputable def erfc (x : ℝ) : ℝ := 1 - 2 / √π * ∫ t in (0 : ℝ)..x, exp (-1 * t ^ 2)

/-- `NCDF(z)` with `precise` as it is by default (`specialfunctions.cpp` 40). -/
noncomputable def ncdf (z : ℝ) : ℝ := 1 / 2 * erfc (-z / √2)

/-- `NPDF` (`specialfunctions.hpp` 10). -/
noncomputable def npdf (z : ℝ) : ℝ := if z < -10 ∨ 10 < z then 0 else exp (-(1 / 2) * z * z) / √(2 * π)

/-- `log(fwd / strike) / vol - 0.5 * vol`, for what `BlackOpt` (17) and `BlackGreeks` (29) take it of. -/
noncomputable def dMinus (fwd vol strike : ℝ) : ℝ := log (fwd / strike) / vol - 1 / 2 * vol

open Classical in
/-- `Distribution::BlackOpt` (`black.hpp` 13–29). -/
noncomputable def blackOpt (fwd vol strike : ℝ) (type : OptionType) : Option ℝ :=
  if IsZero vol ∨ ¬ IsPositive (fwd * strike) then payout type fwd strike
  else
    let dm := dMinus fwd vol strike
    let dp := dm + vol
    match type with
    | .call => some (fwd * ncdf dp - strike * ncdf dm)
    | .put => some (strike * ncdf (-dm) - fwd * ncdf (-dp))
    | .straddle => some (fwd * (1 - 2 * ncdf (-dp)) + strike * (1 - 2 * ncdf dm))
    | .notSet => none

open Classical in
/-- `Distribution::BachelierOpt` (`black.hpp` 34–50). -/
noncomputable def bachelierOpt (fwd vol strike : ℝ) (type : OptionType) : Option ℝ :=
  if IsZero vol ∨ ¬ IsPositive (fwd * strike) then payout type fwd strike
  else
    let diff := fwd - strike
    let d := diff / vol
    match type with
    | .call => some (diff * ncdf d + vol * npdf d)
    | .put => some (-diff * ncdf (-d) + vol * npdf d)
    | .straddle => some (diff * (2 * ncdf d - 1) + 2 * vol * npdf d)
    | .notSet => none

open Classical in
/-- `Distribution::BlackGreeks` (`black.cpp` 28–53): delta and vega. -/
noncomputable def blackGreeks (fwd vol strike : ℝ) (type : OptionType) : Option (ℝ × ℝ) :=
  if strike = 0 ∨ fwd / strike ≤ 0 ∨ vol = 0 then none
  else
    let dp := dMinus fwd vol strike + vol
    match type with
    | .call => some (ncdf dp, fwd * npdf dp)
    | .put => some (-ncdf (-dp), fwd * npdf dp)
    | .straddle => some (ncdf dp - ncdf (-dp), 2 * fwd * npdf dp)
    | .notSet => none

open Classical in
/-- `Distribution::BachelierGreeks` (`black.cpp` 69–94): delta and vega. -/
noncomputable def bachelierGreeks (fwd vol strike : ℝ) (type : OptionType) : Option (ℝ × ℝ) :=
  if vol = 0 then none
  else
    let d := (fwd - strike) / vol
    match type with
    | .call => some (ncdf d, npdf d)
    | .put => some (-ncdf (-d), npdf d)
    | .straddle => some (ncdf d - ncdf (-d), 2 * npdf d)
    | .notSet => none

end Dal.Numeric
