import Verif.Numeric.BrentModel
import Verif.Numeric.OptionModel
import Verif.Strings.StringModel
import Mathlib.Analysis.SpecialFunctions.Pow.Real

/-!
# Implied volatilities

`/repo/dal/math/distribution/black.cpp` 14–26, 55–67 and 97–141, `black.hpp` 57–106, `distribution/utils.cpp` and `/repo/dal/math/analytics/vanilla.cpp`.

Simplifications: `double` is ℝ, so nothing overflows or underflows; throwing is `none`, and so is a result that is not a number. The number of
attempts is a parameter, thirty in the code.
-/

namespace Dal.Implied

open Real Dal.Numeric Dal.Brent Dal.Strings

/-- The loop of `BlackIV` (`black.cpp` 20–24) and of `BachelierIV` (61–65), for what is priced and the attempts left. -/
noncomputable def search (price : ℝ → Option ℝ) (target xTol fTol : ℝ) : Nat → Hunt ℝ → Option ℝ
  | 0, _ => none
  | n + 1, h => h.nextX.bind fun p =>
    (price (exp p.1)).bind fun v =>
      (converged (exp 1) xTol fTol p.2 (v - target)).bind fun q => if q.2 then some (exp p.1) else search price target xTol fTol n q.1

/-- `TOL` (`black.cpp` 16, 57). -/
noncomputable def tolerance : ℝ := 1 / 10 ^ 10

open Classical in
/-- `Distribution::BlackIV` (`black.cpp` 14–26). -/
noncomputable def blackIV (attempts : Nat) (fwd strike : ℝ) (type : OptionType) (price guess : ℝ) : Option ℝ :=
  (payout type fwd strike).bind fun p =>
    if price ≥ p then
      search (fun vol => blackOpt fwd vol strike type) price (tolerance * max 1 fwd) (tolerance * max 1 price) attempts
        (newHunt (if guess > 0 then log guess else -(3 / 2)) epsilon 0)
    else none

open Classical in
/-- `Distribution::BachelierIV` (`black.cpp` 55–67). -/
noncomputable def bachelierIV (attempts : Nat) (fwd strike : ℝ) (type : OptionType) (price guess : ℝ) : Option ℝ :=
  (payout type fwd strike).bind fun p =>
    if price ≥ p then
      search (fun vol => bachelierOpt fwd vol strike type) price (tolerance * max 1 fwd) (tolerance * max 1 price) attempts
        (newHunt (if guess > 0 then guess else -(3 / 2) * fwd) epsilon 0)
    else none

/-- What `utils.cpp` asks of a `Distribution_` (`base.hpp` 17–18). -/
structure Distribution where
  forward : ℝ
  optionPrice : ℝ → OptionType → Option ℝ

/-- `DistributionBlack_` (`black.hpp` 62–67). -/
noncomputable def black (fwd vol : ℝ) : Distribution := ⟨fwd, fun strike type => blackOpt fwd vol strike type⟩

/-- `DistributionBachelier_` (`black.hpp` 88–92). -/
noncomputable def bachelier (fwd vol : ℝ) : Distribution := ⟨fwd, fun strike type => bachelierOpt fwd vol strike type⟩

open Classical in
/-- `fMid` (`utils.cpp` 16): `none` for a power of a negative number, which is not a number in the code and makes the next call throw. -/
noncomputable def between (f strike : ℝ) (n : Nat) : Option ℝ :=
  if strike > f then (if strike = 0 ∨ f / strike < 0 then none else some (strike * (f / strike) ^ (1 / (n : ℝ))))
  else some (strike + (f - strike) / n)

open Classical in
/-- `BlackIV` of a model (`utils.cpp` 11–20); steps that are not positive do what one does. -/
noncomputable def modelIV (attempts : Nat) (model : Distribution) (strike guess : ℝ) : Nat → Option ℝ
  | 0 => last guess
  | 1 => last guess
  | n + 2 => ((between model.forward strike (n + 2)).bind fun mid => modelIV attempts model mid guess (n + 1)).bind last
where
  /-- The last call (`utils.cpp` 19). -/
  last (g : ℝ) : Option ℝ :=
    let type := if strike > model.forward then OptionType.call else OptionType.put
    (model.optionPrice strike type).bind fun p => blackIV attempts model.forward strike type p g

/-- `BlackScholesIVol` (`vanilla.cpp` 11–15); `none` also for a maturity that is not positive. -/
noncomputable def blackScholesIVol (attempts : Nat) (spot strike prem mat : ℝ) : Option ℝ :=
  if mat ≤ 0 then none else (blackIV attempts spot strike .call prem 0).map fun s => s / √mat

/-- `BachelierIVol` (`vanilla.cpp` 17–21). -/
noncomputable def bachelierIVol (attempts : Nat) (spot strike prem mat : ℝ) : Option ℝ :=
  if mat ≤ 0 then none else (bachelierIV attempts spot strike .call prem 0).map fun s => s / √mat

/-- `VolVega` (`black.cpp` 97–100, 120–123), of the sensitivities. -/
noncomputable def volVega (greeks : Option (ℝ × ℝ)) (vol : ℝ) : Option ℝ := greeks.map fun g => vol * g.2

/-- `ParameterNames` (`black.hpp` 71–76, 96–101). -/
def parameterNames : List Str := ["forward".toList, "vol".toList]

/-- The loop of `ParameterDerivatives` (`black.cpp` 106–117, 129–140). -/
noncomputable def report (sgn : Bool) (vol : ℝ) (g : ℝ × ℝ) : List Str → List (Str × ℝ) → Option (List (Str × ℝ))
  | [], m => some m
  | n :: rest, m =>
    if eqS sgn n "delta".toList then report sgn vol g rest (mapInsert sgn "delta".toList g.1 m)
    else if eqS sgn n "vega".toList then report sgn vol g rest (mapInsert sgn "vega".toList g.2 m)
    else if eqS sgn n "volvega".toList then report sgn vol g rest (mapInsert sgn "volvega".toList (vol * g.2) m)
    else none

/-- `ParameterDerivatives` (`black.cpp` 102–118, 125–141). -/
noncomputable def parameterDerivatives (sgn : Bool) (greeks : Option (ℝ × ℝ)) (vol : ℝ) (toReport : List Str) : Option (List (Str × ℝ)) :=
  greeks.bind fun g => report sgn vol g toReport []

end Dal.Implied
