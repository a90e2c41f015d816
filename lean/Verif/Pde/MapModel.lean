import Mathlib.Analysis.SpecialFunctions.Arsinh

/-!
# Coordinate maps

Source: `dal/math/pde/pde.cpp`, `dal/math/pde/pde.hpp` 12–20. Simplification: doubles are real numbers.
-/

namespace Dal.Pde

/-- `IdentityMap_` and `SinhMap_` (`pde.cpp` 12–30). -/
inductive CMap where
  | identity
  | sinh (lambda : ℝ)

/-- `operator()` without the derivatives (`pde.cpp` 16 and 26). -/
noncomputable def CMap.x : CMap → ℝ → ℝ
  | .identity, y => y
  | .sinh lambda, y => lambda * Real.sinh (y / lambda)

/-- The value assigned to `*xp` (`pde.cpp` 14 and 24). -/
noncomputable def CMap.xp : CMap → ℝ → ℝ
  | .identity, _ => 1
  | .sinh lambda, y => Real.cosh (y / lambda)

/-- The value assigned to `*xpp` (`pde.cpp` 15 and 25). -/
noncomputable def CMap.xpp : CMap → ℝ → ℝ
  | .identity, _ => 0
  | .sinh lambda, y => Real.sinh (y / lambda) / lambda

/-- `Y` (`pde.cpp` 18 and 28). -/
noncomputable def CMap.y : CMap → ℝ → ℝ
  | .identity, x => x
  | .sinh lambda, x => lambda * Real.arsinh (x / lambda)

open Classical in
/-- `NewSinhMap` (`pde.cpp` 33–37); `none` when it throws. `IsPositive` and `IsZero` are those of `platform.hpp` 62–64. -/
noncomputable def newSinhMap (eps xWidth range : ℝ) : Option CMap :=
  if eps ≤ xWidth ∧ 1 ≤ range then
    let s := Real.sqrt (range * range - 1)
    some (if s * s < eps ∧ -(s * s) < eps then .identity else .sinh (xWidth / s))
  else none

end Dal.Pde
