import Verif.Interp.CubicModel
import Verif.Numeric.OptionModel

/-! # Model of the normal distribution function and its inverse (dal/math/specialfunctions.cpp)

Numbers are real numbers: no rounding, constants are the decimal numbers of the source. `erfc`, `exp` and `log` are the functions of that name. The precise
distribution function is `Numeric.ncdf`. The logarithm of 0 is not a real number: there the code goes on with infinities and ends with `NaN`, which is the
outcome `nan`. -/

namespace Dal.Normal

open Dal.Interp

/-- The nodes, specialfunctions.cpp:17-19. -/
def nodesX : List Rat := [-3.734582185, -3.347382781, -3.030883722, -2.75090681, -2.492289824, -2.243141537, -1.992179668, -1.494029881, -1.290815576,
  -1.120050999, -0.954303629, -0.792072249, -0.629093487, -0.460389924, -0.276889742, 0]

/-- The values at the nodes, specialfunctions.cpp:20-22. -/
def nodesF : List Rat := [0.0000947235, 0.000408582, 0.001219907, 0.002972237, 0.00634685, 0.012444548, 0.023176395, 0.067583453, 0.098383227, 0.131345731,
  0.16996458, 0.214158839, 0.264643073, 0.322617682, 0.39093184, 0.5]

/-- The element of a vector. -/
def at' {K : Type} [Field K] (l : List Rat) (i : Nat) : K := ((l[i]?.getD 0 : Rat) : K)

/-- `MIN_SPLINE_X` and `MIN_SPLINE_F`, specialfunctions.cpp:14-15. -/
def minX : Rat := -3.734582185
def minF : Rat := 0.0000947235

/-- `MakeNcdfSpline`, specialfunctions.cpp:16-26; `none` when it throws. -/
def makeSpline (K : Type) [Field K] [LinearOrder K] : Option (Cubic K) :=
  newCubic nodesX.length nodesF.length (at' nodesX) (at' nodesF) ⟨1, ((0.000373538 : Rat) : K)⟩ ⟨1, ((0.39898679 : Rat) : K)⟩

/-- `NcdfBySpline` for `z` not above 0, specialfunctions.cpp:32-34. -/
noncomputable def belowZero (c : Cubic ℝ) (z : ℝ) : ℝ :=
  if z < minX then minF * Real.exp (-(1.1180061 : Rat) * (z * z - minX * minX)) else c.eval z

/-- `NcdfBySpline`, specialfunctions.cpp:28-35: above 0 it calls itself once, with a negative number. -/
noncomputable def ncdfBySpline (z : ℝ) : Option ℝ :=
  (makeSpline ℝ).map fun c => if z > 0 then 1 - belowZero c (-z) else belowZero c z

/-- `NCDF`, specialfunctions.cpp:38. -/
noncomputable def ncdf (z : ℝ) (precise : Bool) : Option ℝ := if precise then some (Numeric.ncdf z) else ncdfBySpline z

/-- How a call ends. -/
inductive Out
  | value (z : ℝ)
  | nan
  | throws

/-- The coefficients, specialfunctions.cpp:44-67. -/
noncomputable def invNorm : ℝ := 2.5066282746310002
def a1 : Rat := -3.969683028665376e+01
def a2 : Rat := 2.209460984245205e+02
def a3 : Rat := -2.759285104469687e+02
def a4 : Rat := 1.383577518672690e+02
def a5 : Rat := -3.066479806614716e+01
def a6 : Rat := 2.506628277459239e+00
def b1 : Rat := -5.447609879822406e+01
def b2 : Rat := 1.615858368580409e+02
def b3 : Rat := -1.556989798598866e+02
def b4 : Rat := 6.680131188771972e+01
def b5 : Rat := -1.328068155288572e+01
def c1 : Rat := -7.784894002430293e-03
def c2 : Rat := -3.223964580411365e-01
def c3 : Rat := -2.400758277161838e+00
def c4 : Rat := -2.549732539343734e+00
def c5 : Rat := 4.374664141464968e+00
def c6 : Rat := 2.938163982698783e+00
def d1 : Rat := 7.784695709041462e-03
def d2 : Rat := 3.224671290700398e-01
def d3 : Rat := 2.445134137142996e+00
def d4 : Rat := 3.754408661907416e+00
def xLow : Rat := 0.02425
def xHigh : Rat := 1 - xLow

/-- The quotient of specialfunctions.cpp:77-78 and, with a sign, 82-83. -/
noncomputable def tail (z : ℝ) : ℝ :=
  (((((c1 * z + c2) * z + c3) * z + c4) * z + c5) * z + c6) / ((((d1 * z + d2) * z + d3) * z + d4) * z + 1)

/-- specialfunctions.cpp:86-89. -/
noncomputable def middle (z : ℝ) : ℝ :=
  let r := z * z
  (((((a1 * r + a2) * r + a3) * r + a4) * r + a5) * r + a6) * z / (((((b1 * r + b2) * r + b3) * r + b4) * r + b5) * r + 1)

/-- The number before polishing, specialfunctions.cpp:72-90. With the logarithm of 0 the square root is infinite, both polynomials are infinite and their
quotient is not a number. -/
noncomputable def raw (x : ℝ) : Out :=
  if x < xLow ∨ xHigh < x then
    if x < xLow then
      if x = 0 then .nan else .value (tail (Real.sqrt (-2 * Real.log x)))
    else
      if 1 - x = 0 then .nan else .value (-tail (Real.sqrt (-2 * Real.log (1 - x))))
  else .value (middle (x - 1 / 2))

/-- `InverseNCDF`, specialfunctions.cpp:40-97. -/
noncomputable def inverse (x : ℝ) (precise polish : Bool) : Out :=
  if x ≥ 0 ∧ x ≤ 1 then
    match raw x with
    | .value z =>
      if polish then
        match ncdf z precise with
        | some p => .value (z - (p - x) * invNorm * Real.exp (min 8 (1 / 2 * (z * z))))
        | none => .throws
      else .value z
    | o => o
  else .throws

end Dal.Normal
