import Verif.Sim.TimeLineModel
import Verif.Interp.LinearModel
import Mathlib.Analysis.SpecialFunctions.Exp

/-!
# The simulation models

Source: `dal/model/dupire.hpp`, `dal/model/blackscholes.hpp`, `dal/math/aad/sample.hpp`, `dal/math/interp/interp.hpp`.

The models are templates in a number type `T_`. They are modelled once for a type with the operations used, and that type is then `ℝ` (for `double`) or `Dual` (for
`AAD::Number_`).

Simplifications: doubles are real numbers. A `Number_` is its value and its derivative in one direction; that the adjoints of the tape are such derivatives is C43.
The matrix of volatilities has as many rows as there are spots and as many columns as there are times. The time line is a function from positions, the Gaussian
numbers too. `none` stands for undefined behaviour.
-/

namespace Dal.Models

/-- What the templates use of the number type besides sums, differences and products: conversion from and to `double`, `Dal::exp` and `Dal::log`. -/
class Num (T : Type) where
  lit : ℝ → T
  val : T → ℝ
  exp : T → T
  log : T → T

noncomputable instance : Num ℝ := ⟨id, id, Real.exp, Real.log⟩

/-- A number on the tape: the value and the derivative in a fixed direction. -/
@[ext] structure Dual where
  v : ℝ
  d : ℝ

noncomputable instance : Add Dual := ⟨fun a b => ⟨a.v + b.v, a.d + b.d⟩⟩
noncomputable instance : Sub Dual := ⟨fun a b => ⟨a.v - b.v, a.d - b.d⟩⟩
noncomputable instance : Mul Dual := ⟨fun a b => ⟨a.v * b.v, a.d * b.v + a.v * b.d⟩⟩
noncomputable instance : Num Dual := ⟨fun x => ⟨x, 0⟩, Dual.v, fun a => ⟨Real.exp a.v, a.d * Real.exp a.v⟩, fun a => ⟨Real.log a.v, a.d / a.v⟩⟩

variable {T : Type} [Add T] [Sub T] [Mul T] [Num T]

/-- `InterpLinearImplX` (`interp.hpp` 34–45) as a template, for vectors of the same positive size `n`. The share of the right value is cast to `double`. -/
noncomputable def interpT (eps : ℝ) (n : Nat) (x : Nat → ℝ) (y : Nat → T) (x0 : T) : T :=
  let pge := Interp.lowerBound x n (Num.val x0)
  if pge = n then y (n - 1)
  else if pge = 0 ∨ Interp.isZero eps (Num.val (x0 - Num.lit (x pge))) = true then y pge
  else
    let plt := pge - 1
    let gFrac := Num.val (x0 - Num.lit (x plt)) / (x pge - x plt)
    y plt + Num.lit gFrac * (y (plt + 1) - y plt)

/-- `BlackScholes_` (`blackscholes.hpp` 25–35). -/
structure BS (T : Type) where
  spot : T
  rate : T
  div : T
  vol : T

/-- `BlackScholes_::Init` (`blackscholes.hpp` 109–117): the deviation of a step. -/
noncomputable def BS.std (m : BS T) (line : Nat → ℝ) (i : Nat) : T := m.vol * Num.lit (Real.sqrt (line (i + 1) - line i))

/-- `BlackScholes_::Init` (`blackscholes.hpp` 109–117): the drift of a step. -/
noncomputable def BS.drift (m : BS T) (line : Nat → ℝ) (i : Nat) : T :=
  ((m.rate - m.div) - Num.lit 0.5 * m.vol * m.vol) * Num.lit (line (i + 1) - line i)

/-- One step of `BlackScholes_::GeneratePath` (`blackscholes.hpp` 141–142). -/
noncomputable def BS.step (m : BS T) (line gauss : Nat → ℝ) (i : Nat) (x : T) : T := x + (m.drift line i + m.std line i * Num.lit (gauss i))

/-- The numeraire at time `t` (`blackscholes.hpp` 119–122). -/
noncomputable def BS.numeraire (m : BS T) (t : ℝ) : T := Num.exp (m.rate * Num.lit t)

/-- `Dupire_` (`dupire.hpp` 37–55): `nS` spots and `nT` times. -/
structure Dupire (T : Type) where
  spot : T
  r : T
  q : T
  nS : Nat
  spots : Nat → ℝ
  nT : Nat
  times : Nat → ℝ
  vols : Nat → Nat → T

/-- The logarithms of the spots (`dupire.hpp` 68). -/
noncomputable def Dupire.logSpots (m : Dupire T) (i : Nat) : ℝ := Real.log (m.spots i)

/-- `Dupire_::Init` (`dupire.hpp` 121–129): the drift of a step. -/
noncomputable def Dupire.drift (m : Dupire T) (line : Nat → ℝ) (i : Nat) : T := Num.lit (line (i + 1) - line i) * (m.r - m.q)

/-- `Dupire_::Init` (`dupire.hpp` 121–129): the volatility for step `i` at spot `j`, times the root of the length of the step. -/
noncomputable def Dupire.interpVols (eps : ℝ) (m : Dupire T) (line : Nat → ℝ) (i j : Nat) : T :=
  Num.lit (Real.sqrt (line (i + 1) - line i)) * interpT eps m.nT m.times (m.vols j) (Num.lit (line i))

/-- The volatility used in a step (`dupire.hpp` 154). -/
noncomputable def Dupire.localVol (eps : ℝ) (m : Dupire T) (line : Nat → ℝ) (i : Nat) (x : T) : T :=
  interpT eps m.nS m.logSpots (m.interpVols eps line i) x

/-- One step of `Dupire_::GeneratePath` (`dupire.hpp` 154–155). -/
noncomputable def Dupire.step (eps : ℝ) (m : Dupire T) (line gauss : Nat → ℝ) (i : Nat) (x : T) : T :=
  x + (m.drift line i + m.localVol eps line i x * (Num.lit (-0.5) * m.localVol eps line i x + Num.lit (gauss i)))

/-- The logarithm of the spot at position `n` of the line (`dupire.hpp` 145–155): interpolation reads the last element of an empty vector. -/
noncomputable def Dupire.logAt (eps : ℝ) (m : Dupire T) (line gauss : Nat → ℝ) (n : Nat) : Option T :=
  if n ≠ 0 ∧ (m.nS = 0 ∨ m.nT = 0) then none else some (TimeLine.stateAt (m.step eps line gauss) (Num.log m.spot) n)

/-- The logarithm of the spot at position `n` of the line (`blackscholes.hpp` 138–142). -/
noncomputable def BS.logAt (m : BS T) (line gauss : Nat → ℝ) (n : Nat) : T := TimeLine.stateAt (m.step line gauss) (Num.log m.spot) n

/-- `SampleDef_` (`sample.hpp` 16–29) without the rates. -/
structure SampleDef where
  numeraire : Bool
  discountMats : List ℝ
  forwardMats : List (List ℝ)

/-- `Sample_` (`sample.hpp` 31–36) without the rates. -/
structure Sample (T : Type) where
  spot : T
  numeraire : T
  discounts : List T
  forwards : List (List T)

/-- `Sample_::Allocate` and `Sample_::Initialize` (`sample.hpp` 38–53). -/
noncomputable def Sample.init (d : SampleDef) : Sample T :=
  ⟨Num.lit 0, Num.lit 1, d.discountMats.map fun _ => Num.lit 1, d.forwardMats.map fun l => l.map fun _ => Num.lit 1⟩

/-- The numeraires (`dupire.hpp` 133–134). -/
noncomputable def Dupire.numeraire (m : Dupire T) (t : ℝ) : T := Num.exp (m.r * Num.lit t)

/-- The discounts (`dupire.hpp` 136–138): `-r_` is modelled by a product with a literal. -/
noncomputable def Dupire.discounts (m : Dupire T) (t : ℝ) (d : SampleDef) : List T :=
  d.discountMats.map fun mat => Num.exp (Num.lit (-1) * m.r * Num.lit (mat - t))

/-- `Dupire_::FillScenario` (`dupire.hpp` 179–185) for the product date `t`: the first vector of forwards must exist. -/
noncomputable def Dupire.fill (m : Dupire T) (t : ℝ) (d : SampleDef) (spot : T) (s : Sample T) : Option (Sample T) :=
  match s.forwards with
  | [] => none
  | f :: fs => some ⟨spot, if d.numeraire then m.numeraire t else s.numeraire, m.discounts t d, (f.map fun _ => spot) :: fs⟩

/-- `BlackScholes_::FillScenario` (`blackscholes.hpp` 45–49) for the product date `t`. -/
noncomputable def BS.fill (m : BS T) (t : ℝ) (d : SampleDef) (spot : T) (s : Sample T) : Sample T :=
  { s with spot := spot, numeraire := if d.numeraire then m.numeraire t else s.numeraire }

/-- All the calls of `FillScenario` of a path (`dupire.hpp` 144–162): the entries of the path in the order of the product dates. -/
noncomputable def Dupire.scenario (eps : ℝ) (m : Dupire T) (product : List ℝ) (defs : List SampleDef) (line : List ℝ) (gauss : Nat → ℝ) :
    Option (List (Sample T)) :=
  (TimeLine.generatePath (m.step eps (fun i => line.getD i 0) gauss) defs.length (line.map (TimeLine.onLine product)) (Num.log m.spot)).bind fun fills =>
    if line.length ≠ 1 ∧ (m.nS = 0 ∨ m.nT = 0) then none
    else fills.mapM fun f => (product[f.idx]?).bind fun t => (defs[f.idx]?).bind fun d => m.fill t d (Num.exp f.state) (Sample.init d)

/-- All the calls of `FillScenario` of a path (`blackscholes.hpp` 130–146). -/
noncomputable def BS.scenario (m : BS T) (product : List ℝ) (defs : List SampleDef) (line : List ℝ) (flags : List Bool) (gauss : Nat → ℝ) :
    Option (List (Sample T)) :=
  (TimeLine.generatePath (m.step (fun i => line.getD i 0) gauss) defs.length flags (Num.log m.spot)).bind fun fills =>
    fills.mapM fun f => (product[f.idx]?).bind fun t => (defs[f.idx]?).bind fun d => some (m.fill t d (Num.exp f.state) (Sample.init d))

end Dal.Models
