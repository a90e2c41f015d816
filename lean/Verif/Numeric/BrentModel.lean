import Mathlib.Algebra.Order.Field.Basic
import Mathlib.Tactic.Ring

/-!
# Root search

Model of `dal/math/rootfind.cpp` 10–97 and `rootfind.hpp` 10–59.

Simplifications: numbers are elements of an ordered field, so there is no rounding. Zero over zero, which is not a number in the code, is
`none`; every comparison with it is false. Infinity, as a width, is `none` too.
-/

namespace Dal.Brent

variable {K : Type} [Field K] [LinearOrder K]

/-- The fields of `BracketedBrent_` (`rootfind.hpp` 29–32). -/
structure State (K : Type) where
  a : K × K
  b : K × K
  c : K × K
  tol : K
  bisect : Bool
  d : K

/-- `std::swap(a_, b_)` when the value at `a_` is the smaller (`rootfind.cpp` 22–23 and 56–57). -/
def State.order (s : State K) : State K := if |s.a.2| < |s.b.2| then { s with a := s.b, b := s.a } else s

/-- `Initialize` (`rootfind.cpp` 18–26): `none` when it throws. -/
def initialize' (tol d : K) (low high : K × K) : Option (State K) :=
  if low.2 * high.2 ≤ 0 then
    let s := (State.mk low high low tol true d).order
    some { s with c := s.a, bisect := true }
  else none

/-- The interpolated place (`rootfind.cpp` 30–36). -/
def interpolate (s : State K) : Option K :=
  if s.a.2 = s.b.2 then none
  else if s.c.2 ≠ s.a.2 ∧ s.c.2 ≠ s.b.2 then
    some (s.a.1 * s.b.2 * s.c.2 / ((s.a.2 - s.b.2) * (s.a.2 - s.c.2)) + s.b.1 * s.a.2 * s.c.2 / ((s.b.2 - s.a.2) * (s.b.2 - s.c.2))
      + s.c.1 * s.a.2 * s.b.2 / ((s.c.2 - s.a.2) * (s.c.2 - s.b.2)))
  else some ((s.a.1 * s.b.2 - s.b.1 * s.a.2) / (s.b.2 - s.a.2))

/-- `NextX` (`rootfind.cpp` 28–46): the place and the state, with `d_` holding it; `none` when the place is not a number. -/
def nextX (s : State K) : Option (K × State K) :=
  let cDist := |s.c.1 - (if s.bisect then s.b.1 else s.d)|
  let bisect := match interpolate s with
    | none => decide (cDist < s.tol)
    | some x => decide ((x - s.b.1) * (x - 3 / 4 * s.a.1 - 1 / 4 * s.b.1) ≥ 0 ∨ |x - s.b.1| > 1 / 2 * cDist ∨ cDist < s.tol)
  if bisect then
    let x := 1 / 2 * (s.a.1 + s.b.1)
    some (x, { s with bisect := true, d := x })
  else (interpolate s).map fun x => (x, { s with bisect := false, d := x })

/-- `PutY` (`rootfind.cpp` 48–58). -/
def putY (st : State K) (fs : K) : State K :=
  let s := st.d
  let st := { st with d := st.c.1, c := st.b }
  let st := if fs * st.a.2 > 0 then { st with a := (s, fs) } else { st with b := (s, fs) }
  st.order

/-- `BracketWidth` (`rootfind.hpp` 44). -/
def State.width (s : State K) : K := |s.a.1 - s.b.1|

/-- What a caller does once: ask for a place and give the value of the function there. -/
def step (f : K → K) (s : State K) : Option (State K) := (nextX s).map fun p => putY p.2 (f p.1)

/-- A number of such steps. -/
def run (f : K → K) : Nat → State K → Option (State K)
  | 0, s => some s
  | n + 1, s => (run f n s).bind (step f)

/-- `Phase_` (`rootfind.hpp` 48). -/
inductive Phase
  | start
  | hunt
  | bracketed
  deriving DecidableEq

/-- The fields of `Brent_` (`rootfind.hpp` 48–52). The known point is only read once it is set. -/
structure Hunt (K : Type) where
  phase : Phase
  increasing : Bool
  stepSize : K
  trialX : K
  known : K × K
  engine : State K

/-- The constructor (`rootfind.cpp` 63–66). -/
def newHunt (guess tol stepSize : K) : Hunt K :=
  ⟨.start, true, if stepSize > 0 then stepSize else 1 / 10 * max (1 / 100) |guess|, guess, (0, 0), ⟨(0, 0), (0, 0), (0, 0), tol, false, 0⟩⟩

/-- `Brent_::NextX` (`rootfind.cpp` 68). -/
def Hunt.nextX (h : Hunt K) : Option (K × Hunt K) :=
  if h.phase = .bracketed then (Brent.nextX h.engine).map fun p => (p.1, { h with engine := p.2 }) else some (h.trialX, h)

/-- `Brent_::PutY` (`rootfind.cpp` 70–95), for the constant `expansion`: `none` when it throws. -/
def Hunt.putY (expansion : K) (h : Hunt K) (y : K) : Option (Hunt K) :=
  let sign (b : Bool) : K := if b then 1 else -1
  match h.phase with
  | .start => some { h with
      known := (h.trialX, y), trialX := h.trialX + h.stepSize * sign h.increasing * sign (decide (y < 0)), phase := .hunt }
  | .bracketed => some { h with engine := Brent.putY h.engine y }
  | .hunt =>
    if y * h.known.2 ≤ 0 then
      (initialize' h.engine.tol h.engine.d h.known (h.trialX, y)).map fun e => { h with engine := e, phase := .bracketed }
    else
      let h := if |y| > |h.known.2| then { h with increasing := !h.increasing } else { h with known := (h.trialX, y) }
      let h := { h with stepSize := h.stepSize * expansion }
      some { h with trialX := h.known.1 + sign h.increasing * sign (decide (h.known.2 < 0)) * h.stepSize }

/-- `Brent_::BracketWidth` (`rootfind.cpp` 97). -/
def Hunt.width (h : Hunt K) : Option K := if h.phase = .bracketed then some h.engine.width else none

/-- What a caller does once. -/
def Hunt.step (expansion : K) (f : K → K) (h : Hunt K) : Option (Hunt K) := h.nextX.bind fun p => p.2.putY expansion (f p.1)

/-- A number of such steps. -/
def Hunt.run (expansion : K) (f : K → K) : Nat → Hunt K → Option (Hunt K)
  | 0, h => some h
  | n + 1, h => (Hunt.run expansion f n h).bind (Hunt.step expansion f)

/-- `Converged_` (`rootfind.hpp` 18–26): the state after the value is put, and whether the search is over. -/
def converged (expansion xTol fTol : K) (h : Hunt K) (e : K) : Option (Hunt K × Bool) :=
  (h.putY expansion e).map fun h => (h, decide (|e| < fTol) || (match h.width with | none => false | some w => decide (w < xTol)))

end Dal.Brent
