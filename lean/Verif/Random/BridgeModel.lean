import Mathlib.Algebra.Field.Basic
import Mathlib.Logic.Function.Basic

/-! # Model of `BrownianBridge_` (dal/math/random/brownianbridge.cpp)

Vectors of indices are lists; a vector of doubles is a function of the index (that all indices used are in range is a theorem about
the index construction).  Doubles are elements of a field; `sq` stands for `std::sqrt`. -/

namespace Dal.Bridge

/-- One round of the loop of `Initialize`: `bridgeIndex_[i]`, `leftIndex_[i]`, `rightIndex_[i]`. -/
structure Step where
  /-- `l` -/
  l : Nat
  /-- `j` -/
  j : Nat
  /-- `k` -/
  k : Nat
  deriving DecidableEq, Repr

/-- The loops of lines 34-35 (`zero = false`: on while the entry is not 0) and 37-38 (`zero = true`: on while it is 0); `none` is
reading past the end of `map`. -/
def scan (zero : Bool) (map : List Nat) : Nat → Nat → Option Nat
  | 0, _ => none
  | fuel + 1, j =>
    match map[j]? with
    | none => none
    | some v => if (v == 0) = zero then scan zero map fuel (j + 1) else some j

/-- The loop of lines 33-56: `count` rounds from `i` on. -/
def loop : Nat → Nat → Nat → List Nat → Option (List Step)
  | 0, _, _, _ => some []
  | count + 1, i, j, map =>
    match scan false map (map.length + 1) j with
    | none => none
    | some j =>
      match scan true map (map.length + 1) j with
      | none => none
      | some k =>
        let l := j + (k - 1 - j) / 2
        let j' := if k + 1 ≥ map.length then 0 else k + 1
        (loop count (i + 1) j' (map.set l i)).map (⟨l, j, k⟩ :: ·)

/-- The index part of `Initialize`, lines 23-57; `none` is an index out of range.  `map[ndim_ - 1]` of an empty vector is out of
range. -/
def init (n : Nat) : Option (List Step) :=
  if n = 0 then none else loop (n - 1) 1 0 ((List.replicate n 0).set (n - 1) 1)

variable {K : Type} [Field K]

/-- Lines 43-51 and 73-76: `deviates[l]` of one round, with its weights. -/
def value (sq : K → K) (t : Nat → K) (s : Step) (z : K) (w : Nat → K) : K :=
  if s.j ≠ 0 then
    (t s.k - t s.l) / (t s.k - t (s.j - 1)) * w (s.j - 1) + (t s.l - t (s.j - 1)) / (t s.k - t (s.j - 1)) * w s.k
      + sq (((t s.l - t (s.j - 1)) * (t s.k - t s.l)) / (t s.k - t (s.j - 1))) * z
  else t s.l / t s.k * w s.k + sq (t s.l * (t s.k - t s.l) / t s.k) * z

/-- The loop of lines 69-77 from round `i` on. -/
def build (sq : K → K) (t z : Nat → K) : List Step → Nat → (Nat → K) → (Nat → K)
  | [], _, w => w
  | s :: r, i, w => build sq t z r (i + 1) (Function.update w s.l (value sq t s (z i) w))

/-- Lines 24-26. -/
def sqrtdt (sq : K → K) (t : Nat → K) : Nat → K
  | 0 => sq (t 0)
  | i + 1 => sq (t (i + 1) - t i)

/-- The loop of lines 80-83, from `i` down to 1. -/
def vary (d : Nat → K) : Nat → (Nat → K) → (Nat → K)
  | 0, w => w
  | i + 1, w => vary d i (Function.update w (i + 1) ((w (i + 1) - w i) / d (i + 1)))

/-- `FillNormal`, lines 65-85, from the inner deviates `z` and the old contents `w0` of the vector. -/
def fillNormal (sq : K → K) (t : Nat → K) (n : Nat) (steps : List Step) (z w0 : Nat → K) : Nat → K :=
  let w := Function.update w0 (n - 1) (sq (t (n - 1)) * z 0)
  let w := build sq t z steps 1 w
  let w := vary (sqrtdt sq t) (n - 1) w
  Function.update w 0 (w 0 / sqrtdt sq t 0)

/-- The times, lines 17-18. -/
def times (i : Nat) : K := (i : K) + 1

end Dal.Bridge
