import Verif.Protocol.RatesModel
import Verif.Strings.EnumProps

/-!
# C64: traded rates

The types are finite, so that the claims are decided over the whole of them.
-/

namespace Dal

open Dal.Protocol (Rate Period Clearer findRate)

/-- The length of a rate in months, by its name. -/
def rateMonths : Rate → Nat
  | .libor3mCme | .libor3mLch | .libor3mFut => 3
  | .libor6mCme | .libor6mLch => 6
  | .notSet => 0

/-- C64: the period of a rate has the length that its name says; the unset rate has neither period nor clearing house. -/
theorem C64_period (sgn : Bool) (r : Rate) : (r ≠ .notSet → ∃ p, r.period sgn = some p ∧ p.months = some (rateMonths r) ∧ ∃ c, r.clearer = some c ∧ c ≠ .notSet) ∧
    (Rate.notSet.period sgn = none ∧ Rate.notSet.clearer = none) := by
  refine ⟨fun h => ?_, rfl, rfl⟩
  have h3 : Period.read sgn "3M".toList = some .quarterly := by cases sgn <;> decide +kernel
  have h6 : Period.read sgn "6M".toList = some .semiannual := by cases sgn <;> decide +kernel
  cases r with
  | notSet => exact absurd rfl h
  | libor3mCme => exact ⟨_, h3, rfl, _, rfl, fun h => (by cases h)⟩
  | libor3mLch => exact ⟨_, h3, rfl, _, rfl, fun h => (by cases h)⟩
  | libor3mFut => exact ⟨_, h3, rfl, _, rfl, fun h => (by cases h)⟩
  | libor6mCme => exact ⟨_, h6, rfl, _, rfl, fun h => (by cases h)⟩
  | libor6mLch => exact ⟨_, h6, rfl, _, rfl, fun h => (by cases h)⟩

private theorem months_period {p : Period} {sgn : Bool} {r : Rate} (h : r.period sgn = some p) : p.months = some (rateMonths r) := by
  have hr : r ≠ .notSet := fun hc => by rw [hc] at h; cases h
  obtain ⟨q, hq, hm, _⟩ := (C64_period sgn r).1 hr
  rw [h] at hq
  rw [Option.some.inj hq, hm]

/-- C64: looking up a rate by its own period and clearing house returns the rate, unless it is the futures rate. -/
theorem C64_roundtrip (sgn : Bool) (r : Rate) (hr : r ≠ .libor3mFut) (p : Period) (c : Clearer) (hp : r.period sgn = some p) (hc : r.clearer = some c) :
    findRate p c = some r := by
  have hm := months_period hp
  cases r with
  | libor3mFut => exact absurd rfl hr
  | notSet => cases hp
  | libor3mCme => cases hc; unfold findRate; rw [hm]; rfl
  | libor3mLch => cases hc; unfold findRate; rw [hm]; rfl
  | libor6mCme => cases hc; unfold findRate; rw [hm]; rfl
  | libor6mLch => cases hc; unfold findRate; rw [hm]; rfl

/-- C64: the futures rate is found as the rate of the same length and clearing house. -/
theorem C64_future (sgn : Bool) (p : Period) (c : Clearer) (hp : Rate.libor3mFut.period sgn = some p) (hc : Rate.libor3mFut.clearer = some c) :
    findRate p c = some .libor3mCme := by
  have hm := months_period hp
  cases hc; unfold findRate; rw [hm]; rfl

/-- C64: a rate that is found has the period and the clearing house it was looked up by, and is never the futures rate. -/
theorem C64_inverse (sgn : Bool) (p : Period) (c : Clearer) (r : Rate) (h : findRate p c = some r) :
    r.period sgn = some p ∧ r.clearer = some c ∧ r ≠ .libor3mFut := by
  have h3 : Period.read sgn "3M".toList = some .quarterly := by cases sgn <;> decide +kernel
  have h6 : Period.read sgn "6M".toList = some .semiannual := by cases sgn <;> decide +kernel
  cases c <;> cases p <;> first | (cases h; done) | (cases h; exact ⟨by first | exact h3 | exact h6, rfl, fun h => (by cases h)⟩)

/-- C64: a combination is refused exactly if the clearing house is unset or the period is neither three nor six months. -/
theorem C64_refused (p : Period) (c : Clearer) : findRate p c = none ↔ c = .notSet ∨ (p.months ≠ some 3 ∧ p.months ≠ some 6) := by
  cases c <;> cases p <;> decide

/-! ### The hypotheses hold -/

example : ∃ r : Rate, r ≠ .libor3mFut ∧ ∃ p c, r.period true = some p ∧ r.clearer = some c :=
  ⟨.libor6mLch, by decide, .semiannual, .lch, by decide +kernel, rfl⟩

example : findRate .quarterly .lch = some .libor3mLch := rfl

end Dal
