import Mathlib.Tactic.Ring
import Mathlib.Tactic.FieldSimp
import Mathlib.Tactic.Linarith
import Mathlib.Tactic.NormNum
import Mathlib.Algebra.BigOperators.Group.Finset.Basic
import Mathlib.Algebra.BigOperators.Intervals
import Mathlib.Algebra.Order.BigOperators.Group.Finset
import Verif.Time.DayBasisModel
import Verif.Time.DateProps

/-! # C14: day-count fractions -/

namespace Dal
open Date Spec DayBasis

/-- Days in a calendar year. -/
def yearDays (y : Int) : Rat := if isLeap y then 366 else 365

/-- ACT/ACT as a specification: every day counts for one over the length of its own year. -/
def actActSpec (a : Date) (n : Nat) : Rat :=
  ∑ i ∈ Finset.range n, 1 / yearDays (year ⟨a.serial + i⟩)

theorem sub_eq (a b : Date) : sub b a = (b.serial : Int) - a.serial := by
  simp only [sub, toExcel]; omega

/-- ACT/360 and ACT/365F: additive, antisymmetric, ordered like the dates, and exactly days / 360 or
365. -/
theorem C14_act_fixed (a b c : Date) :
    act360 a c = act360 a b + act360 b c ∧ act365F a c = act365F a b + act365F b c ∧
    act360 b a = - act360 a b ∧ act365F b a = - act365F a b ∧
    (0 ≤ act360 a b ↔ a.serial ≤ b.serial) ∧ (0 ≤ act365F a b ↔ a.serial ≤ b.serial) ∧
    360 * act360 a b = sub b a ∧ 365 * act365F a b = sub b a := by
  have h0 : ∀ k : Rat, 0 < k → (0 ≤ ((sub b a : Int) : Rat) / k ↔ a.serial ≤ b.serial) := by
    intro k hk
    rw [le_div_iff₀ hk, zero_mul, ← Int.cast_zero, Int.cast_le, sub_eq]; omega
  refine ⟨?_, ?_, ?_, ?_, h0 _ (by norm_num), h0 _ (by norm_num), ?_, ?_⟩
  · simp only [act360, sub_eq]; push_cast; ring
  · simp only [act365F, sub_eq]; push_cast; ring
  · simp only [act360, sub_eq]; push_cast; ring
  · simp only [act365F, sub_eq]; push_cast; ring
  · simp only [act360]; ring
  · simp only [act365F]; ring

example : act360 (mk' 2024 1 1) (mk' 2024 7 1) = 182 / 360 := by decide +kernel

/-- The year of every date, by position between two New Year's days. -/
theorem year_of_serial {x : Date} (hx : x.Valid) {y : Int} (h1 : dayNum y 1 1 < x.serial)
    (h2 : (x.serial : Int) ≤ dayNum (y + 1) 1 1) : year x = y := by
  obtain ⟨e, r, _⟩ := ymd_spec hx
  have r1 : ∀ y, RealDate y 1 1 := fun y => realDate_first (by decide) (by decide)
  have m1 := r.m1; have d1 := r.d1
  rcases lt_trichotomy (year x) y with h | h | h
  · exfalso
    have := dayNum_lt r (r1 y) (by simp only [before]; left; exact h)
    clear * - this e h1
    generalize dayNum (year x) (month x) (day x) = a at *
    generalize dayNum y 1 1 = b at *
    omega
  · exact h
  · exfalso
    have hle : dayNum (y + 1) 1 1 ≤ dayNum (year x) (month x) (day x) := by
      by_cases hq : before (y + 1, 1, 1) (year x, month x, day x)
      · exact le_of_lt (dayNum_lt (r1 _) r hq)
      · have : y + 1 = year x ∧ month x = 1 ∧ day x = 1 := by
          simp only [before] at hq
          clear * - hq m1 d1 h
          generalize year x = yx at *
          generalize month x = mx at *
          generalize day x = dx at *
          omega
        rw [this.1, this.2.1, this.2.2]
    clear * - hle e h2
    generalize dayNum (year x) (month x) (day x) = a at *
    generalize dayNum (y + 1) 1 1 = b at *
    omega

theorem year_bounds {x : Date} (hx : x.Valid) :
    dayNum (year x) 1 1 < x.serial ∧ (x.serial : Int) ≤ dayNum (year x + 1) 1 1 := by
  obtain ⟨e, r, _⟩ := ymd_spec hx
  have r1 : ∀ y, RealDate y 1 1 := fun y => realDate_first (by decide) (by decide)
  have m1 := r.m1; have d1 := r.d1
  have h2 := dayNum_lt r (r1 (year x + 1)) (by
    simp only [before]; left; exact Int.lt_succ _)
  have hle : dayNum (year x) 1 1 ≤ dayNum (year x) (month x) (day x) := by
    by_cases hq : before (year x, 1, 1) (year x, month x, day x)
    · exact le_of_lt (dayNum_lt (r1 _) r hq)
    · have : month x = 1 ∧ day x = 1 := by
        simp only [before, lt_self_iff_false, false_or, true_and] at hq
        clear * - hq m1 d1
        generalize month x = mx at *
        generalize day x = dx at *
        omega
      rw [this.1, this.2]
  rw [e] at hle h2
  clear * - hle h2
  generalize dayNum (year x) 1 1 = b at *
  generalize dayNum (year x + 1) 1 1 = c at *
  omega

theorem yearDays_eq (y : Int) : ((dayNum (y + 1) 1 1 - dayNum y 1 1 : Int) : Rat) = yearDays y := by
  have e : dayNum (y + 1) 1 1 - dayNum y 1 1 = if isLeap y then 366 else 365 := by
    have hl := leap_diff y
    simp [dayNum, cum]
    cases h : isLeap y <;> simp_all <;> omega
  rw [e]; unfold yearDays; split <;> simp

/-- Years whose 1 January is computed correctly. -/
def SafeYear (y : Int) : Prop := (1970 ≤ y ∧ y ≤ 2034) ∨ (2101 ≤ y ∧ y ≤ 2149)

theorem newYear_serial {y : Int} (h : SafeYear y) :
    ((mk' y 1 1).serial : Int) = dayNum y 1 1 + 1 := by
  have r : RealDate y 1 1 := realDate_first (by decide) (by decide)
  rw [mk'_serial r (inRange_of_month (by unfold SafeYear at h; omega) (by decide)
    (by unfold SafeYear at h; omega)), if_neg (by unfold gap; unfold SafeYear at h; omega)]
  omega

theorem yearDays_pos (y : Int) : 0 < yearDays y := by unfold yearDays; split <;> norm_num

theorem actActSpec_const {a : Date} {n : Nat} {y : Int}
    (h : ∀ i < n, year ⟨a.serial + i⟩ = y) : actActSpec a n = n / yearDays y := by
  unfold actActSpec
  rw [Finset.sum_congr rfl (g := fun _ => 1 / yearDays y)
    (fun i hi => by rw [h i (Finset.mem_range.1 hi)])]
  rw [Finset.sum_const, Finset.card_range, nsmul_eq_mul]
  ring

theorem actActSpec_add (a : Date) (m n : Nat) :
    actActSpec a (m + n) = actActSpec a m + actActSpec ⟨a.serial + m⟩ n := by
  unfold actActSpec
  rw [Finset.sum_range_add]
  simp only [Nat.add_assoc]

/-- FULL CLAIM (false, see `C14_actAct_violated`): ACT/ACT of any two ordered dates is the sum over
the days from the first (included) to the second (excluded) of one over the length of the day's
year.  PROVED PART: periods ending by 2034-01-01, and periods inside 2101-01-01..2149-01-01. -/
theorem C14_actAct_is_daily_sum_partial (a b : Date) (ha : a.Valid) (hb : b.Valid)
    (hab : a.serial < b.serial)
    (hz : b.serial ≤ (mk' 2034 1 1).serial ∨
      (mk' 2101 1 1).serial ≤ a.serial ∧ b.serial ≤ (mk' 2149 1 1).serial) :
    ∃ fuel₀, ∀ fuel ≥ fuel₀, actAct fuel a b = some (actActSpec a (b.serial - a.serial)) := by
  have s34 := newYear_serial (y := 2034) (by unfold SafeYear; omega)
  have s01 := newYear_serial (y := 2101) (by unfold SafeYear; omega)
  have s49 := newYear_serial (y := 2149) (by unfold SafeYear; omega)
  have e34 : dayNum 2034 1 1 = 23376 := by decide +kernel
  have e01 : dayNum 2101 1 1 = 47847 := by decide +kernel
  have e49 : dayNum 2149 1 1 = 65379 := by decide +kernel
  generalize mk' 2034 1 1 = D34 at *
  generalize mk' 2101 1 1 = D01 at *
  generalize mk' 2149 1 1 = D49 at *
  rw [e34] at s34; rw [e01] at s01; rw [e49] at s49
  have hz' : b.serial ≤ 23377 ∨ 47848 ≤ a.serial ∧ b.serial ≤ 65380 := by omega
  clear hz s34 s01 s49 D34 D01 D49
  obtain ⟨n, hn⟩ : ∃ n, b.serial - a.serial = n := ⟨_, rfl⟩
  induction n using Nat.strong_induction_on generalizing a with
  | _ n ih =>
    obtain ⟨y1, y2⟩ := year_bounds ha
    have hmono : ∀ y y' : Int, y < y' → dayNum y 1 1 < dayNum y' 1 1 := fun y y' h =>
      dayNum_lt (realDate_first (by decide) (by decide)) (realDate_first (by decide) (by decide))
        (by simp only [before]; left; exact h)
    have hyr := (ymd_spec ha).2.2
    have hya : (1970 ≤ year a ∧ year a ≤ 2033) ∨ (2101 ≤ year a ∧ year a ≤ 2148) := by
      by_contra hc
      have hc' : (2034 ≤ year a ∧ year a ≤ 2100) ∨ 2149 ≤ year a := by
        clear * - hc hyr; generalize year a = y at *; omega
      have m1 : 2034 ≤ year a → dayNum 2034 1 1 ≤ dayNum (year a) 1 1 := fun h => by
        rcases eq_or_lt_of_le h with h | h
        · rw [h]
        · exact le_of_lt (hmono _ _ h)
      have m2 : year a ≤ 2100 → dayNum (year a + 1) 1 1 ≤ dayNum 2101 1 1 := fun h => by
        rcases eq_or_lt_of_le h with h | h
        · rw [h]; exact le_refl _
        · exact le_of_lt (hmono _ _ (by clear * - h; omega))
      have m3 : 2149 ≤ year a → dayNum 2149 1 1 ≤ dayNum (year a) 1 1 := fun h => by
        rcases eq_or_lt_of_le h with h | h
        · rw [h]
        · exact le_of_lt (hmono _ _ h)
      rw [e34] at m1; rw [e01] at m2; rw [e49] at m3
      clear * - hc' m1 m2 m3 y1 y2 hz' hab
      generalize dayNum (year a) 1 1 = u at *
      generalize dayNum (year a + 1) 1 1 = v at *
      generalize year a = y at *
      rcases hc' with ⟨h, h'⟩ | h
      · have := m1 h; have := m2 h'; omega
      · have := m3 h; omega
    have n0 := newYear_serial (y := year a) (by unfold SafeYear; clear * - hya; generalize year a = y at *; omega)
    have n1 := newYear_serial (y := year a + 1) (by unfold SafeYear; clear * - hya; generalize year a = y at *; omega)
    have hden : ((sub (mk' (year a + 1) 1 1) (mk' (year a) 1 1) : Int) : Rat) = yearDays (year a) := by
      rw [← yearDays_eq, sub_eq, n0, n1]; push_cast; ring
    have hseg : ∀ k : Nat, (a.serial : Int) + k ≤ dayNum (year a + 1) 1 1 + 1 →
        actActSpec a k = k / yearDays (year a) := by
      intro k hk
      apply actActSpec_const
      intro i hi
      have ha1 := ha.1
      apply year_of_serial
      · refine ⟨by simp only; omega, ?_⟩
        have hb2 : dayNum (year a + 1) 1 1 ≤ 65379 := by
          rw [← e49]
          by_cases h : year a + 1 = 2149
          · rw [h]
          · exact le_of_lt (hmono _ _ (by clear * - h hya; generalize year a = y at *; omega))
        clear * - hb2 hk hi
        generalize dayNum (year a + 1) 1 1 = v at *
        simp only; omega
      · clear * - y1; push_cast; generalize dayNum (year a) 1 1 = v at *; omega
      · clear * - hk hi; push_cast; generalize dayNum (year a + 1) 1 1 = v at *; omega
    by_cases hle : b.serial ≤ (mk' (year a + 1) 1 1).serial
    · refine ⟨1, fun fuel hf => ?_⟩
      obtain ⟨f, rfl⟩ : ∃ f, fuel = f + 1 := ⟨fuel - 1, by omega⟩
      rw [actAct]
      simp only [hle, if_true, hden]
      rw [hseg (b.serial - a.serial) (by
        rw [← n1]; clear * - hle hab; generalize (mk' (year a + 1) 1 1).serial = N at *; omega), sub_eq]
      have hcast : (((b.serial : Int) - a.serial : Int) : Rat) = ((b.serial - a.serial : Nat) : Rat) := by
        rw [Nat.cast_sub (le_of_lt hab)]; push_cast; ring
      rw [hcast]
    · have hv1 : (mk' (year a + 1) 1 1).Valid := by
        have hb2 := hb.2
        clear * - hb2 hle n1 y2 y1
        unfold Date.Valid
        generalize (mk' (year a + 1) 1 1).serial = N at *
        generalize dayNum (year a + 1) 1 1 = v at *
        omega
      have hlt : a.serial < (mk' (year a + 1) 1 1).serial := by
        clear * - n1 y2
        generalize (mk' (year a + 1) 1 1).serial = N at *
        generalize dayNum (year a + 1) 1 1 = v at *
        omega
      obtain ⟨f0, hf0⟩ := ih (b.serial - (mk' (year a + 1) 1 1).serial) (by
          clear * - hle hlt hn; generalize (mk' (year a + 1) 1 1).serial = N at *; omega)
        (mk' (year a + 1) 1 1) hv1 (by
          clear * - hle; generalize (mk' (year a + 1) 1 1).serial = N at *; omega) (by
          clear * - hz' hlt; generalize (mk' (year a + 1) 1 1).serial = N at *; omega) rfl
      refine ⟨f0 + 1, fun fuel hf => ?_⟩
      obtain ⟨f, rfl⟩ : ∃ f, fuel = f + 1 := ⟨fuel - 1, by omega⟩
      rw [actAct]
      simp only [hle, if_false, hden]
      rw [hf0 f (by omega), Option.map_some]
      refine congrArg some ?_
      have hsplit : b.serial - a.serial = ((mk' (year a + 1) 1 1).serial - a.serial) +
          (b.serial - (mk' (year a + 1) 1 1).serial) := by
        clear * - hle hlt; generalize (mk' (year a + 1) 1 1).serial = N at *; omega
      have hmk : (⟨a.serial + ((mk' (year a + 1) 1 1).serial - a.serial)⟩ : Date) = mk' (year a + 1) 1 1 := by
        have h1 : a.serial + ((mk' (year a + 1) 1 1).serial - a.serial) = (mk' (year a + 1) 1 1).serial := by
          clear * - hlt; generalize (mk' (year a + 1) 1 1).serial = N at *; omega
        rw [h1]
      rw [hsplit, actActSpec_add, hmk, hseg ((mk' (year a + 1) 1 1).serial - a.serial) (by
        rw [← n1]; clear * - hlt; generalize (mk' (year a + 1) 1 1).serial = N at *; omega), sub_eq]
      have hcast : ((((mk' (year a + 1) 1 1).serial : Int) - a.serial : Int) : Rat) =
          (((mk' (year a + 1) 1 1).serial - a.serial : Nat) : Rat) := by
        rw [Nat.cast_sub (le_of_lt hlt)]; push_cast; ring
      rw [hcast]

example : (mk' 2023 7 1).Valid ∧ (mk' 2025 7 1).Valid ∧ (mk' 2023 7 1).serial < (mk' 2025 7 1).serial ∧
    (mk' 2025 7 1).serial ≤ (mk' 2034 1 1).serial ∧
    actAct 10 (mk' 2023 7 1) (mk' 2025 7 1) = some (184 / 365 + 1 + 181 / 365) := by decide +kernel

/-- Consequence in the proved zone: ACT/ACT is additive over adjacent periods and positive. -/
theorem C14_actAct_additive_partial (a b c : Date) (ha : a.Valid) (hb : b.Valid) (hc : c.Valid)
    (hab : a.serial < b.serial) (hbc : b.serial < c.serial)
    (hz : c.serial ≤ (mk' 2034 1 1).serial ∨
      (mk' 2101 1 1).serial ≤ a.serial ∧ c.serial ≤ (mk' 2149 1 1).serial) :
    ∃ fuel₀ x y, ∀ fuel ≥ fuel₀, actAct fuel a b = some x ∧ actAct fuel b c = some y ∧
      actAct fuel a c = some (x + y) ∧ 0 < x ∧ 0 < y := by
  obtain ⟨f1, h1⟩ := C14_actAct_is_daily_sum_partial a b ha hb hab (by
    clear * - hz hab hbc; omega)
  obtain ⟨f2, h2⟩ := C14_actAct_is_daily_sum_partial b c hb hc hbc (by
    clear * - hz hab hbc; omega)
  obtain ⟨f3, h3⟩ := C14_actAct_is_daily_sum_partial a c ha hc (hab.trans hbc) hz
  have hpos : ∀ (d : Date) (n : Nat), 0 < n → 0 < actActSpec d n := by
    intro d n hn
    unfold actActSpec
    exact Finset.sum_pos (fun i _ => div_pos one_pos (yearDays_pos _)) ⟨0, Finset.mem_range.2 hn⟩
  refine ⟨max f1 (max f2 f3), _, _, fun fuel hf => ⟨h1 fuel (by omega), h2 fuel (by omega), ?_,
    hpos _ _ (by omega), hpos _ _ (by omega)⟩⟩
  rw [h3 fuel (by omega), show c.serial - a.serial = (b.serial - a.serial) + (c.serial - b.serial) by omega,
    actActSpec_add]
  have : (⟨a.serial + (b.serial - a.serial)⟩ : Date) = b := by
    have : a.serial + (b.serial - a.serial) = b.serial := by omega
    rw [this]
  rw [this]

/-- From 31 December 2034 to anything later the recursion never ends (the constructed 1 January 2035
is 31 December 2034 itself). -/
theorem C14_actAct_violated (fuel : Nat) (b : Date) (hb : (mk' 2035 1 1).serial < b.serial) :
    ymd (mk' 2035 1 1) = (2034, 12, 31) ∧ actAct fuel (mk' 2035 1 1) b = none := by
  refine ⟨by decide +kernel, ?_⟩
  have e1 : year (mk' 2035 1 1) = 2034 := by decide +kernel
  induction fuel with
  | zero => rfl
  | succ f ih =>
    rw [actAct, e1]
    simp only [show (2034 : Int) + 1 = 2035 from rfl]
    rw [if_neg (by omega), ih]; rfl

example : (mk' 2035 1 1).serial < (mk' 2040 1 1).serial := by decide +kernel

/-- ACT/ACT is not antisymmetric across years: going back over New Year uses one year's length for
the whole period. -/
theorem C14_actAct_not_antisymmetric :
    actAct 5 (mk' 2024 12 1) (mk' 2025 2 1) = some (31 / 366 + 31 / 365) ∧
    actAct 5 (mk' 2025 2 1) (mk' 2024 12 1) = some (-62 / 365) := by decide +kernel

/-- ACT/365L with annual coupons does not return whenever the nominal end is on or after 1 March of
the first February's year and that year is not a leap year. -/
theorem C14_act365L_does_not_terminate (fuel : Nat) (a b e : Date) (yy : Int)
    (hyy : yy = if month (addDays a 1) > 2 then year (addDays a 1) + 1 else year (addDays a 1))
    (hend : ¬ lt e (mk' yy 3 1)) (hleap : daysInMonth yy 2 ≠ 29) :
    act365L fuel a b true e = none := by
  have loop : ∀ f, annualDaysLLoop f 2 yy e = none := by
    intro f
    induction f with
    | zero => rfl
    | succ f ih =>
      rw [annualDaysLLoop]
      simp only [show ¬ ((2 : Int) > 2) by decide, if_false, hend, hleap, ih]
  have : annualDaysL fuel a e = none := by
    unfold annualDaysL
    cases fuel with
    | zero => rfl
    | succ f => rw [annualDaysLLoop]; simp only [← hyy, hend, hleap, if_false, loop]
  simp [act365L, this]

example : ¬ lt (mk' 2023 6 15) (mk' 2023 3 1) ∧ daysInMonth 2023 2 ≠ 29 ∧
    month (addDays (mk' 2022 6 15) 1) > 2 ∧ year (addDays (mk' 2022 6 15) 1) + 1 = 2023 := by
  unfold lt; decide +kernel

/-- FULL CLAIM: ACT/365L counts days over 366 when a 29 February falls in the (nominal) year and
over 365 otherwise; false as above.  PROVED PART: when the search returns, it returns 365 or 366,
and 366 only if February of the year examined has 29 days. -/
theorem C14_act365L_partial (fuel : Nat) (a e : Date) (n : Rat) (h : annualDaysL fuel a e = some n) :
    ∃ yy, yy = (if month (addDays a 1) > 2 then year (addDays a 1) + 1 else year (addDays a 1)) ∧
      ((n = 365 ∧ lt e (mk' yy 3 1)) ∨ (n = 366 ∧ ¬ lt e (mk' yy 3 1) ∧ daysInMonth yy 2 = 29)) := by
  refine ⟨_, rfl, ?_⟩
  generalize hyy : (if month (addDays a 1) > 2 then year (addDays a 1) + 1 else year (addDays a 1)) = yy
  unfold annualDaysL at h
  cases fuel with
  | zero => simp [annualDaysLLoop] at h
  | succ f =>
    rw [annualDaysLLoop] at h
    simp only [hyy] at h
    by_cases h1 : lt e (mk' yy 3 1)
    · simp only [h1, if_true, Option.some.injEq] at h; exact Or.inl ⟨h.symm, h1⟩
    · by_cases h2 : daysInMonth yy 2 = 29
      · simp only [h1, h2, if_true, if_false, Option.some.injEq] at h; exact Or.inr ⟨h.symm, h1, h2⟩
      · exfalso
        simp only [h1, h2, if_false] at h
        have loop : ∀ f, annualDaysLLoop f 2 yy e = none := by
          intro f
          induction f with
          | zero => rfl
          | succ f ih =>
            rw [annualDaysLLoop]
            simp only [show ¬ ((2 : Int) > 2) by decide, if_false, h1, h2, ih]
        rw [loop] at h; simp at h

example : annualDaysL 5 (mk' 2023 6 15) (mk' 2024 6 15) = some 366 ∧
    annualDaysL 5 (mk' 2023 1 15) (mk' 2023 2 15) = some 365 := by decide +kernel

/-! ### 30/360 -/

/-- The 30/360 bond rule on day numbers (US): a day 31 counts as 30 when it starts the period, and
when it ends a period that starts on the 30th or 31st. -/
def bondSpecDays (d1 d2 : Int) : Int × Int :=
  let d1' := if d1 = 31 then 30 else d1
  (d1', if d2 = 31 ∧ d1' = 30 then 30 else d2)

/-- FULL CLAIM (false, see `C14_bond_violated`): outside February the bond basis is
`(360 Δyear + 30 Δmonth + Δday) / 360` with the days adjusted by `bondSpecDays`.  PROVED PART: for
periods that start on the 1st to 29th, and from a 31st to a 31st. -/
theorem C14_bond_partial (a b : Date) (hm : month a ≠ 2)
    (hd : day a ≤ 29 ∨ (day a = 31 ∧ day b = 31)) :
    360 * bond a b = (360 * (year b - year a) + 30 * (month b - month a)
      + ((bondSpecDays (day a) (day b)).2 - (bondSpecDays (day a) (day b)).1) : Int) := by
  have hb : (bondDays a b).2 - (bondDays a b).1 =
      (bondSpecDays (day a) (day b)).2 - (bondSpecDays (day a) (day b)).1 := by
    unfold bondDays
    simp only [hm, false_and, if_false]
    rcases hd with h | ⟨h, h'⟩
    · have n1 : ¬ (day a > 30) := by clear * - h; generalize day a = x at *; omega
      have n2 : ¬ (day a = 31) := by clear * - h; generalize day a = x at *; omega
      have n3 : ¬ (day a = 30) := by clear * - h; generalize day a = x at *; omega
      simp only [n1, if_false, bondSpecDays, n2, n3, and_false]
    · simp only [h, h', bondSpecDays]; decide
  unfold bond
  rw [hb]; ring

/-- Whole months between equal day numbers count exactly one twelfth each, including from the last
day of a (non-February) month with 31 days to another. -/
theorem C14_bond_whole_months (a b : Date) (hm : month a ≠ 2) (hd : day a = day b) :
    12 * bond a b = (12 * (year b - year a) + (month b - month a) : Int) := by
  have hb : (bondDays a b).2 - (bondDays a b).1 = 0 := by
    unfold bondDays
    simp only [hm, false_and, if_false, hd]
    split <;> simp
  unfold bond
  rw [hb]; push_cast; ring

example : month (mk' 2024 1 31) ≠ 2 ∧ day (mk' 2024 1 31) = day (mk' 2024 3 31) ∧
    bond (mk' 2024 1 31) (mk' 2024 3 31) = 2 / 12 := by decide +kernel

/-- A period from the 30th to the 31st is not capped: 61 days for two months. -/
theorem C14_bond_violated : bond (mk' 2024 1 30) (mk' 2024 3 31) = 61 / 360 ∧
    bondSpecDays 30 31 = (30, 30) := by decide +kernel

/-- FULL CLAIM (false, see `C14_act365L_year_violated`): without annual coupons, ACT/365L divides by the days of the calendar year of the nominal end. PROVED
PART: every such year but 2034 and 2100. -/
theorem C14_act365L_year_partial (fuel : Nat) (a b e : Date) (h1 : 1970 ≤ year e) (h2 : year e ≤ 2148) (h3 : year e ≠ 2034) (h4 : year e ≠ 2100) :
    act365L fuel a b false e = some ((sub b a : Rat) / yearDays (year e)) := by
  have key : ∀ k : Fin 179, (1970 + (k : Int)) ≠ 2034 → (1970 + (k : Int)) ≠ 2100 →
      sub (mk' (1970 + (k : Int) + 1) 1 1) (mk' (1970 + (k : Int)) 1 1) = if isLeap (1970 + (k : Int)) then 366 else 365 := by decide +kernel
  obtain ⟨k, hk⟩ : ∃ k : Fin 179, 1970 + (k : Int) = year e := ⟨⟨(year e - 1970).toNat, by omega⟩, by simp only; omega⟩
  have hk' := key k
  rw [hk] at hk'
  have hd : daysL e = yearDays (year e) := by
    unfold daysL yearDays
    rw [hk' h3 h4]
    split <;> norm_num
  simp only [act365L, Bool.false_eq_true, if_false, hd]

/-- For 2034 the divisor is 364, for 2100 it is 366. -/
theorem C14_act365L_year_violated : daysL (mk' 2034 1 15) = 364 ∧ daysL (mk' 2100 5 15) = 366 ∧ yearDays 2034 = 365 ∧ yearDays 2100 = 365 := by decide +kernel

example : act365L 0 (mk' 2024 1 1) (mk' 2024 7 1) false (mk' 2024 7 1) = some (182 / 366) := by decide +kernel

end Dal
