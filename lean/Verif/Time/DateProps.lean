import Verif.Time.DateLemmas2
import Mathlib.Data.Rat.Floor
import Mathlib.Tactic.Linarith
import Mathlib.Tactic.NormNum

/-! # C01 - C05: properties of `Date_` -/

namespace Dal
open Date Spec

/-! ## C01 -/

/-- Every valid date shows the calendar day obtained by walking day by day from 1970-01-01
(serial 1). -/
theorem C01_ymd_of_every_date (d : Date) (h : d.Valid) :
    (year d, month d, day d) = dayAfterEpoch (d.serial - 1) := by
  obtain ⟨a, b, _⟩ := ymd_spec h
  exact eq_dayAfterEpoch b _ (by rw [a]; have := h.1; omega)

example : (Date.mk 60).Valid ∧ dayAfterEpoch 59 = (1970, 3, 1) := by decide

/-- FULL CLAIM (false for the code, see `C01_violated`): for every calendar day from 1970-01-01 to
2149-06-05 the constructor followed by Year/Month/Day returns the arguments.
PROVED PART: all such days outside 2034-03-01 .. 2100-02-28. -/
theorem C01_ctor_roundtrip_partial (y m d : Int) (h : RealDate y m d) (hr : InRange y m d)
    (hg : before (y, m, d) (2034, 3, 1) ∨ ¬ before (y, m, d) (2100, 3, 1)) :
    (mk' y m d).Valid ∧ year (mk' y m d) = y ∧ month (mk' y m d) = m ∧ day (mk' y m d) = d := by
  have hng : ¬ gap y m := by
    have := h.d1; simp only [before] at hg; simp only [gap]; omega
  have hs := mk'_serial h hr
  rw [if_neg hng] at hs
  have hd := (inRange_iff h).1 hr
  have hv : (mk' y m d).Valid := ⟨by omega, by omega⟩
  have := ymd_eq_of_serial hv h (by omega)
  simp only [ymd, Prod.mk.injEq] at this
  exact ⟨hv, this⟩

example : RealDate 2024 2 29 ∧ InRange 2024 2 29 ∧ before (2024, 2, 29) (2034, 3, 1) :=
  ⟨⟨by decide, by decide, by decide, by decide⟩, by decide, by simp [before]⟩

/-- Inside the window 2034-03-01 .. 2100-02-28 the constructor returns the day before. -/
theorem C01_ctor_gap_is_one_day_early (y m d : Int) (h : RealDate y m d)
    (h1 : ¬ before (y, m, d) (2034, 3, 1)) (h2 : before (y, m, d) (2100, 3, 1)) :
    (mk' y m d).Valid ∧
      nextDay (year (mk' y m d), month (mk' y m d), day (mk' y m d)) = (y, m, d) := by
  have hg : gap y m := by
    have := h.d1; have := h.m1; simp only [before] at h1 h2; simp only [gap]; omega
  have hr : InRange y m d := by
    simp only [gap] at hg; simp only [InRange, before]; omega
  have hs := mk'_serial h hr
  rw [if_pos hg] at hs
  have hd := (inRange_iff h).1 hr
  have h34 : RealDate 2034 3 1 := ⟨by decide, by decide, by decide, by decide⟩
  have e34 : dayNum 2034 3 1 = 23435 := by decide
  have hlow : 23435 ≤ dayNum y m d := by
    rcases before_trichotomy (y, m, d) (2034, 3, 1) with hb | hb | hb
    · exact absurd hb h1
    · simp only [Prod.mk.injEq] at hb; obtain ⟨rfl, rfl, rfl⟩ := hb; omega
    · have := dayNum_lt h34 h hb; omega
  have hv : (mk' y m d).Valid := ⟨by omega, by omega⟩
  refine ⟨hv, ?_⟩
  obtain ⟨a, b, _⟩ := ymd_spec hv
  have hn := dayNum_nextDay b
  obtain ⟨e1, e2, e3⟩ := dayNum_inj (realDate_nextDay b) h (by omega)
  exact Prod.ext e1 (Prod.ext e2 e3)

example : RealDate 2050 7 4 ∧ ¬ before (2050, 7, 4) (2034, 3, 1) ∧ before (2050, 7, 4) (2100, 3, 1) :=
  ⟨⟨by decide, by decide, by decide, by decide⟩, by simp [before], by simp [before]⟩

/-- The full round trip fails. -/
theorem C01_violated : ¬ ∀ y m d : Int, RealDate y m d → InRange y m d →
    (year (mk' y m d), month (mk' y m d), day (mk' y m d)) = (y, m, d) := by
  intro h
  exact absurd (h 2034 3 1 ⟨by decide, by decide, by decide, by decide⟩ (by decide)) (by decide)

/-- A calendar day that 16 bits cannot hold gives the invalid date. -/
theorem C01_out_of_range_invalid (y m d : Int) (h : RealDate y m d) (hr : ¬ InRange y m d) :
    (mk' y m d).serial = 0 := mk'_out_of_range h hr

example : RealDate 1969 12 31 ∧ ¬ InRange 1969 12 31 ∧ RealDate 2149 6 6 ∧ ¬ InRange 2149 6 6 :=
  ⟨⟨by decide, by decide, by decide, by decide⟩, by decide,
   ⟨by decide, by decide, by decide, by decide⟩, by decide⟩

/-- Excel serials round trip, and unsupported ones give the invalid date. -/
theorem C01_excel_roundtrip :
    (∀ d : Date, d.Valid → fromExcel (toExcel d) = d) ∧
    (∀ xl : Int, (fromExcel xl).Valid → toExcel (fromExcel xl) = xl) ∧
    (∀ xl : Int, (fromExcel xl).Valid ↔ 25569 ≤ xl ∧ xl ≤ 91103) := by
  have e : excelOffset = 25568 := rfl
  refine ⟨?_, ?_, ?_⟩
  · rintro ⟨s⟩ ⟨h0, h1⟩
    simp only at h0 h1
    unfold fromExcel toExcel
    simp only
    rw [if_pos (by omega), toU16_of_range (by omega) (by omega)]
    simp only [Date.mk.injEq]; omega
  · intro xl h
    unfold fromExcel at h ⊢
    split at h
    · rename_i hc
      rw [if_pos hc]
      simp only [toExcel]
      rw [toU16_of_range (by omega) (by omega)]; omega
    · simp [Date.Valid] at h
  · intro xl
    unfold fromExcel
    split
    · rename_i hc
      simp only [Date.Valid]
      rw [toU16_of_range (by omega) (by omega)]; omega
    · simp only [Date.Valid]; omega

/-- C++ conversion of a floating-point value to `int`: truncation toward zero. -/
def truncQ (x : ℚ) : ℤ := if 0 ≤ x then ⌊x⌋ else ⌈x⌉

/-- `ExcelDateToYMD` (date.cpp:15-27) with each of the five floating-point expressions evaluated
with an arbitrary rounding `fl i`. -/
def toYMDfl (fl : Fin 5 → ℚ → ℚ) (xl : Int) : Int × Int × Int :=
  let s := xl + 2415019
  let alpha := truncQ (fl 0 (((s : ℚ) - 1867216.25) / 36524.25))
  let A := s + 1 + alpha - alpha.tdiv 4
  let B := A + 1524
  let C := truncQ (fl 1 (((B : ℚ) - 122.1) / 365.25))
  let D := truncQ (fl 2 (365.25 * (C : ℚ)))
  let E := truncQ (fl 3 (((B : ℚ) - (D : ℚ)) / 30.6001))
  let dd := B - D - truncQ (fl 4 (30.6001 * (E : ℚ)))
  let m := E - (if E > 13 then 13 else 1)
  let y := C - (if m > 2 then 4716 else 4715)
  (y, m, dd)

theorem truncQ_fl {fl : ℚ → ℚ} (herr : ∀ x, 0 ≤ x → x ≤ 10000000 → |fl x - x| ≤ 1 / 1000000)
    (hint : ∀ n : ℤ, fl n = n) {a b : ℤ} (hb : 0 < b) (hb' : b < 1000000) (ha : 0 ≤ a)
    (hab : a ≤ 10000000 * b) : truncQ (fl ((a : ℚ) / b)) = a.tdiv b := by
  rw [Int.tdiv_eq_ediv_of_nonneg ha]
  have hbq : (0 : ℚ) < b := by exact_mod_cast hb
  have hq0 : 0 ≤ a / b := Int.ediv_nonneg ha hb.le
  have hmod := Int.emod_add_mul_ediv a b
  have hm0 := Int.emod_nonneg a hb.ne'
  have hm1 := Int.emod_lt_of_pos a hb
  have hx : (a : ℚ) / b = (a / b : ℤ) + ((a % b : ℤ) : ℚ) / b := by
    field_simp
    exact_mod_cast (by linarith : a = b * (a / b) + a % b)
  have hx0 : (0 : ℚ) ≤ (a : ℚ) / b := by positivity
  have hx1 : (a : ℚ) / b ≤ 10000000 := by
    rw [div_le_iff₀ hbq]; exact_mod_cast hab
  by_cases hz : a % b = 0
  · rw [hx, hz]
    simp only [Int.cast_zero, zero_div, add_zero]
    rw [hint]
    unfold truncQ
    rw [if_pos (by exact_mod_cast hq0)]
    simp
  · have h := herr _ hx0 hx1
    rw [abs_le] at h
    have hb2 : (b : ℚ) < 1000000 := by exact_mod_cast hb'
    have l1 : 1 / 1000000 ≤ ((a % b : ℤ) : ℚ) / b := by
      rw [le_div_iff₀ hbq]
      have : (1 : ℚ) ≤ ((a % b : ℤ) : ℚ) := by exact_mod_cast (by omega : 1 ≤ a % b)
      linarith
    have l2 : ((a % b : ℤ) : ℚ) / b < 1 - 1 / 1000000 := by
      rw [div_lt_iff₀ hbq]
      have : ((a % b : ℤ) : ℚ) ≤ b - 1 := by exact_mod_cast (by omega : a % b ≤ b - 1)
      linarith
    have hq0' : (0 : ℚ) ≤ ((a / b : ℤ) : ℚ) := by exact_mod_cast hq0
    unfold truncQ
    rw [if_pos (by linarith)]
    rw [Int.floor_eq_iff]
    constructor <;> linarith

/-- Rounding is immaterial: if each floating-point expression is evaluated to within 1e-6 and
exactly when its value is an integer (IEEE doubles are accurate to 1e-9 here), the calendar day is
the one given by exact arithmetic, for every supported serial. -/
theorem C01_rounding_immaterial (fl : Fin 5 → ℚ → ℚ)
    (herr : ∀ i x, 0 ≤ x → x ≤ 10000000 → |fl i x - x| ≤ 1 / 1000000)
    (hint : ∀ i, ∀ n : ℤ, fl i n = n) (xl : Int) (hx : 25569 ≤ xl ∧ xl ≤ 91103) :
    toYMDfl fl xl = toYMD xl := by
  have q1 : truncQ (fl 0 ((((xl + 2415019 : ℤ) : ℚ) - 1867216.25) / 36524.25))
      = (4 * (xl + 2415019) - 7468865).tdiv 146097 := by
    rw [← truncQ_fl (herr 0) (hint 0) (b := 146097) (by omega) (by omega) (by omega) (by omega)]
    congr 2
    push_cast; field_simp; ring
  have d1 : (4 * (xl + 2415019) - 7468865).tdiv 146097 = (4 * (xl + 2415019) - 7468865) / 146097 :=
    Int.tdiv_eq_ediv_of_nonneg (by omega)
  unfold toYMDfl toYMD
  simp only
  rw [q1]
  generalize hal : (4 * (xl + 2415019) - 7468865).tdiv 146097 = alpha at d1 ⊢
  have ha : 0 ≤ alpha ∧ alpha ≤ 100 := by omega
  have d2 : alpha.tdiv 4 = alpha / 4 := Int.tdiv_eq_ediv_of_nonneg (by omega)
  generalize hB : xl + 2415019 + 1 + alpha - alpha.tdiv 4 + 1524 = B
  have hBb : 2400000 ≤ B ∧ B ≤ 2600000 := by omega
  have q2 : truncQ (fl 1 (((B : ℚ) - 122.1) / 365.25)) = (20 * B - 2442).tdiv 7305 := by
    rw [← truncQ_fl (herr 1) (hint 1) (b := 7305) (by omega) (by omega) (by omega) (by omega)]
    congr 2
    push_cast; field_simp; ring
  rw [q2]
  have d3 : (20 * B - 2442).tdiv 7305 = (20 * B - 2442) / 7305 :=
    Int.tdiv_eq_ediv_of_nonneg (by omega)
  generalize hC : (20 * B - 2442).tdiv 7305 = C at d3 ⊢
  have hCb : 0 ≤ C ∧ C ≤ 10000 := by omega
  have q3 : truncQ (fl 2 (365.25 * (C : ℚ))) = (1461 * C).tdiv 4 := by
    rw [← truncQ_fl (herr 2) (hint 2) (b := 4) (by omega) (by omega) (by omega) (by omega)]
    congr 2
    push_cast; ring
  rw [q3]
  have d4 : (1461 * C).tdiv 4 = 1461 * C / 4 := Int.tdiv_eq_ediv_of_nonneg (by omega)
  generalize hD : (1461 * C).tdiv 4 = D at d4 ⊢
  have hBD : 0 ≤ B - D ∧ B - D ≤ 500 := by omega
  have q4 : truncQ (fl 3 (((B : ℚ) - (D : ℚ)) / 30.6001)) = (10000 * (B - D)).tdiv 306001 := by
    rw [← truncQ_fl (herr 3) (hint 3) (b := 306001) (by omega) (by omega) (by omega) (by omega)]
    congr 2
    push_cast; field_simp; ring
  rw [q4]
  have d5 : (10000 * (B - D)).tdiv 306001 = 10000 * (B - D) / 306001 :=
    Int.tdiv_eq_ediv_of_nonneg (by omega)
  generalize hE : (10000 * (B - D)).tdiv 306001 = E at d5 ⊢
  have hEb : 0 ≤ E ∧ E ≤ 100 := by omega
  have q5 : truncQ (fl 4 (30.6001 * (E : ℚ))) = (306001 * E).tdiv 10000 := by
    rw [← truncQ_fl (herr 4) (hint 4) (b := 10000) (by omega) (by omega) (by omega) (by omega)]
    congr 2
    push_cast; ring
  rw [q5]

example : ∃ fl : Fin 5 → ℚ → ℚ,
    (∀ i x, 0 ≤ x → x ≤ 10000000 → |fl i x - x| ≤ 1 / 1000000) ∧ (∀ i, ∀ n : ℤ, fl i n = n) ∧
    fl 0 (1 / 2) ≠ 1 / 2 := by
  refine ⟨fun _ x => if x = 1 / 2 then 1 / 2 + 1 / 2000000 else x, ?_, ?_, ?_⟩
  · intro i x _ _
    simp only
    split
    · rename_i h; rw [h, abs_le]; constructor <;> norm_num
    · norm_num
  · intro i n
    simp only
    split
    · rename_i h
      exfalso
      have h2 : ((2 * n : ℤ) : ℚ) = ((1 : ℤ) : ℚ) := by push_cast; linarith
      have h3 : 2 * n = 1 := by exact_mod_cast h2
      omega
    · rfl
  · norm_num

/-! ## C02 -/

/-- `<` on dates is the calendar order. -/
theorem C02_order_is_calendar_order (a b : Date) (ha : a.Valid) (hb : b.Valid) :
    lt a b ↔ before (year a, month a, day a) (year b, month b, day b) := by
  obtain ⟨ea, ra, _⟩ := ymd_spec ha
  obtain ⟨eb, rb, _⟩ := ymd_spec hb
  unfold lt
  constructor
  · intro h
    rcases before_trichotomy (year a, month a, day a) (year b, month b, day b) with hc | hc | hc
    · exact hc
    · simp only [Prod.mk.injEq] at hc; rw [hc.1, hc.2.1, hc.2.2] at ea; omega
    · have := dayNum_lt rb ra hc; omega
  · intro h
    have := dayNum_lt ra rb h; omega

/-- Two valid dates with the same year, month and day are equal. -/
theorem C02_ymd_determines_date (a b : Date) (ha : a.Valid) (hb : b.Valid)
    (h : (year a, month a, day a) = (year b, month b, day b)) : a = b := by
  obtain ⟨ea, ra, _⟩ := ymd_spec ha
  obtain ⟨eb, rb, _⟩ := ymd_spec hb
  simp only [Prod.mk.injEq] at h
  rw [h.1, h.2.1, h.2.2] at ea
  cases a; cases b; simp only [Date.mk.injEq] at *; omega

/-- `n`-fold next day. -/
def walk : Nat → Int × Int × Int → Int × Int × Int
  | 0, t => t
  | n + 1, t => nextDay (walk n t)

theorem walk_dayAfterEpoch (n k : Nat) : walk n (dayAfterEpoch k) = dayAfterEpoch (k + n) := by
  induction n with
  | zero => rfl
  | succ n ih => rw [walk, ih]; rfl

/-- `b - a` is the number of calendar days from `a` to `b`: walking that many days from `a` arrives
at `b`; the difference is antisymmetric. -/
theorem C02_difference_counts_days (a b : Date) (ha : a.Valid) (hb : b.Valid) :
    sub b a = - sub a b ∧
    (0 ≤ sub b a → walk (sub b a).toNat (year a, month a, day a) = (year b, month b, day b)) := by
  refine ⟨by unfold sub; omega, ?_⟩
  intro h
  rw [C01_ymd_of_every_date a ha, C01_ymd_of_every_date b hb, walk_dayAfterEpoch]
  have h1 := ha.1
  have h2 := hb.1
  have e : a.serial - 1 + (sub b a).toNat = b.serial - 1 := by
    unfold sub toExcel at h ⊢
    omega
  rw [e]

example : sub (mk' 2024 3 1) (mk' 2023 3 1) = 366 := by decide

/-- `AddDays(n)` moves by exactly `n` calendar days while the target is representable, and
`AddDays(-n)` undoes it always. -/
theorem C02_addDays (d : Date) (n : Int) (hd : d.serial < 65536) :
    (1 ≤ d.serial + n → d.serial + n ≤ 65535 →
      (addDays d n).Valid ∧ sub (addDays d n) d = n) ∧
    addDays (addDays d n) (-n) = d := by
  constructor
  · intro h1 h2
    have hs : ((addDays d n).serial : Int) = d.serial + n := by
      simp only [addDays, toU16]; omega
    refine ⟨⟨by omega, by omega⟩, ?_⟩
    simp only [sub, toExcel]; omega
  · obtain ⟨s⟩ := d
    simp only at hd
    simp only [addDays, toU16, Date.mk.injEq]; omega

example : (1 : Int) ≤ (mk' 2024 2 28).serial + 2 ∧ (mk' 2024 2 28).serial + 2 ≤ (65535 : Int) ∧
    ymd (addDays (mk' 2024 2 28) 2) = (2024, 3, 1) := by decide

/-- Beyond the last representable day `AddDays` wraps silently to the past. -/
theorem C02_addDays_wraps : (maximum).Valid ∧ (addDays maximum 100).Valid ∧
    lt (addDays maximum 100) maximum := by decide

/-! ## C03 -/

theorem weekdayAfterEpoch_eq (n : Nat) : weekdayAfterEpoch n = (n + 4) % 7 := by
  induction n with
  | zero => rfl
  | succ n ih => rw [weekdayAfterEpoch, ih]; omega

theorem dayOfWeek_eq (d : Date) : dayOfWeek d = ((d.serial + 3) % 7 : Nat) := by
  unfold dayOfWeek toExcel
  have e : excelOffset = 25568 := rfl
  rw [Int.tmod_eq_emod_of_nonneg (by omega)]
  omega

/-- The weekday of every date is the one obtained by cycling through the week from
Thursday 1970-01-01; consecutive dates have consecutive weekdays. -/
theorem C03_dayOfWeek (d : Date) (h : d.Valid) :
    dayOfWeek d = weekdayAfterEpoch (d.serial - 1) ∧
    (d.serial < 65535 → dayOfWeek (addDays d 1) = (dayOfWeek d + 1) % 7) := by
  have := h.1
  constructor
  · rw [dayOfWeek_eq, weekdayAfterEpoch_eq]; congr 1; omega
  · intro hlt
    rw [dayOfWeek_eq, dayOfWeek_eq]
    simp only [addDays, toU16]; omega

/-- `IsWeekEnd` holds exactly on Sundays (0) and Saturdays (6). -/
theorem C03_weekend (d : Date) (h : d.Valid) :
    isWeekEnd d = true ↔ weekdayAfterEpoch (d.serial - 1) = 0 ∨
      weekdayAfterEpoch (d.serial - 1) = 6 := by
  have h1 := (C03_dayOfWeek d h).1
  have h2 : weekdayAfterEpoch (d.serial - 1) < 7 := by rw [weekdayAfterEpoch_eq]; omega
  unfold isWeekEnd
  rw [h1, Int.tmod_eq_emod_of_nonneg (by omega)]
  simp only [beq_iff_eq]; omega

example : (mk' 2024 1 6).Valid ∧ isWeekEnd (mk' 2024 1 6) = true ∧
    isWeekEnd (mk' 2024 1 8) = false := by decide

/-! ## C04 -/

/-- FULL CLAIM (false, see `C04_violated`): `DaysInMonth(y, m)` is the Gregorian month length for
all months of 1970..2149.  PROVED PART: all of them except February 2034, February 2100 and the
months from June 2149 on. -/
theorem C04_daysInMonth_partial (y m : Int) (h1 : 1 ≤ m) (h2 : m ≤ 12) (hy : 1970 ≤ y)
    (hy2 : y ≤ 2148 ∨ y = 2149 ∧ m ≤ 5) (hf : ¬ (m = 2 ∧ (y = 2034 ∨ y = 2100))) :
    daysInMonth y m = monthLen y m := by
  unfold daysInMonth
  split
  · rename_i h; subst h; simp [monthLen]
  · have r1 : RealDate y m 1 := realDate_first h1 h2
    have r2 : RealDate y (m + 1) 1 := realDate_first (by omega) (by omega)
    have s1 := mk'_serial r1 (by simp only [InRange, before]; omega)
    have s2 := mk'_serial r2 (by simp only [InRange, before]; omega)
    have := dayNum_next_month h1 (by omega : m < 12) (y := y)
    have hg : gap y m ↔ gap y (m + 1) := by unfold gap; omega
    simp only [sub, toExcel]
    rw [s1, s2]
    simp only [hg]
    omega

example : daysInMonth 2024 2 = 29 := by decide

theorem C04_violated : monthLen 2034 2 = 28 ∧ daysInMonth 2034 2 = 27 ∧
    monthLen 2100 2 = 28 ∧ daysInMonth 2100 2 = 29 ∧
    monthLen 2149 6 = 30 ∧ daysInMonth 2149 6 = -65531 := by decide +kernel

/-- FULL CLAIM (false, see `C04_endOfMonth_violated`): `EndOfMonth(d)` is the last day of `d`'s
month for every date.  PROVED PART: dates before 2034-02-01 and from 2100-02-01 on, up to
2149-05-31. -/
theorem C04_endOfMonth_partial (d : Date) (h : d.Valid)
    (hw : before (ymd d) (2034, 2, 1) ∨ ¬ before (ymd d) (2100, 2, 1))
    (he : before (ymd d) (2149, 6, 1)) :
    (endOfMonth d).Valid ∧ ymd (endOfMonth d) = (year d, month d, monthLen (year d) (month d)) := by
  obtain ⟨a, b, hy⟩ := ymd_spec h
  have hm1 := b.m1; have hm2 := b.m12; have hd1 := b.d1
  have hw' : (year d ≤ 2033 ∨ year d = 2034 ∧ month d ≤ 1) ∨
      (2101 ≤ year d ∨ year d = 2100 ∧ 2 ≤ month d) := by
    rcases hw with hw | hw <;> simp only [before, ymd] at hw <;> omega
  have he' : year d ≤ 2148 ∨ year d = 2149 ∧ month d ≤ 5 := by
    simp only [before, ymd] at he; omega
  clear hw he
  unfold endOfMonth
  simp only
  generalize year d = y at *
  generalize month d = m at *
  generalize day d = dd at *
  -- first day of the next month
  have key : ∀ y' m' : Int, 1 ≤ m' → m' ≤ 12 → InRange y' m' 1 → ¬ gap y' m' →
      dayNum y' m' 1 = dayNum y m 1 + monthLen y m →
      (addDays (mk' y' m' 1) (-1)).Valid ∧
      ymd (addDays (mk' y' m' 1) (-1)) = (y, m, monthLen y m) := by
    intro y' m' h1 h2 hr hg hn
    clear hw' he'
    have s := mk'_serial (realDate_first h1 h2) hr
    rw [if_neg hg] at s
    have hrr := (inRange_iff (realDate_first h1 h2)).1 hr
    have hdl := b.dl
    have rl : RealDate y m (monthLen y m) := ⟨hm1, hm2, Int.le_trans hd1 hdl, Int.le_refl _⟩
    have hdn := dayNum_day (y := y) (m := m) (d := monthLen y m)
    have hdn' := dayNum_day (y := y) (m := m) (d := dd)
    have hpos := h.1
    generalize hgd : mk' y' m' 1 = D at s ⊢
    have hD : D.serial < 65536 ∧ 1 < D.serial := by
      generalize dayNum y' m' 1 = n1 at *
      generalize dayNum y m 1 = n2 at *
      generalize dayNum y m dd = n3 at *
      generalize monthLen y m = n4 at *
      omega
    have hs : ((addDays D (-1)).serial : Int) = D.serial - 1 := by
      simp only [addDays, toU16]; omega
    have hv : (addDays D (-1)).Valid := ⟨by omega, by omega⟩
    refine ⟨hv, ymd_eq_of_serial hv rl ?_⟩
    rw [hs, s, hdn, hn]
    omega
  split
  · rename_i h12
    apply key
    · omega
    · omega
    · exact inRange_of_month (by omega) (by omega) (by omega)
    · clear key; simp only [gap]; omega
    · have := dayNum_next_year (y := y)
      rw [h12]; simp only [monthLen]; simp; omega
  · apply key
    · omega
    · omega
    · exact inRange_of_month (by omega) (by omega) (by omega)
    · clear key; simp only [gap]; omega
    · have := dayNum_next_month hm1 (by omega : m < 12) (y := y); omega

example : (mk' 2023 2 5).Valid ∧ ymd (endOfMonth (mk' 2023 2 5)) = (2023, 2, 28) := by decide +kernel

/-- In the window `EndOfMonth` misses the last day: for a date in March 2034 it returns the 30th. -/
theorem C04_endOfMonth_violated : ∃ d : Date, d.Valid ∧ ymd d = (2034, 3, 15) ∧
    ymd (endOfMonth d) = (2034, 3, 30) ∧ monthLen 2034 3 = 31 :=
  ⟨addDays (mk' 2034 2 28) 15, by decide +kernel⟩

/-! ## C05 -/

/-- Month arithmetic: the month `n` months after `(y, m)`. -/
def shiftMonth (y m n : Int) : Int × Int := ((12 * y + (m - 1) + n) / 12, (12 * y + (m - 1) + n) % 12 + 1)

theorem addMonths_carry (y m n : Int) (hm1 : 1 ≤ m) (hm2 : m ≤ 12) :
    carryMonths y m n
    = ((12 * y + (m - 1) + n) / 12, (12 * y + (m - 1) + n) % 12 + 1) := by
  obtain ⟨bb1, bb2⟩ := tdiv_bounds n (b := 12) (by omega)
  unfold carryMonths
  generalize n.tdiv 12 = q at *
  simp only
  by_cases hc : m + (n - 12 * q) > 12
  · simp only [hc, if_true]
    rw [if_neg (by omega)]
    apply Prod.ext <;> simp only <;> omega
  · simp only [hc, if_false]
    split <;> apply Prod.ext <;> simp only <;> omega

/-- FULL CLAIM (false, see `C05_violated`): for every valid date and every month count with target
in the supported range, `AddMonths` lands in the month `n` months away, on the same day clamped to
the month length, or on the last day when end-of-month is preserved and `d` is a last day.
PROVED PART: the target month is in 1970-01..2034-01 or 2100-03..2149-05, and, with end-of-month
preservation, the source month is not February 2034, February 2100 or June 2149. -/
theorem C05_addMonths_partial (d : Date) (n : Int) (eom : Bool) (h : d.Valid)
    (t : Int × Int) (ht : t = shiftMonth (year d) (month d) n)
    (hlo : 1970 ≤ t.1)
    (hw : (t.1 ≤ 2033 ∨ t.1 = 2034 ∧ t.2 = 1) ∨
      ((t.1 = 2100 ∧ 3 ≤ t.2 ∨ 2101 ≤ t.1) ∧ (t.1 ≤ 2148 ∨ t.1 = 2149 ∧ t.2 ≤ 5)))
    (hsrc : eom = true → ¬ (month d = 2 ∧ (year d = 2034 ∨ year d = 2100)) ∧
      ¬ (month d = 6 ∧ year d = 2149)) :
    (addMonths d n eom).Valid ∧
    ymd (addMonths d n eom) = (t.1, t.2,
      if eom = true ∧ day d = monthLen (year d) (month d) then monthLen t.1 t.2
      else min (day d) (monthLen t.1 t.2)) := by
  obtain ⟨a, b, hy⟩ := ymd_spec h
  have hr : InRange (year d) (month d) (day d) :=
    (inRange_iff b).2 (by rw [a]; have h1 := h.1; have h2 := h.2; clear * - h1 h2; omega)
  have hm1 := b.m1; have hm2 := b.m12
  have hdr : 1 ≤ day d := b.d1
  unfold addMonths
  simp only
  generalize year d = y at *
  generalize month d = m at *
  generalize day d = dd at *
  rw [addMonths_carry y m n hm1 hm2, show (_, _) = t from ht.symm]
  have ht1 : 1 ≤ t.2 ∧ t.2 ≤ 12 := by rw [ht]; simp only [shiftMonth]; clear * -; omega
  obtain ⟨ty, tm⟩ := t
  simp only at *
  have hdm : daysInMonth ty tm = monthLen ty tm :=
    C04_daysInMonth_partial _ _ ht1.1 ht1.2 hlo (by clear * - hw; omega) (by clear * - hw; omega)
  have hsm : eom = true → daysInMonth y m = monthLen y m := by
    intro he
    have hs := hsrc he
    refine C04_daysInMonth_partial _ _ hm1 hm2 hy.1 ?_ (by clear * - hs; omega)
    have hr2 := hr.2
    simp only [before] at hr2
    clear * - hr2 hs hm2 hy hdr
    omega
  rw [hdm]
  have hday : (if (eom && (dd == daysInMonth y m)) || decide (dd > monthLen ty tm)
      then monthLen ty tm else dd) =
      if eom = true ∧ dd = monthLen y m then monthLen ty tm
      else min dd (monthLen ty tm) := by
    cases eom
    · simp only [Bool.false_and, Bool.false_or, decide_eq_true_eq, Bool.false_eq_true, false_and,
        if_false]
      generalize monthLen ty tm = L
      clear * -
      split <;> omega
    · rw [hsm rfl]
      by_cases hq : dd = monthLen y m
      · simp [hq]
      · simp only [Bool.true_and, Bool.or_eq_true, beq_iff_eq, hq, false_or, decide_eq_true_eq,
          and_false, if_false]
        generalize monthLen ty tm = L
        clear * -
        split <;> omega
  rw [hday]
  generalize hdd : (if eom = true ∧ dd = monthLen y m then monthLen ty tm
      else min dd (monthLen ty tm)) = nd
  have hpos : 1 ≤ monthLen ty tm := (realDate_first (y := ty) ht1.1 ht1.2).dl
  have hdb : 1 ≤ nd ∧ nd ≤ monthLen ty tm := by
    rw [← hdd]
    generalize monthLen ty tm = L at *
    clear * - hpos hdr
    split <;> omega
  have rr : RealDate ty tm nd := ⟨ht1.1, ht1.2, hdb.1, hdb.2⟩
  have hin : InRange ty tm nd := by
    simp only [InRange, before]
    obtain ⟨hd1, _⟩ := hdb
    obtain ⟨ht1, _⟩ := ht1
    clear * - hlo hw hd1 ht1
    omega
  have hout : before (ty, tm, nd) (2034, 3, 1) ∨ ¬ before (ty, tm, nd) (2100, 3, 1) := by
    simp only [before]
    obtain ⟨hd1, _⟩ := hdb
    clear * - hw hd1
    omega
  obtain ⟨hv, e1, e2, e3⟩ := C01_ctor_roundtrip_partial ty tm nd rr hin hout
  exact ⟨hv, by simp [ymd, e1, e2, e3]⟩

example : (mk' 2024 2 29).Valid ∧ shiftMonth (year (mk' 2024 2 29)) (month (mk' 2024 2 29)) (-15) = (2022, 11) ∧
    ymd (addMonths (mk' 2024 2 29) (-15) true) = (2022, 11, 30) ∧
    ymd (addMonths (mk' 2024 2 29) (-15) false) = (2022, 11, 29) := by decide +kernel

/-- In the window `AddMonths` lands a day early, even in the wrong month. -/
theorem C05_violated : ∃ d : Date, d.Valid ∧ ymd d = (2033, 12, 1) ∧
    shiftMonth 2033 12 4 = (2034, 4) ∧ ymd (addMonths d 4 false) = (2034, 3, 31) :=
  ⟨mk' 2033 12 1, by decide +kernel⟩

end Dal
