import Verif.Time.DateLemmas

/-! Helper lemmas: the constructor on and off the supported range. -/

namespace Dal.Date
open Dal.Spec

/-- A calendar day that a 16-bit serial can hold: 1970-01-01 .. 2149-06-05. -/
def InRange (y m d : Int) : Prop :=
  ¬ before (y, m, d) (1970, 1, 1) ∧ ¬ before (2149, 6, 5) (y, m, d)
instance (y m d : Int) : Decidable (InRange y m d) := by unfold InRange before; infer_instance

theorem inRange_iff {y m d : Int} (h : RealDate y m d) :
    InRange y m d ↔ 0 ≤ dayNum y m d ∧ dayNum y m d ≤ 65534 := by
  have h0 : RealDate 1970 1 1 := ⟨by decide, by decide, by decide, by decide⟩
  have h9 : RealDate 2149 6 5 := ⟨by decide, by decide, by decide, by decide⟩
  have e0 : dayNum 1970 1 1 = 0 := by decide
  have e9 : dayNum 2149 6 5 = 65534 := by decide
  constructor
  · rintro ⟨a, b⟩
    constructor
    · rcases before_trichotomy (y, m, d) (1970, 1, 1) with hb | hb | hb
      · exact absurd hb a
      · simp only [Prod.mk.injEq] at hb; obtain ⟨rfl, rfl, rfl⟩ := hb; omega
      · have := dayNum_lt h0 h hb; omega
    · rcases before_trichotomy (y, m, d) (2149, 6, 5) with hb | hb | hb
      · have := dayNum_lt h h9 hb; omega
      · simp only [Prod.mk.injEq] at hb; obtain ⟨rfl, rfl, rfl⟩ := hb; omega
      · exact absurd hb b
  · rintro ⟨a, b⟩
    constructor
    · intro hb; have := dayNum_lt h h0 hb; omega
    · intro hb; have := dayNum_lt h9 h hb; omega

theorem InRange.year {y m d : Int} (h : InRange y m d) : 1970 ≤ y ∧ y ≤ 2149 := by
  obtain ⟨a, b⟩ := h
  simp only [before] at a b
  omega

theorem inRange_of_month {y m : Int} (h1 : 1970 ≤ y) (h2 : 1 ≤ m)
    (h3 : y ≤ 2148 ∨ y = 2149 ∧ m ≤ 6) : InRange y m 1 := by
  simp only [InRange, before]; omega

theorem toU16_of_range {n : Int} (h0 : 0 ≤ n) (h1 : n < 65536) : toU16 n = n.toNat := by
  unfold toU16; omega

theorem serialFromYMD_of_range {y m d : Int} (h0 : 25568 ≤ fromYMD y m d)
    (h1 : fromYMD y m d ≤ 91103) : (serialFromYMD y m d : Int) = fromYMD y m d - 25568 := by
  have e : excelOffset = 25568 := rfl
  have := toU16_of_range (n := fromYMD y m d - excelOffset) (by omega) (by omega)
  unfold serialFromYMD
  simp only
  rw [if_pos (by omega)]
  omega

theorem serialFromYMD_of_out {y m d : Int} (h : fromYMD y m d ≤ 25568 ∨ 91103 < fromYMD y m d) :
    serialFromYMD y m d = 0 := by
  have e : excelOffset = 25568 := rfl
  unfold serialFromYMD toU16
  simp only
  split <;> omega

/-- The serial the constructor produces for a representable calendar day. -/
theorem mk'_serial {y m d : Int} (h : RealDate y m d) (hr : InRange y m d) :
    ((mk' y m d).serial : Int) = dayNum y m d + 1 - (if gap y m then 1 else 0) := by
  have hy := hr.year
  have hd := (inRange_iff h).1 hr
  have e := fromYMD_eq y m d ⟨h.m1, h.m12⟩ (by omega)
  have hg : gap y m → 1 ≤ dayNum y m d := by
    intro hg
    have h0 : RealDate 1970 1 1 := ⟨by decide, by decide, by decide, by decide⟩
    have := dayNum_lt h0 h (Or.inl (by simp only [gap] at hg ⊢; omega))
    have e0 : dayNum 1970 1 1 = 0 := by decide
    omega
  have := serialFromYMD_of_range (y := y) (m := m) (d := d)
    (by rw [e]; split <;> omega) (by rw [e]; split <;> omega)
  simp only [mk']
  rw [this, e]; omega

/-- Year/month/day of a valid date. -/
def ymd (d : Date) : Int × Int × Int := (year d, month d, day d)

theorem ymd_spec {d : Date} (h : d.Valid) :
    dayNum (year d) (month d) (day d) = d.serial - 1 ∧ RealDate (year d) (month d) (day d)
      ∧ 1970 ≤ year d ∧ year d ≤ 2149 := by
  obtain ⟨h0, h1⟩ := h
  have := toYMD_spec (toExcel d) (by simp only [toExcel, excelOffset]; omega)
  obtain ⟨a, b⟩ := this
  refine ⟨?_, b⟩
  simp only [year, month, day]
  rw [a]; simp only [toExcel, excelOffset]; omega

theorem ymd_eq_of_serial {d : Date} (h : d.Valid) {y m dd : Int} (hr : RealDate y m dd)
    (hs : dayNum y m dd = d.serial - 1) : ymd d = (y, m, dd) := by
  obtain ⟨a, b, _⟩ := ymd_spec h
  obtain ⟨e1, e2, e3⟩ := dayNum_inj b hr (by omega)
  simp [ymd, e1, e2, e3]

theorem tdiv_bounds (a : Int) {b : Int} (hb : 0 < b) :
    b * a.tdiv b < a + b ∧ a - b < b * a.tdiv b := by
  have e := Int.mul_tdiv_add_tmod a b
  have h1 := Int.tmod_lt_of_pos a hb
  have h2 : -b < a.tmod b := by
    have := Int.tmod_lt_of_pos (-a) hb
    rw [Int.neg_tmod] at this; omega
  omega

theorem fromYMD_low {y m d : Int} (h : RealDate y m d) (hy : y < 1970) :
    fromYMD y m d ≤ 25568 := by
  have hd : d ≤ 31 := by
    have := h.dl; unfold monthLen at this; split at this <;> (try split at this) <;> omega
  have h1 := h.m1; have h2 := h.m12
  by_cases h69 : y = 1969
  · have hdl := h.dl
    subst h69
    have hlp : isLeap 1969 = false := by decide
    unfold monthLen at hdl
    rw [hlp] at hdl
    rcases month_cases h1 h2 with h|h|h|h|h|h|h|h|h|h|h|h <;> subst h <;>
      simp [fromYMD] at hdl ⊢ <;> omega
  · unfold fromYMD
    rw [tdiv_month m h1 h2]
    have b1 := tdiv_bounds (1461 * (y + if m ≤ 2 then -1 else 0)) (b := 4) (by omega)
    have b2 := tdiv_bounds (367 * (m - 2 - 12 * (if m ≤ 2 then -1 else 0))) (b := 12) (by omega)
    have b3 := tdiv_bounds (3 * (y + 4900 + if m ≤ 2 then -1 else 0)) (b := 100) (by omega)
    have b4 := tdiv_bounds ((3 * (y + 4900 + if m ≤ 2 then -1 else 0)).tdiv 100) (b := 4) (by omega)
    by_cases hm : m ≤ 2 <;> simp only [hm, if_true, if_false] at * <;> omega

theorem fromYMD_high {y m d : Int} (h : RealDate y m d) (hy : 2149 < y) :
    91103 < fromYMD y m d := by
  have h1 := h.m1; have h2 := h.m12; have h3 := h.d1
  unfold fromYMD
  rw [tdiv_month m h1 h2]
  have b1 := tdiv_bounds (1461 * (y + if m ≤ 2 then -1 else 0)) (b := 4) (by omega)
  have b2 := tdiv_bounds (367 * (m - 2 - 12 * (if m ≤ 2 then -1 else 0))) (b := 12) (by omega)
  have b3 := tdiv_bounds (3 * (y + 4900 + if m ≤ 2 then -1 else 0)) (b := 100) (by omega)
  have b4 := tdiv_bounds ((3 * (y + 4900 + if m ≤ 2 then -1 else 0)).tdiv 100) (b := 4) (by omega)
  by_cases hm : m ≤ 2 <;> simp only [hm, if_true, if_false] at * <;> omega

theorem mk'_out_of_range {y m d : Int} (h : RealDate y m d) (hr : ¬ InRange y m d) :
    (mk' y m d).serial = 0 := by
  simp only [mk']
  apply serialFromYMD_of_out
  by_cases hy : y < 1970
  · exact Or.inl (fromYMD_low h hy)
  · by_cases hy' : 2149 < y
    · exact Or.inr (fromYMD_high h hy')
    · have hd := mt (inRange_iff h).2 hr
      have e := fromYMD_eq y m d ⟨h.m1, h.m12⟩ (by omega)
      have h0 : RealDate 1970 1 1 := ⟨by decide, by decide, by decide, by decide⟩
      have e0 : dayNum 1970 1 1 = 0 := by decide
      have hlow : 0 ≤ dayNum y m d := by
        rcases before_trichotomy (y, m, d) (1970, 1, 1) with hb | hb | hb
        · simp only [before] at hb; have := h.m1; have := h.d1; omega
        · simp only [Prod.mk.injEq] at hb; obtain ⟨rfl, rfl, rfl⟩ := hb; omega
        · have := dayNum_lt h0 h hb; omega
      have hng : ¬ gap y m := by
        intro hg
        have hy2 : y ≤ 2100 := by unfold gap at hg; omega
        have h9 : RealDate 2149 6 5 := ⟨by decide, by decide, by decide, by decide⟩
        have e9 : dayNum 2149 6 5 = 65534 := by decide
        have := dayNum_lt h h9 (Or.inl (by simp only; omega))
        omega
      rw [if_neg hng] at e
      omega

theorem realDate_first {y m : Int} (h1 : 1 ≤ m) (h2 : m ≤ 12) : RealDate y m 1 :=
  ⟨h1, h2, by omega, by unfold monthLen; split <;> (try split) <;> omega⟩

theorem dayNum_next_month {y m : Int} (h1 : 1 ≤ m) (h2 : m < 12) :
    dayNum y (m + 1) 1 - dayNum y m 1 = monthLen y m := by
  have hl := leap_diff y
  rcases month_cases h1 (by omega : m ≤ 12) with h|h|h|h|h|h|h|h|h|h|h|h <;> subst h <;>
    simp [dayNum, cum, monthLen] <;> (try split) <;> (try simp_all) <;> omega

theorem dayNum_next_year {y : Int} : dayNum (y + 1) 1 1 - dayNum y 12 1 = 31 := by
  have hl := leap_diff y
  simp [dayNum, cum]; omega

theorem dayNum_day {y m d : Int} : dayNum y m d = dayNum y m 1 + d - 1 := by
  unfold dayNum; omega

end Dal.Date
