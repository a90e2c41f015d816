import Verif.Time.DateModel
import Verif.Time.DateSpec

/-! Helper lemmas about the calendar and the `Date_` model. -/

namespace Dal.Date
open Dal.Spec

/-- Days of year `y` before month `m`. -/
def cum (y m : Int) : Int :=
  (if m = 1 then 0 else if m = 2 then 31 else if m = 3 then 59 else if m = 4 then 90
   else if m = 5 then 120 else if m = 6 then 151 else if m = 7 then 181 else if m = 8 then 212
   else if m = 9 then 243 else if m = 10 then 273 else if m = 11 then 304 else 334)
  + (if m > 2 then y/4 - (y-1)/4 - y/100 + (y-1)/100 + y/400 - (y-1)/400 else 0)

/-- Days since 1970-01-01 in closed form. -/
def dayNum (y m d : Int) : Int :=
  365*(y-1970) + (y-1)/4 - (y-1)/100 + (y-1)/400 - 477 + cum y m + d - 1

/-- The months on which `ExcelDateFromYMD` is one day short. -/
def gap (y m : Int) : Prop :=
  (2034 ≤ y ∧ 3 ≤ m ∨ 2035 ≤ y) ∧ (y ≤ 2099 ∨ y = 2100 ∧ m ≤ 2)
instance (y m : Int) : Decidable (gap y m) := by unfold gap; infer_instance

theorem month_cases {m : Int} (h1 : 1 ≤ m) (h2 : m ≤ 12) :
    m = 1 ∨ m = 2 ∨ m = 3 ∨ m = 4 ∨ m = 5 ∨ m = 6 ∨ m = 7 ∨ m = 8 ∨ m = 9 ∨ m = 10 ∨ m = 11
      ∨ m = 12 := by omega

theorem isLeap_iff (y : Int) : isLeap y = true ↔
    (y % 4 = 0 ∧ y % 100 ≠ 0) ∨ y % 400 = 0 := by
  simp [isLeap]

theorem leap_diff (y : Int) :
    y/4 - (y-1)/4 - y/100 + (y-1)/100 + y/400 - (y-1)/400 = if isLeap y then 1 else 0 := by
  by_cases h : isLeap y = true
  · rw [if_pos h]; rw [isLeap_iff] at h; omega
  · rw [if_neg h]; rw [isLeap_iff] at h; omega

theorem dayNum_nextDay {y m d : Int} (h : RealDate y m d) :
    dayNum (nextDay (y, m, d)).1 (nextDay (y, m, d)).2.1 (nextDay (y, m, d)).2.2
      = dayNum y m d + 1 := by
  obtain ⟨h1, h2, h3, h4⟩ := h
  have hl := leap_diff y
  rcases month_cases h1 h2 with h|h|h|h|h|h|h|h|h|h|h|h <;> subst h <;>
    simp only [nextDay, monthLen] at * <;> simp at h4 ⊢ <;> (try split at h4) <;>
    (try split at hl) <;> (try simp_all) <;> split <;> simp [dayNum, cum] <;> omega

theorem realDate_nextDay {y m d : Int} (h : RealDate y m d) :
    RealDate (nextDay (y, m, d)).1 (nextDay (y, m, d)).2.1 (nextDay (y, m, d)).2.2 := by
  have len1 : ∀ y m, 28 ≤ monthLen y m := by
    intro y m; unfold monthLen; split <;> (try split) <;> omega
  obtain ⟨h1, h2, h3, h4⟩ := h
  by_cases a : d < monthLen y m
  · simp only [nextDay, a, if_true]; exact ⟨h1, h2, by omega, by omega⟩
  · by_cases b : m < 12
    · simp only [nextDay, a, b, if_true, if_false]
      exact ⟨by omega, by omega, by omega, by have := len1 y (m+1); omega⟩
    · simp only [nextDay, a, b, if_false]
      exact ⟨by omega, by omega, by omega, by have := len1 (y+1) 1; omega⟩

theorem aux1 (y : Int) (hy : 1969 ≤ y ∧ y ≤ 2150) :
    ((3 * (y + 4900)).tdiv 100).tdiv 4 = if y ≥ 2034 then 52 else 51 := by
  rw [Int.tdiv_eq_ediv_of_nonneg (a := 3 * _) (by omega),
    Int.tdiv_eq_ediv_of_nonneg (a := _ / _) (by omega)]
  split <;> omega

theorem aux2 (y : Int) (hy : 1969 ≤ y ∧ y ≤ 2150) : (1461 * y).tdiv 4 = 365 * y + y / 4 := by
  rw [Int.tdiv_eq_ediv_of_nonneg (by omega)]; omega

theorem aux3 (y : Int) (hy : 1968 ≤ y ∧ y ≤ 2150) :
    y / 100 - y / 400 = if y < 2100 then 15 else 16 := by
  split <;> omega

theorem tdiv_month (m : Int) (h1 : 1 ≤ m) (h2 : m ≤ 12) :
    (m - 14).tdiv 12 = if m ≤ 2 then -1 else 0 := by
  split
  · have : m = 1 ∨ m = 2 := by omega
    rcases this with h|h <;> subst h <;> rfl
  · have : (14 - m).tdiv 12 = 0 := by rw [Int.tdiv_eq_ediv_of_nonneg (by omega)]; omega
    have h2 : m - 14 = - (14 - m) := by omega
    rw [h2, Int.neg_tdiv, this]; rfl

theorem fromYMD_eq (y m d : Int) (hm : 1 ≤ m ∧ m ≤ 12) (hy : 1970 ≤ y ∧ y ≤ 2150) :
    fromYMD y m d = dayNum y m d + 25569 - (if gap y m then 1 else 0) := by
  have e : y + 4900 + (m-14).tdiv 12 = y + (m-14).tdiv 12 + 4900 := by omega
  have h3 := aux3 y (by omega)
  have h3' := aux3 (y-1) (by omega)
  have ht := tdiv_month m hm.1 hm.2
  unfold fromYMD
  rw [e]
  have hb : 1969 ≤ y + (m-14).tdiv 12 ∧ y + (m-14).tdiv 12 ≤ 2150 := by rw [ht]; split <;> omega
  rw [aux1 _ hb, aux2 _ hb, ht]
  unfold gap
  rcases month_cases hm.1 hm.2 with h|h|h|h|h|h|h|h|h|h|h|h <;> subst h <;>
    simp [dayNum, cum] <;> omega

theorem toYMD_spec (x : Int) (hx : 25569 ≤ x ∧ x ≤ 91103) :
    dayNum (toYMD x).1 (toYMD x).2.1 (toYMD x).2.2 = x - 25569
      ∧ RealDate (toYMD x).1 (toYMD x).2.1 (toYMD x).2.2
      ∧ 1970 ≤ (toYMD x).1 ∧ (toYMD x).1 ≤ 2149 := by
  simp only [toYMD]
  rw [Int.tdiv_eq_ediv_of_nonneg (b := 146097) (by omega)]
  generalize ha : (4 * (x + 2415019) - 7468865) / 146097 = alpha
  have haa : alpha = 15 ∨ alpha = 16 ∨ alpha = 17 := by omega
  rw [Int.tdiv_eq_ediv_of_nonneg (a := alpha) (by omega)]
  generalize hB : x + 2415019 + 1 + alpha - alpha/4 + 1524 = B
  have : 0 ≤ B := by omega
  rw [Int.tdiv_eq_ediv_of_nonneg (b := 7305) (by omega)]
  generalize hC : (20 * B - 2442)/7305 = C
  rw [Int.tdiv_eq_ediv_of_nonneg (a := 1461 * C) (by omega)]
  generalize hD : 1461 * C / 4 = D
  have : 0 ≤ B - D := by omega
  rw [Int.tdiv_eq_ediv_of_nonneg (a := 10000 * (B - D)) (by omega)]
  have hD' : D = 365 * C + C / 4 := by omega
  have hr : 123 ≤ B - D ∧ B - D ≤ 488 := by omega
  have hC : 365 * C + C/4 + 123 ≤ B ∧ B ≤ 365 * C + C/4 + 487 + (C - 4 * (C/4))/3 := by omega
  generalize hE : 10000 * (B - D) / 306001 = E
  rw [Int.tdiv_eq_ediv_of_nonneg (a := 306001 * E) (by omega)]
  have hEE : E = 4 ∨ E = 5 ∨ E = 6 ∨ E = 7 ∨ E = 8 ∨ E = 9 ∨ E = 10 ∨ E = 11 ∨ E = 12 ∨ E = 13
    ∨ E = 14 ∨ E = 15 := by omega
  rcases hEE with h|h|h|h|h|h|h|h|h|h|h|h
  all_goals
    rw [h] at hE ⊢
    simp [dayNum, cum]
  iterate 10
    · have h1 := aux3 (C - 4716) (by omega)
      have h2 := aux3 (C - 4716 - 1) (by omega)
      refine ⟨?_, ⟨by omega, by omega, by omega, by simp [monthLen]; omega⟩, by omega, by omega⟩
      rcases haa with h|h|h <;> subst h <;> omega
  all_goals
    have h1 := aux3 (C - 4715) (by omega)
    have h2 := aux3 (C - 4715 - 1) (by omega)
    refine ⟨?_, ⟨by omega, by omega, by omega, ?_⟩, by omega, by omega⟩
    · rcases haa with h|h|h <;> subst h <;> omega
  · simp [monthLen]; omega
  · simp only [monthLen, if_true]
    split
    · omega
    · rename_i hn
      rw [isLeap_iff] at hn
      rcases haa with h|h|h <;> subst h <;> omega

/-! ### Order of calendar days -/

theorem yearTerm_succ (y : Int) :
    y/4 - y/100 + y/400 ≤ (y+1)/4 - (y+1)/100 + (y+1)/400 := by omega

theorem yearTerm_mono (y : Int) (n : Nat) :
    y/4 - y/100 + y/400 ≤ (y+n)/4 - (y+n)/100 + (y+n)/400 := by
  induction n with
  | zero => simp
  | succ n ih =>
    have := yearTerm_succ (y + n)
    have e : y + ((n + 1 : Nat) : Int) = y + n + 1 := by omega
    rw [e]; omega

theorem dayNum_year_lt {y y' m d m' d' : Int} (h : RealDate y m d) (h' : RealDate y' m' d')
    (hlt : y < y') : dayNum y m d < dayNum y' m' d' := by
  have hy := yearTerm_mono y (y' - 1 - y).toNat
  have e : y + ((y' - 1 - y).toNat : Int) = y' - 1 := by omega
  rw [e] at hy
  have hl := leap_diff y
  have hl' := leap_diff y'
  have b1 : cum y m + d ≤ 365 + (if isLeap y then 1 else 0) := by
    obtain ⟨h1, h2, h3, h4⟩ := h
    rw [← hl]
    unfold monthLen at h4
    rcases month_cases h1 h2 with h|h|h|h|h|h|h|h|h|h|h|h <;> subst h <;>
      simp [cum] at * <;> (try split at h4) <;> (try split at hl) <;> (try simp_all) <;> omega
  have b2 : 1 ≤ cum y' m' + d' := by
    obtain ⟨h1, h2, h3, h4⟩ := h'
    have : 0 ≤ y'/4 - (y'-1)/4 - y'/100 + (y'-1)/100 + y'/400 - (y'-1)/400 := by
      rw [hl']; split <;> omega
    unfold cum
    split <;> omega
  unfold dayNum
  rw [← hl] at b1
  omega

theorem cum_month_lt {y m d m' d' : Int} (h : RealDate y m d) (h' : RealDate y m' d')
    (hlt : m < m') : cum y m + d < cum y m' + d' := by
  obtain ⟨h1, h2, h3, h4⟩ := h
  obtain ⟨h1', h2', h3', h4'⟩ := h'
  have hl := leap_diff y
  unfold cum
  rw [hl]
  unfold monthLen at h4
  by_cases hb : isLeap y = true <;> simp only [hb, if_true] at h4 ⊢ <;>
  rcases month_cases h1 h2 with h|h|h|h|h|h|h|h|h|h|h|h <;> subst h <;> simp at h4 ⊢ <;> omega

theorem dayNum_lt {y m d y' m' d' : Int} (h : RealDate y m d) (h' : RealDate y' m' d')
    (hlt : before (y, m, d) (y', m', d')) : dayNum y m d < dayNum y' m' d' := by
  rcases hlt with hlt | ⟨he, hlt | ⟨he', hlt⟩⟩
  · exact dayNum_year_lt h h' hlt
  · simp only at he hlt; subst he
    have := cum_month_lt h h' hlt
    unfold dayNum; omega
  · simp only at he he' hlt; subst he; subst he'
    unfold dayNum; omega

theorem before_trichotomy (a b : Int × Int × Int) : before a b ∨ a = b ∨ before b a := by
  obtain ⟨a1, a2, a3⟩ := a
  obtain ⟨b1, b2, b3⟩ := b
  simp only [before, Prod.mk.injEq]
  omega

theorem dayNum_inj {y m d y' m' d' : Int} (h : RealDate y m d) (h' : RealDate y' m' d')
    (he : dayNum y m d = dayNum y' m' d') : y = y' ∧ m = m' ∧ d = d' := by
  rcases before_trichotomy (y, m, d) (y', m', d') with hb | hb | hb
  · have := dayNum_lt h h' hb; omega
  · simpa using hb
  · have := dayNum_lt h' h hb; omega

theorem dayAfterEpoch_spec (n : Nat) :
    RealDate (dayAfterEpoch n).1 (dayAfterEpoch n).2.1 (dayAfterEpoch n).2.2
    ∧ dayNum (dayAfterEpoch n).1 (dayAfterEpoch n).2.1 (dayAfterEpoch n).2.2 = n := by
  induction n with
  | zero => exact ⟨⟨by decide, by decide, by decide, by decide⟩, by decide⟩
  | succ n ih =>
    obtain ⟨h, hd⟩ := ih
    refine ⟨realDate_nextDay h, ?_⟩
    have := dayNum_nextDay h
    rw [hd] at this
    simpa [dayAfterEpoch] using this

theorem eq_dayAfterEpoch {y m d : Int} (h : RealDate y m d) (n : Nat) (hn : dayNum y m d = n) :
    (y, m, d) = dayAfterEpoch n := by
  obtain ⟨hr, hd⟩ := dayAfterEpoch_spec n
  obtain ⟨h1, h2, h3⟩ := dayNum_inj h hr (by rw [hn, hd])
  rw [h1, h2, h3]

end Dal.Date
