import Verif.Time.IncrementModel
import Verif.Time.HolidaysProps

/-! # C08, C13: special-day increments and schedules -/

namespace Dal
open Date Spec Incr

theorem addDays_pred {M : Date} (h : 1 < M.serial) (h2 : M.serial ≤ 65535) :
    ((addDays M (-1)).serial : Int) = M.serial - 1 := by
  simp only [addDays, toU16]; omega

/-! ## C08 -/

attribute [local irreducible] mk' year month day dayOfWeek immDay dayNum monthLen addDays

/-- Third Wednesday of a month. -/
def IsIMM (d : Date) : Prop := dayOfWeek d = 3 ∧ 15 ≤ day d ∧ day d ≤ 21
/-- 20th of a quarter month. -/
def IsCDS (d : Date) : Prop := day d = 20 ∧ month d % 3 = 0

/-- Months on which the constructor is correct: see C01. -/
def SafeMonth (y m : Int) : Prop :=
  1970 ≤ y ∧ ((y ≤ 2033 ∨ y = 2034 ∧ m ≤ 2) ∨
    ((y = 2100 ∧ 3 ≤ m ∨ 2101 ≤ y) ∧ (y ≤ 2148 ∨ y = 2149 ∧ m ≤ 5)))

theorem safe_ctor {y m d : Int} (hs : SafeMonth y m) (h1 : 1 ≤ m) (h2 : m ≤ 12) (hd : 1 ≤ d)
    (hd2 : d ≤ 28) : RealDate y m d ∧ InRange y m d ∧ ¬ gap y m ∧
    (mk' y m d).Valid ∧ year (mk' y m d) = y ∧ month (mk' y m d) = m ∧ day (mk' y m d) = d := by
  have r : RealDate y m d :=
    ⟨h1, h2, hd, by unfold monthLen; split <;> (try split) <;> omega⟩
  have ir : InRange y m d := by
    unfold SafeMonth at hs; simp only [InRange, before]; omega
  refine ⟨r, ir, ?_, C01_ctor_roundtrip_partial y m d r ir ?_⟩
  · unfold SafeMonth at hs; unfold gap; omega
  · unfold SafeMonth at hs
    simp only [before]
    omega

/-- In a safe month `IMMDay` is the third Wednesday, and it is the only one. -/
theorem immDay_spec {y m : Int} (hs : SafeMonth y m) (h1 : 1 ≤ m) (h2 : m ≤ 12) :
    15 ≤ immDay y m ∧ immDay y m ≤ 21 ∧ dayOfWeek (mk' y m (immDay y m)) = 3 ∧
    ∀ x : Date, x.Valid → year x = y → month x = m → IsIMM x → day x = immDay y m := by
  obtain ⟨r, ir, ng, _⟩ := safe_ctor hs h1 h2 (d := 18) (by omega) (by omega)
  have s18 := mk'_serial r ir
  rw [if_neg ng, dayNum_day] at s18
  have e18 : immDay y m = 21 - (((mk' y m 18).serial + 3) % 7 : Nat) := by
    unfold immDay; rw [dayOfWeek_eq]
  have hb : 15 ≤ immDay y m ∧ immDay y m ≤ 21 := by rw [e18]; omega
  refine ⟨hb.1, hb.2, ?_, ?_⟩
  · obtain ⟨r', ir', ng', _⟩ := safe_ctor hs h1 h2 (d := immDay y m) (by omega) (by omega)
    have sk := mk'_serial r' ir'
    rw [if_neg ng', dayNum_day] at sk
    rw [dayOfWeek_eq]
    generalize immDay y m = k at *
    generalize dayNum y m 1 = a at *
    generalize (mk' y m 18).serial = s1 at *
    generalize (mk' y m k).serial = s2 at *
    omega
  · rintro x hx hy hm ⟨w1, w2, w3⟩
    obtain ⟨sx, _⟩ := ymd_spec hx
    rw [hy, hm, dayNum_day] at sx
    rw [dayOfWeek_eq] at w1
    generalize immDay y m = k at *
    generalize dayNum y m 1 = a at *
    generalize (mk' y m 18).serial = s1 at *
    generalize x.serial = s2 at *
    generalize day x = dx at *
    omega

/-- An IMM day computed by the library is the third Wednesday of the month. -/
theorem C08_imm_is_third_wednesday (y m : Int) (hs : SafeMonth y m) (h1 : 1 ≤ m) (h2 : m ≤ 12) :
    IsIMM (mk' y m (immDay y m)) ∧ year (mk' y m (immDay y m)) = y ∧
      month (mk' y m (immDay y m)) = m := by
  obtain ⟨a, b, c, _⟩ := immDay_spec hs h1 h2
  obtain ⟨_, _, _, _, e1, e2, e3⟩ := safe_ctor hs h1 h2 (d := immDay y m) (by omega) (by omega)
  exact ⟨⟨c, by rw [e3]; exact a, by rw [e3]; exact b⟩, e1, e2⟩

example : SafeMonth 2024 3 ∧ immDay 2024 3 = 20 := by
  constructor
  · unfold SafeMonth; omega
  · decide +kernel

theorem advance_fwd3 {m : Int} (h1 : 1 ≤ m) (h2 : m ≤ 12) : advance true 3 12 m = 3 * (m / 3) + 3 := by
  rcases month_cases h1 h2 with h|h|h|h|h|h|h|h|h|h|h|h <;> subst h <;> decide
theorem advance_back3 {m : Int} (h1 : 1 ≤ m) (h2 : m ≤ 12) :
    advance false 3 12 m = 3 * ((m - 1) / 3) := by
  rcases month_cases h1 h2 with h|h|h|h|h|h|h|h|h|h|h|h <;> subst h <;> decide
theorem advance_fwd1 (m : Int) : advance true 1 12 m = m + 1 := by
  rw [advance, if_pos (Int.tmod_one _)]; rfl
theorem advance_back1 (m : Int) : advance false 1 12 m = m - 1 := by
  rw [advance, if_pos (Int.tmod_one _)]; rfl

/-- `r` is the nearest date after `d` with property `P`. -/
def NextAfter (P : Date → Prop) (d r : Date) : Prop :=
  r.Valid ∧ P r ∧ lt d r ∧ ∀ x : Date, x.Valid → P x → lt d x → ¬ lt x r
/-- `r` is the nearest date before `d` with property `P`. -/
def PrevBefore (P : Date → Prop) (d r : Date) : Prop :=
  r.Valid ∧ P r ∧ lt r d ∧ ∀ x : Date, x.Valid → P x → lt x d → ¬ lt r x

/-- Dates whose month, previous three months and next three months are safe. -/
def SafeDate (d : Date) : Prop :=
  (¬ before (ymd d) (1970, 4, 1) ∧ before (ymd d) (2033, 12, 1)) ∨
  (¬ before (ymd d) (2100, 6, 1) ∧ before (ymd d) (2149, 3, 1))

theorem SafeDate.near {d : Date} (h : SafeDate d) {y m : Int} (h1 : 1 ≤ m) (h2 : m ≤ 12)
    (hd1 : 1 ≤ month d) (hd2 : month d ≤ 12)
    (hdd : 1 ≤ day d)
    (hn : 12 * (year d) + month d - 3 ≤ 12 * y + m ∧ 12 * y + m ≤ 12 * (year d) + month d + 3) :
    SafeMonth y m := by
  unfold SafeDate at h
  simp only [before, ymd] at h
  unfold SafeMonth
  omega

/-- FULL CLAIM (false, see `C08_cds_violated`): a forward CDS step gives the next CDS day (20th of
March, June, September, December).  PROVED PART: from a quarter month, or from day 20 on. -/
theorem C08_cds_forward_partial (d : Date) (hv : d.Valid) (hs : SafeDate d)
    (hq : month d % 3 = 0 ∨ 20 ≤ day d) : NextAfter IsCDS d (toCDS d true) := by
  obtain ⟨_, b, _⟩ := ymd_spec hv
  have m1 := b.m1; have m2 := b.m12; have d1 := b.d1
  obtain ⟨y', m', e, hm1, hm2, hm3, hrel⟩ : ∃ y' m', toCDS d true = mk' y' m' 20 ∧ 1 ≤ m' ∧ m' ≤ 12 ∧
      m' % 3 = 0 ∧ ((day d < 20 ∧ y' = year d ∧ m' = month d) ∨
        (20 ≤ day d ∧ 12 * y' + m' = 12 * year d + 3 * (month d / 3) + 3)) := by
    unfold toCDS
    simp only [if_true, decide_eq_true_eq]
    refine ⟨_, _, rfl, ?_⟩
    generalize month d = m at *
    generalize day d = dd at *
    generalize year d = y at *
    split
    · rw [advance_fwd3 m1 m2]
      unfold monthInRange
      by_cases hc : 3 * (m / 3) + 3 > 12
      · simp only [hc, if_true]; rw [if_neg (by omega)]; simp only; omega
      · simp only [hc, if_false]; rw [if_neg (by omega)]; simp only; omega
    · unfold monthInRange
      simp only [show ¬ m > 12 by omega, if_false, show ¬ m < 1 by omega, and_true]; omega
  have hsm : SafeMonth y' m' := hs.near hm1 hm2 m1 m2 d1 (by omega)
  obtain ⟨_, _, _, hval, e1, e2, e3⟩ := safe_ctor hsm hm1 hm2 (d := 20) (by omega) (by omega)
  rw [e]
  refine ⟨hval, ⟨e3, by rw [e2]; exact hm3⟩, ?_, ?_⟩
  · rw [C02_order_is_calendar_order _ _ hv hval, e1, e2, e3]
    simp only [before]
    clear * - hrel m1 m2 hm1 hm2 hm3 hq
    generalize month d = m at *
    generalize day d = dd at *
    generalize year d = y at *
    rcases hrel with ⟨_, h2, h3⟩ | ⟨_, h2⟩ <;> omega
  · rintro x hx ⟨x1, x2⟩ hlt
    rw [C02_order_is_calendar_order _ _ hv hx] at hlt
    rw [C02_order_is_calendar_order _ _ hx hval, e1, e2, e3, x1]
    rw [x1] at hlt
    obtain ⟨_, bx, _⟩ := ymd_spec hx
    have mx1 := bx.m1; have mx2 := bx.m12
    simp only [before] at hlt ⊢
    clear * - hlt hrel x2 mx1 mx2 m1 m2 hm1 hm2 hm3 hq
    generalize month x = xm at *
    generalize year x = xy at *
    generalize month d = m at *
    generalize day d = dd at *
    generalize year d = y at *
    rcases hrel with ⟨_, h2, h3⟩ | ⟨_, h2⟩
    · subst h2 h3; omega
    · omega

/-- Backward CDS step.  PROVED PART: from a quarter month, or up to day 20. -/
theorem C08_cds_backward_partial (d : Date) (hv : d.Valid) (hs : SafeDate d)
    (hq : month d % 3 = 0 ∨ day d ≤ 20) : PrevBefore IsCDS d (toCDS d false) := by
  obtain ⟨_, b, _⟩ := ymd_spec hv
  have m1 := b.m1; have m2 := b.m12; have d1 := b.d1
  obtain ⟨y', m', e, hm1, hm2, hm3, hrel⟩ : ∃ y' m', toCDS d false = mk' y' m' 20 ∧ 1 ≤ m' ∧ m' ≤ 12 ∧
      m' % 3 = 0 ∧ ((20 < day d ∧ y' = year d ∧ m' = month d) ∨
        (day d ≤ 20 ∧ 12 * y' + m' = 12 * year d + 3 * ((month d - 1) / 3))) := by
    unfold toCDS
    simp only [decide_eq_true_eq, Bool.false_eq_true, if_false]
    refine ⟨_, _, rfl, ?_⟩
    generalize month d = m at *
    generalize day d = dd at *
    generalize year d = y at *
    split
    · rw [advance_back3 m1 m2]
      unfold monthInRange
      simp only [show ¬ 3 * ((m - 1) / 3) > 12 by omega, if_false]
      by_cases hc : 3 * ((m - 1) / 3) < 1
      · simp only [hc, if_true]; try simp only [true_and, and_true]
        omega
      · simp only [hc, if_false]; try simp only [true_and, and_true]
        omega
    · unfold monthInRange
      simp only [show ¬ m > 12 by omega, if_false, show ¬ m < 1 by omega, and_true]; omega
  have hsm : SafeMonth y' m' := hs.near hm1 hm2 m1 m2 d1 (by omega)
  obtain ⟨_, _, _, hval, e1, e2, e3⟩ := safe_ctor hsm hm1 hm2 (d := 20) (by omega) (by omega)
  rw [e]
  refine ⟨hval, ⟨e3, by rw [e2]; exact hm3⟩, ?_, ?_⟩
  · rw [C02_order_is_calendar_order _ _ hval hv, e1, e2, e3]
    simp only [before]
    clear * - hrel m1 m2 hm1 hm2 hm3 hq
    generalize month d = m at *
    generalize day d = dd at *
    generalize year d = y at *
    rcases hrel with ⟨_, h2, h3⟩ | ⟨_, h2⟩ <;> omega
  · rintro x hx ⟨x1, x2⟩ hlt
    rw [C02_order_is_calendar_order _ _ hx hv] at hlt
    rw [C02_order_is_calendar_order _ _ hval hx, e1, e2, e3, x1]
    rw [x1] at hlt
    obtain ⟨_, bx, _⟩ := ymd_spec hx
    have mx1 := bx.m1; have mx2 := bx.m12
    simp only [before] at hlt ⊢
    clear * - hlt hrel x2 mx1 mx2 m1 m2 hm1 hm2 hm3 hq
    generalize month x = xm at *
    generalize year x = xy at *
    generalize month d = m at *
    generalize day d = dd at *
    generalize year d = y at *
    rcases hrel with ⟨_, h2, h3⟩ | ⟨_, h2⟩
    · subst h2 h3; omega
    · omega

example : (mk' 2024 3 25).Valid ∧ ymd (toCDS (mk' 2024 3 25) true) = (2024, 6, 20) ∧
    ymd (toCDS (mk' 2024 1 15) false) = (2023, 12, 20) := by decide +kernel
example : SafeDate (mk' 2024 3 25) := by
  have : ymd (mk' 2024 3 25) = (2024, 3, 25) := by decide +kernel
  unfold SafeDate; rw [this]; simp only [before]; omega

/-- From a non-quarter month before the 20th the forward step stops in that month. -/
theorem C08_cds_violated : ymd (toCDS (mk' 2020 1 5) true) = (2020, 1, 20) ∧
    ¬ NextAfter IsCDS (mk' 2020 1 5) (toCDS (mk' 2020 1 5) true) := by
  have e : ymd (toCDS (mk' 2020 1 5) true) = (2020, 1, 20) := by decide +kernel
  refine ⟨e, ?_⟩
  rintro ⟨_, ⟨_, h⟩, _⟩
  simp only [ymd, Prod.mk.injEq] at e
  rw [e.2.1] at h
  omega

/-- Monthly IMM steps, both directions: the nearest third Wednesday strictly after / before. -/
theorem C08_imm_monthly (d : Date) (hv : d.Valid) (hs : SafeDate d) :
    NextAfter IsIMM d (toIMM d true 1) ∧ PrevBefore IsIMM d (toIMM d false 1) := by
  obtain ⟨_, b, _⟩ := ymd_spec hv
  have m1 := b.m1; have m2 := b.m12; have d1 := b.d1
  have hs0 : SafeMonth (year d) (month d) := hs.near m1 m2 m1 m2 d1 (by omega)
  obtain ⟨_, _, _, k0⟩ := immDay_spec hs0 m1 m2
  constructor
  · obtain ⟨y', m', e, hm1, hm2, hrel⟩ : ∃ y' m', toIMM d true 1 = mk' y' m' (immDay y' m') ∧ 1 ≤ m' ∧
        m' ≤ 12 ∧ ((day d < immDay (year d) (month d) ∧ y' = year d ∧ m' = month d) ∨
          (immDay (year d) (month d) ≤ day d ∧ 12 * y' + m' = 12 * year d + month d + 1)) := by
      unfold toIMM
      simp only [if_true, decide_eq_true_eq]
      refine ⟨_, _, rfl, ?_⟩
      generalize immDay (year d) (month d) = K at *
      generalize month d = m at *
      generalize day d = dd at *
      generalize year d = y at *
      split
      · rw [advance_fwd1]
        unfold monthInRange
        by_cases hc : m + 1 > 12
        · simp only [hc, if_true]; rw [if_neg (by omega)]; simp only; omega
        · simp only [hc, if_false]; rw [if_neg (by omega)]; simp only; omega
      · unfold monthInRange
        simp only [show ¬ m > 12 by omega, if_false, show ¬ m < 1 by omega, and_true]; omega
    have hsm : SafeMonth y' m' := hs.near hm1 hm2 m1 m2 d1 (by omega)
    obtain ⟨i1, i2, i3, i4⟩ := immDay_spec hsm hm1 hm2
    obtain ⟨_, _, _, hval, e1, e2, e3⟩ := safe_ctor hsm hm1 hm2 (d := immDay y' m') (le_trans (by decide) i1) (le_trans i2 (by decide))
    rw [e]
    refine ⟨hval, ⟨i3, by rw [e3]; exact i1, by rw [e3]; exact i2⟩, ?_, ?_⟩
    · rw [C02_order_is_calendar_order _ _ hv hval, e1, e2, e3]
      simp only [before]
      clear * - hrel m1 m2 hm1 hm2
      generalize month d = m at *
      generalize day d = dd at *
      generalize year d = y at *
      rcases hrel with ⟨h1, h2, h3⟩ | ⟨h1, h2⟩
      · subst h2; subst h3
        generalize immDay y' m' = K at *
        omega
      · generalize immDay y' m' = K at *
        generalize immDay y m = K at *
        omega
    · rintro x hx hP hlt
      rw [C02_order_is_calendar_order _ _ hv hx] at hlt
      rw [C02_order_is_calendar_order _ _ hx hval, e1, e2, e3]
      obtain ⟨_, bx, _⟩ := ymd_spec hx
      have mx1 := bx.m1; have mx2 := bx.m12
      have u1 : year x = y' → month x = m' → day x = immDay y' m' := fun a b => i4 x hx a b hP
      have u2 : year x = year d → month x = month d → day x = immDay (year d) (month d) :=
        fun a b => k0 x hx a b hP
      simp only [before] at hlt ⊢
      clear * - hlt hrel u1 u2 mx1 mx2 m1 m2 hm1 hm2
      generalize immDay (year d) (month d) = K at *
      generalize immDay y' m' = K' at *
      generalize day x = xd at *
      generalize month x = xm at *
      generalize year x = xy at *
      generalize month d = m at *
      generalize day d = dd at *
      generalize year d = y at *
      intro hlt2
      rcases hrel with ⟨h1, h2, h3⟩ | ⟨h1, h2⟩
      · subst h2; subst h3
        rcases hlt with h | ⟨h, h' | ⟨h', h''⟩⟩
        · omega
        · omega
        · have := u2 (by omega) (by omega); have := u1 (by omega) (by omega); omega
      · by_cases hsame : xy = y ∧ xm = m
        · have := u2 hsame.1 hsame.2; omega
        · have h6 : xy = y' ∧ xm = m' := by omega
          have := u1 h6.1 h6.2; omega
  · obtain ⟨y', m', e, hm1, hm2, hrel⟩ : ∃ y' m', toIMM d false 1 = mk' y' m' (immDay y' m') ∧ 1 ≤ m' ∧
        m' ≤ 12 ∧ ((immDay (year d) (month d) < day d ∧ y' = year d ∧ m' = month d) ∨
          (day d ≤ immDay (year d) (month d) ∧ 12 * y' + m' = 12 * year d + month d - 1)) := by
      unfold toIMM
      simp only [decide_eq_true_eq, Bool.false_eq_true, if_false]
      refine ⟨_, _, rfl, ?_⟩
      generalize immDay (year d) (month d) = K at *
      generalize month d = m at *
      generalize day d = dd at *
      generalize year d = y at *
      split
      · rw [advance_back1]
        unfold monthInRange
        simp only [show ¬ m - 1 > 12 by omega, if_false]
        by_cases hc : m - 1 < 1
        · simp only [hc, if_true]; try simp only [true_and, and_true]
          omega
        · simp only [hc, if_false]; try simp only [true_and, and_true]
          omega
      · unfold monthInRange
        simp only [show ¬ m > 12 by omega, if_false, show ¬ m < 1 by omega, and_true]; omega
    have hsm : SafeMonth y' m' := hs.near hm1 hm2 m1 m2 d1 (by omega)
    obtain ⟨i1, i2, i3, i4⟩ := immDay_spec hsm hm1 hm2
    obtain ⟨_, _, _, hval, e1, e2, e3⟩ := safe_ctor hsm hm1 hm2 (d := immDay y' m') (le_trans (by decide) i1) (le_trans i2 (by decide))
    rw [e]
    refine ⟨hval, ⟨i3, by rw [e3]; exact i1, by rw [e3]; exact i2⟩, ?_, ?_⟩
    · rw [C02_order_is_calendar_order _ _ hval hv, e1, e2, e3]
      simp only [before]
      clear * - hrel m1 m2 hm1 hm2
      generalize month d = m at *
      generalize day d = dd at *
      generalize year d = y at *
      rcases hrel with ⟨h1, h2, h3⟩ | ⟨h1, h2⟩
      · subst h2; subst h3
        generalize immDay y' m' = K at *
        omega
      · generalize immDay y' m' = K at *
        generalize immDay y m = K at *
        omega
    · rintro x hx hP hlt
      rw [C02_order_is_calendar_order _ _ hx hv] at hlt
      rw [C02_order_is_calendar_order _ _ hval hx, e1, e2, e3]
      obtain ⟨_, bx, _⟩ := ymd_spec hx
      have mx1 := bx.m1; have mx2 := bx.m12
      have u1 : year x = y' → month x = m' → day x = immDay y' m' := fun a b => i4 x hx a b hP
      have u2 : year x = year d → month x = month d → day x = immDay (year d) (month d) :=
        fun a b => k0 x hx a b hP
      simp only [before] at hlt ⊢
      clear * - hlt hrel u1 u2 mx1 mx2 m1 m2 hm1 hm2
      generalize immDay (year d) (month d) = K at *
      generalize immDay y' m' = K' at *
      generalize day x = xd at *
      generalize month x = xm at *
      generalize year x = xy at *
      generalize month d = m at *
      generalize day d = dd at *
      generalize year d = y at *
      intro hlt2
      rcases hrel with ⟨h1, h2, h3⟩ | ⟨h1, h2⟩
      · subst h2; subst h3
        rcases hlt with h | ⟨h, h' | ⟨h', h''⟩⟩
        · omega
        · omega
        · have := u2 (by omega) (by omega); have := u1 (by omega) (by omega); omega
      · by_cases hsame : xy = y ∧ xm = m
        · have := u2 hsame.1 hsame.2; omega
        · have h6 : xy = y' ∧ xm = m' := by omega
          have := u1 h6.1 h6.2; omega

example : ymd (toIMM (mk' 2024 3 20) true 1) = (2024, 4, 17) ∧
    ymd (toIMM (mk' 2024 3 20) false 1) = (2024, 2, 21) := by decide +kernel

/-- FULL CLAIM (false, see `C08_imm_quarterly_violated`): a quarterly IMM step gives the nearest
third Wednesday of a quarter month.  PROVED PART: from a date in a quarter month. -/
theorem C08_imm_quarterly_partial (d : Date) (hv : d.Valid) (hs : SafeDate d) (hq : month d % 3 = 0) :
    NextAfter (fun x => IsIMM x ∧ month x % 3 = 0) d (toIMM d true 3) ∧
    PrevBefore (fun x => IsIMM x ∧ month x % 3 = 0) d (toIMM d false 3) := by
  obtain ⟨_, b, _⟩ := ymd_spec hv
  have m1 := b.m1; have m2 := b.m12; have d1 := b.d1
  have hs0 : SafeMonth (year d) (month d) := hs.near m1 m2 m1 m2 d1 (by omega)
  obtain ⟨_, _, _, k0⟩ := immDay_spec hs0 m1 m2
  constructor
  · obtain ⟨y', m', e, hm1, hm2, hm3, hrel⟩ : ∃ y' m', toIMM d true 3 = mk' y' m' (immDay y' m') ∧ 1 ≤ m' ∧
        m' ≤ 12 ∧ m' % 3 = 0 ∧ ((day d < immDay (year d) (month d) ∧ y' = year d ∧ m' = month d) ∨
          (immDay (year d) (month d) ≤ day d ∧ 12 * y' + m' = 12 * year d + 3 * (month d / 3) + 3)) := by
      unfold toIMM
      simp only [if_true, decide_eq_true_eq]
      refine ⟨_, _, rfl, ?_⟩
      generalize immDay (year d) (month d) = K at *
      generalize month d = m at *
      generalize day d = dd at *
      generalize year d = y at *
      split
      · rw [advance_fwd3 m1 m2]
        unfold monthInRange
        by_cases hc : 3 * (m / 3) + 3 > 12
        · simp only [hc, if_true]; rw [if_neg (by omega)]; simp only; omega
        · simp only [hc, if_false]; rw [if_neg (by omega)]; simp only; omega
      · unfold monthInRange
        simp only [show ¬ m > 12 by omega, if_false, show ¬ m < 1 by omega, and_true]; omega
    have hsm : SafeMonth y' m' := hs.near hm1 hm2 m1 m2 d1 (by
      clear * - hrel m1 m2 hm1 hm2
      generalize immDay (year d) (month d) = K at *
      generalize month d = m at *
      generalize year d = y at *
      rcases hrel with ⟨_, h2, h3⟩ | ⟨_, h2⟩
      · subst h2 h3; omega
      · omega)
    obtain ⟨i1, i2, i3, i4⟩ := immDay_spec hsm hm1 hm2
    obtain ⟨_, _, _, hval, e1, e2, e3⟩ := safe_ctor hsm hm1 hm2 (d := immDay y' m') (le_trans (by decide) i1) (le_trans i2 (by decide))
    rw [e]
    refine ⟨hval, ⟨⟨i3, by rw [e3]; exact i1, by rw [e3]; exact i2⟩, by rw [e2]; exact hm3⟩, ?_, ?_⟩
    · rw [C02_order_is_calendar_order _ _ hv hval, e1, e2, e3]
      simp only [before]
      clear * - hrel m1 m2 hm1 hm2 hm3 hq
      generalize month d = m at *
      generalize day d = dd at *
      generalize year d = y at *
      rcases hrel with ⟨h1, h2, h3⟩ | ⟨h1, h2⟩
      · subst h2; subst h3
        generalize immDay y' m' = K at *
        omega
      · generalize immDay y' m' = K at *
        generalize immDay y m = K at *
        omega
    · rintro x hx ⟨hP, x2⟩ hlt
      rw [C02_order_is_calendar_order _ _ hv hx] at hlt
      rw [C02_order_is_calendar_order _ _ hx hval, e1, e2, e3]
      obtain ⟨_, bx, _⟩ := ymd_spec hx
      have mx1 := bx.m1; have mx2 := bx.m12
      have u1 : year x = y' → month x = m' → day x = immDay y' m' := fun a b => i4 x hx a b hP
      have u2 : year x = year d → month x = month d → day x = immDay (year d) (month d) :=
        fun a b => k0 x hx a b hP
      simp only [before] at hlt ⊢
      clear * - hlt hrel u1 u2 mx1 mx2 m1 m2 hm1 hm2 hm3 hq x2
      generalize immDay (year d) (month d) = K at *
      generalize immDay y' m' = K' at *
      generalize day x = xd at *
      generalize month x = xm at *
      generalize year x = xy at *
      generalize month d = m at *
      generalize day d = dd at *
      generalize year d = y at *
      intro hlt2
      rcases hrel with ⟨h1, h2, h3⟩ | ⟨h1, h2⟩
      · subst h2; subst h3
        rcases hlt with h | ⟨h, h' | ⟨h', h''⟩⟩
        · omega
        · omega
        · have := u2 (by omega) (by omega); have := u1 (by omega) (by omega); omega
      · by_cases hsame : xy = y ∧ xm = m
        · have := u2 hsame.1 hsame.2; omega
        · have h6 : xy = y' ∧ xm = m' := by omega
          have := u1 h6.1 h6.2; omega
  · obtain ⟨y', m', e, hm1, hm2, hm3, hrel⟩ : ∃ y' m', toIMM d false 3 = mk' y' m' (immDay y' m') ∧ 1 ≤ m' ∧
        m' ≤ 12 ∧ m' % 3 = 0 ∧ ((immDay (year d) (month d) < day d ∧ y' = year d ∧ m' = month d) ∨
          (day d ≤ immDay (year d) (month d) ∧ 12 * y' + m' = 12 * year d + 3 * ((month d - 1) / 3))) := by
      unfold toIMM
      simp only [decide_eq_true_eq, Bool.false_eq_true, if_false]
      refine ⟨_, _, rfl, ?_⟩
      generalize immDay (year d) (month d) = K at *
      generalize month d = m at *
      generalize day d = dd at *
      generalize year d = y at *
      split
      · rw [advance_back3 m1 m2]
        unfold monthInRange
        simp only [show ¬ 3 * ((m - 1) / 3) > 12 by omega, if_false]
        by_cases hc : 3 * ((m - 1) / 3) < 1
        · simp only [hc, if_true]; try simp only [true_and, and_true]
          omega
        · simp only [hc, if_false]; try simp only [true_and, and_true]
          omega
      · unfold monthInRange
        simp only [show ¬ m > 12 by omega, if_false, show ¬ m < 1 by omega, and_true]; omega
    have hsm : SafeMonth y' m' := hs.near hm1 hm2 m1 m2 d1 (by
      clear * - hrel m1 m2 hm1 hm2
      generalize immDay (year d) (month d) = K at *
      generalize month d = m at *
      generalize year d = y at *
      rcases hrel with ⟨_, h2, h3⟩ | ⟨_, h2⟩
      · subst h2 h3; omega
      · omega)
    obtain ⟨i1, i2, i3, i4⟩ := immDay_spec hsm hm1 hm2
    obtain ⟨_, _, _, hval, e1, e2, e3⟩ := safe_ctor hsm hm1 hm2 (d := immDay y' m') (le_trans (by decide) i1) (le_trans i2 (by decide))
    rw [e]
    refine ⟨hval, ⟨⟨i3, by rw [e3]; exact i1, by rw [e3]; exact i2⟩, by rw [e2]; exact hm3⟩, ?_, ?_⟩
    · rw [C02_order_is_calendar_order _ _ hval hv, e1, e2, e3]
      simp only [before]
      clear * - hrel m1 m2 hm1 hm2 hm3 hq
      generalize month d = m at *
      generalize day d = dd at *
      generalize year d = y at *
      rcases hrel with ⟨h1, h2, h3⟩ | ⟨h1, h2⟩
      · subst h2; subst h3
        generalize immDay y' m' = K at *
        omega
      · generalize immDay y' m' = K at *
        generalize immDay y m = K at *
        omega
    · rintro x hx ⟨hP, x2⟩ hlt
      rw [C02_order_is_calendar_order _ _ hx hv] at hlt
      rw [C02_order_is_calendar_order _ _ hval hx, e1, e2, e3]
      obtain ⟨_, bx, _⟩ := ymd_spec hx
      have mx1 := bx.m1; have mx2 := bx.m12
      have u1 : year x = y' → month x = m' → day x = immDay y' m' := fun a b => i4 x hx a b hP
      have u2 : year x = year d → month x = month d → day x = immDay (year d) (month d) :=
        fun a b => k0 x hx a b hP
      simp only [before] at hlt ⊢
      clear * - hlt hrel u1 u2 mx1 mx2 m1 m2 hm1 hm2 hm3 hq x2
      generalize immDay (year d) (month d) = K at *
      generalize immDay y' m' = K' at *
      generalize day x = xd at *
      generalize month x = xm at *
      generalize year x = xy at *
      generalize month d = m at *
      generalize day d = dd at *
      generalize year d = y at *
      intro hlt2
      rcases hrel with ⟨h1, h2, h3⟩ | ⟨h1, h2⟩
      · subst h2; subst h3
        rcases hlt with h | ⟨h, h' | ⟨h', h''⟩⟩
        · omega
        · omega
        · have := u2 (by omega) (by omega); have := u1 (by omega) (by omega); omega
      · by_cases hsame : xy = y ∧ xm = m
        · have := u2 hsame.1 hsame.2; omega
        · have h6 : xy = y' ∧ xm = m' := by omega
          have := u1 h6.1 h6.2; omega

example : month (mk' 2024 3 20) % 3 = 0 ∧ ymd (toIMM (mk' 2024 3 20) true 3) = (2024, 6, 19) ∧
    ymd (toIMM (mk' 2024 3 20) false 3) = (2023, 12, 20) := by decide +kernel

/-- Quarterly IMM steps stop in a non-quarter month when the date precedes its third Wednesday. -/
theorem C08_imm_quarterly_violated : ymd (toIMM (mk' 2020 1 5) true 3) = (2020, 1, 15) ∧
    (1 : Int) % 3 ≠ 0 := by decide +kernel

/-- Backward end-of-month step: the last day of the previous month, hence strictly before. -/
theorem C08_eom_backward (d : Date) (hv : d.Valid) (hs : SafeDate d) :
    PrevBefore (fun x => day x = monthLen (year x) (month x)) d (toEOM d false) := by
  obtain ⟨hn, b, _⟩ := ymd_spec hv
  have m1 := b.m1; have m2 := b.m12; have d1 := b.d1; have dl := b.dl
  have hs0 : SafeMonth (year d) (month d) := hs.near m1 m2 m1 m2 d1 (by omega)
  obtain ⟨r, ir, ng, hval, e1, e2, e3⟩ := safe_ctor hs0 m1 m2 (d := 1) (by omega) (by omega)
  have hser := mk'_serial r ir
  rw [if_neg ng] at hser
  have hlow : 1 < (mk' (year d) (month d) 1).serial := by
    have h70 : RealDate 1970 1 1 := ⟨by decide, by decide, by decide, by decide +kernel⟩
    have e70 : dayNum 1970 1 1 = 0 := by decide +kernel
    have := dayNum_lt h70 r (by
      unfold SafeDate at hs; simp only [before, ymd] at hs ⊢
      clear * - hs m1 m2 d1
      generalize year d = y at *
      generalize month d = m at *
      generalize day d = dd at *
      omega)
    rw [e70] at this
    clear * - this hser
    generalize dayNum (year d) (month d) 1 = a at *
    omega
  have hup := hval.2
  have he : ((addDays (mk' (year d) (month d) 1) (-1)).serial : Int)
      = (mk' (year d) (month d) 1).serial - 1 := by
    exact addDays_pred hlow (Nat.le_of_lt_succ hval.2)
  have hv' : (addDays (mk' (year d) (month d) 1) (-1)).Valid := by
    clear * - he hlow hup
    unfold Date.Valid
    generalize addDays (mk' (year d) (month d) 1) (-1) = E at *
    generalize mk' (year d) (month d) 1 = M at *
    omega
  have hdl1 := dayNum_day (y := year d) (m := month d) (d := day d)
  have hdl0 : (d.serial : Int) ≥ (mk' (year d) (month d) 1).serial := by
    clear * - hser hn hdl1 d1
    generalize dayNum (year d) (month d) 1 = a at *
    generalize mk' (year d) (month d) 1 = M at *
    generalize dayNum (year d) (month d) (day d) = b at *
    generalize day d = dd at *
    omega
  have hgoal : toEOM d false = addDays (mk' (year d) (month d) 1) (-1) := by
    unfold toEOM; rfl
  rw [hgoal]
  generalize hM : mk' (year d) (month d) 1 = M at *
  generalize hE : addDays M (-1) = E at *
  -- the day before the first of the month is a last day
  obtain ⟨sn, sr, _⟩ := ymd_spec hv'
  have key : day E = monthLen (year E) (month E) := by
    by_contra hne
    have hnx := dayNum_nextDay sr
    have hlt : day E < monthLen (year E) (month E) := lt_of_le_of_ne sr.dl hne
    have hrn := realDate_nextDay sr
    obtain ⟨_, _, q3⟩ := dayNum_inj hrn r (by
      rw [hnx, sn]
      clear * - hser he
      generalize dayNum (year d) (month d) 1 = a at *
      omega)
    simp only [nextDay, hlt, if_true] at q3
    have hd := sr.d1
    clear * - q3 hd
    generalize day E = e at *
    omega
  refine ⟨hv', key, ?_, ?_⟩
  · unfold lt; clear * - he hdl0; omega
  · intro x hx hP hlt hlt2
    unfold lt at hlt hlt2
    obtain ⟨xn, xr, _⟩ := ymd_spec hx
    -- x lies in d's month, strictly before d: not a last day
    have hx1 : ¬ before (year x, month x, day x) (year d, month d, 1) := by
      intro hb
      have := dayNum_lt xr r hb
      rw [xn] at this
      clear * - this he hlt2 hser
      generalize dayNum (year d) (month d) 1 = a at *
      omega
    have hx2 : before (year x, month x, day x) (year d, month d, day d) := by
      rw [← C02_order_is_calendar_order x d hx hv]; exact hlt
    have hmx : year x = year d ∧ month x = month d ∧ day x < day d := by
      have := xr.d1
      simp only [before] at hx1 hx2
      clear * - this hx1 hx2
      generalize day x = xd at *
      generalize month x = xm at *
      generalize year x = xy at *
      generalize month d = m at *
      generalize day d = dd at *
      generalize year d = y at *
      omega
    rw [hmx.1, hmx.2.1] at hP
    have h3 := hmx.2.2
    rw [hP] at h3
    exact absurd dl (not_le.mpr h3)

/-- Forward end-of-month step from a last day does not move (the claim "strictly after" fails). -/
theorem C08_eom_forward_violated : toEOM (mk' 2024 1 31) true = mk' 2024 1 31 := by decide +kernel

end Dal
