import Verif.Time.HolidaysLemmas

/-! # C09 - C12: business days and holiday centres -/

namespace Dal
open Date Hol Spec

/-- Specification of a business day: a declared working weekend of one of the centres, or a date
that is neither a Saturday/Sunday nor a holiday of any centre. -/
def BusinessDay (h : Hols) (d : Nat) : Prop :=
  (∃ c ∈ h, d ∈ c.workWeekends) ∨
  (¬ (weekdayAfterEpoch (d - 1) = 0 ∨ weekdayAfterEpoch (d - 1) = 6) ∧ ¬ ∃ c ∈ h, d ∈ c.holidays)

/-- Centres whose data passed the checks of AddCenter. -/
def Accepted (h : Hols) : Prop := ∀ c ∈ h, acceptable c.holidays c.workWeekends = true

theorem accepted_good {h : Hols} (g : Accepted h) : GoodHols h :=
  fun c hc => (acceptable_iff _ _).1 (g c hc)

/-! ## C09 -/

/-- The library's business-day test (NextBus/PrevBus condition) is the specification. -/
theorem C09_isBus_iff (h : Hols) (g : Accepted h) (d : Nat) (hd : (Date.mk d).Valid) :
    isBus h d = true ↔ BusinessDay h d := by
  have g := accepted_good g
  have h1 := isHoliday_iff g d
  have h2 := isWorkWeekends_iff g d
  have h3 := C03_weekend ⟨d⟩ hd
  simp only at h3
  unfold BusinessDay isBus
  rw [← h1, ← h2, ← h3]
  simp [weekEnd]

/-- `CountBusDays` counts exactly the business days of the half-open interval. -/
theorem C09_count_is_number_of_business_days (h : Hols) (g : Accepted h) (b e : Nat) :
    countBus h b e = (((List.range (e - b)).map (b + ·)).filter (isBus h)).length := by
  have g' := accepted_good g
  rw [countBus, countBusDays_eq (merged_good g'), cnt_congr (Q := isBus h) _ _
    (fun i _ => busOf_merged g' (b + i))]
  congr 1
  generalize e - b = n
  induction n with
  | zero => rfl
  | succ n ih =>
    rw [cnt, ih, List.range_succ, List.map_append, List.filter_append, List.length_append]
    congr 1
    simp only [List.map_cons, List.map_nil, List.filter_cons, List.filter_nil]
    split <;> rfl

/-- Counting is additive over adjacent intervals. -/
theorem C09_count_additive (h : Hols) (g : Accepted h) (a b c : Nat) (hab : a ≤ b) (hbc : b ≤ c) :
    countBus h a c = countBus h a b + countBus h b c := by
  have g' := accepted_good g
  simp only [countBus]
  rw [countBusDays_eq (merged_good g'), countBusDays_eq (merged_good g'),
    countBusDays_eq (merged_good g')]
  have e : c - a = (b - a) + (c - b) := by omega
  rw [e, cnt_add]
  have e2 : a + (b - a) = b := by omega
  rw [e2]; push_cast; rfl

/-- A centre with a Christmas holiday and a working Saturday. -/
def demoCenter : Center := ⟨"X", [(mk' 2023 12 25).serial, (mk' 2023 12 26).serial], [(mk' 2023 12 30).serial]⟩

example : Accepted [demoCenter] ∧
    countBus [demoCenter] (mk' 2023 12 22).serial (mk' 2024 1 1).serial = 5 := by
  constructor
  · intro c hc
    simp only [List.mem_singleton] at hc
    subst hc
    decide +kernel
  · decide +kernel

/-! ## C10 -/

/-- NextBus returns the least business day on or after the date, when there is one up to the last
representable date; it returns for every date iff some business day exists at all. -/
theorem C10_nextBus_least (h : Hols) (d e : Nat) (hde : d ≤ e) (he : e < 65536)
    (hb : isBus h e = true) :
    ∃ r, nextBus h d = some r ∧ d ≤ r ∧ r ≤ e ∧ isBus h r = true ∧
      ∀ x, d ≤ x → x < r → isBus h x = false :=
  nextLoop_some h 65536 d e hde he (by omega) hb

/-- PrevBus returns the greatest business day on or before the date. -/
theorem C10_prevBus_greatest (h : Hols) (d e : Nat) (hde : e ≤ d) (hd : d < 65536)
    (hb : isBus h e = true) :
    ∃ r, prevBus h d = some r ∧ r ≤ d ∧ e ≤ r ∧ isBus h r = true ∧
      ∀ x, r < x → x ≤ d → isBus h x = false :=
  prevLoop_some h 65536 d e hde hd (by omega) hb

theorem nextBus_isBus {h : Hols} {d r : Nat} (hr : nextBus h d = some r) : isBus h r = true := by
  unfold nextBus at hr
  generalize 65536 = n at hr
  revert d
  induction n with
  | zero => intro d hr; simp [nextBusLoop] at hr
  | succ n ih =>
    intro d hr
    unfold nextBusLoop at hr
    split at hr
    · injection hr with e; subst e; assumption
    · exact ih hr

theorem prevBus_isBus {h : Hols} {d r : Nat} (hr : prevBus h d = some r) : isBus h r = true := by
  unfold prevBus at hr
  generalize 65536 = n at hr
  revert d
  induction n with
  | zero => intro d hr; simp [prevBusLoop] at hr
  | succ n ih =>
    intro d hr
    unfold prevBusLoop at hr
    split at hr
    · injection hr with e; subst e; assumption
    · exact ih hr

theorem nextBus_of_isBus {h : Hols} {d : Nat} (hd : isBus h d = true) : nextBus h d = some d := by
  unfold nextBus
  rw [nextBusLoop, if_pos hd]

theorem prevBus_of_isBus {h : Hols} {d : Nat} (hd : isBus h d = true) : prevBus h d = some d := by
  unfold prevBus
  rw [prevBusLoop, if_pos hd]

/-- Both searches are idempotent. -/
theorem C10_idempotent (h : Hols) (d r : Nat) :
    (nextBus h d = some r → nextBus h r = some r) ∧
    (prevBus h d = some r → prevBus h r = some r) :=
  ⟨fun hr => nextBus_of_isBus (nextBus_isBus hr), fun hr => prevBus_of_isBus (prevBus_isBus hr)⟩

/-- Both searches terminate exactly when a business day exists. -/
theorem C10_terminates_iff (h : Hols) (d : Nat) (hd : d < 65536) :
    (nextBus h d = none ↔ ∀ s < 65536, isBus h s = false) ∧
    (prevBus h d = none ↔ ∀ s < 65536, isBus h s = false) := by
  constructor
  · rw [nextBus, nextLoop_none h _ _ hd]
    constructor
    · intro hc s hs
      have := hc ((s + 65536 - d) % 65536) (Nat.mod_lt _ (by omega))
      rwa [Nat.add_mod_mod, show d + (s + 65536 - d) = s + 65536 by omega, Nat.add_mod_right,
        Nat.mod_eq_of_lt hs] at this
    · intro hc i _
      exact hc _ (Nat.mod_lt _ (by omega))
  · rw [prevBus, prevLoop_none h _ _ hd]
    constructor
    · intro hc s hs
      have := hc ((d + 65536 - s) % 65536) (Nat.mod_lt _ (by omega))
      have e : (d + 65535 * ((d + 65536 - s) % 65536)) % 65536 = s := by omega
      rwa [e] at this
    · intro hc i _
      exact hc _ (Nat.mod_lt _ (by omega))

example : nextBus [demoCenter] (mk' 2023 12 23).serial = some (mk' 2023 12 27).serial ∧
    prevBus [demoCenter] (mk' 2023 12 26).serial = some (mk' 2023 12 22).serial := by
  decide +kernel

/-! ## C11 -/

/-- One business-day step forward from `d`. -/
theorem step_fwd_spec {h : Hols} {d e : Nat} (hde : d < e) (he : e < 65536) (hb : isBus h e = true) :
    ∃ r, nextBus h ((d + 1) % 65536) = some r ∧ d < r ∧ r ≤ e ∧ isBus h r = true ∧
      (∀ x, d < x → x < r → isBus h x = false) := by
  rw [Nat.mod_eq_of_lt (by omega)]
  obtain ⟨r, h1, h2, h3, h4, h5⟩ := C10_nextBus_least h (d + 1) e hde he hb
  exact ⟨r, h1, h2, h3, h4, fun x hx => h5 x hx⟩

theorem cnt_pos_exists {P : Nat → Bool} {b n : Nat} (hp : 0 < cnt P b n) :
    ∃ x, b ≤ x ∧ x < b + n ∧ P x = true := by
  induction n with
  | zero => simp [cnt] at hp
  | succ n ih =>
    unfold cnt at hp
    by_cases hx : P (b + n) = true
    · exact ⟨b + n, by omega, by omega, hx⟩
    · rw [if_neg hx] at hp
      obtain ⟨x, h1, h2, h3⟩ := ih hp
      exact ⟨x, h1, by omega, h3⟩

theorem cnt_zero_of_none {P : Nat → Bool} {b n : Nat} (hp : ∀ x, b ≤ x → x < b + n → P x = false) :
    cnt P b n = 0 := by
  induction n with
  | zero => rfl
  | succ n ih =>
    rw [cnt, ih (fun x h1 h2 => hp x h1 (by omega)), hp (b + n) (by omega) (by omega)]
    rfl

/-- Number of business days in `(a, b]`. -/
def busBetween (h : Hols) (a b : Nat) : Nat := cnt (isBus h) (a + 1) (b - a)

theorem stepFwd_spec (h : Hols) (n : Nat) : ∀ d, d < 65536 → n ≤ busBetween h d 65535 →
    ∃ r, stepFwd h n d = some r ∧ d ≤ r ∧ r < 65536 ∧ busBetween h d r = n ∧
      (0 < n → isBus h r = true) := by
  induction n with
  | zero =>
    intro d hd _
    exact ⟨d, rfl, le_refl _, hd, by simp [busBetween, cnt], by simp⟩
  | succ n ih =>
    intro d hd hn
    obtain ⟨e, h1, h2, h3⟩ := cnt_pos_exists (P := isBus h) (b := d + 1) (n := 65535 - d)
      (by unfold busBetween at hn; omega)
    obtain ⟨r, r1, r2, r3, r4, r5⟩ := step_fwd_spec (h := h) (d := d) (e := e) (by omega) (by omega) h3
    have one : busBetween h d r = 1 := by
      unfold busBetween
      obtain ⟨k, hk⟩ : ∃ k, r - d = k + 1 := ⟨r - d - 1, by omega⟩
      rw [hk, cnt, cnt_zero_of_none (fun x a b => r5 x (by omega) (by omega)),
        show d + 1 + k = r by omega, r4]
      rfl
    have split : ∀ c, r ≤ c → busBetween h d c = 1 + busBetween h r c := by
      intro c hc
      have := cnt_add (isBus h) (d + 1) (r - d) (c - r)
      unfold busBetween at one ⊢
      rw [show r - d + (c - r) = c - d by omega, one, show d + 1 + (r - d) = r + 1 by omega] at this
      exact this
    obtain ⟨q, q1, q2, q3, q4, q5⟩ := ih r (by omega) (by have := split 65535 (by omega); omega)
    refine ⟨q, ?_, by omega, q3, by rw [split q q2, q4]; omega, ?_⟩
    · rw [stepFwd, r1]; exact q1
    · intro _
      cases n with
      | zero => rw [stepFwd] at q1; injection q1 with e'; rw [← e']; exact r4
      | succ n => exact q5 (by omega)

theorem stepBack_spec (h : Hols) (n : Nat) : ∀ d r, d < 65536 → r ≤ d → isBus h r = true →
    isBus h d = true → busBetween h r d = n → stepBack h n d = some r := by
  induction n with
  | zero =>
    intro d r hd hrd hr hbd hc
    rw [stepBack]
    by_cases he : r = d
    · rw [he]
    · exfalso
      unfold busBetween at hc
      obtain ⟨k, hk⟩ : ∃ k, d - r = k + 1 := ⟨d - r - 1, by omega⟩
      rw [hk, cnt, show r + 1 + k = d by omega, hbd] at hc
      simp at hc
  | succ n ih =>
    intro d r hd hrd hr hbd hc
    have hlt : r < d := by
      rcases Nat.lt_or_ge r d with hl | hl
      · exact hl
      · have : d - r = 0 := by omega
        unfold busBetween at hc; rw [this] at hc; simp [cnt] at hc
    obtain ⟨q, q1, q2, q3, q4, q5⟩ := C10_prevBus_greatest h (d - 1) r (by omega) (by omega) hr
    have hm : (d + 65535) % 65536 = d - 1 := by omega
    rw [stepBack, hm, q1]
    show stepBack h n q = some r
    apply ih q r (by omega) q3 hr q4
    have hadd := cnt_add (isBus h) (r + 1) (q - r) (d - q)
    rw [show q - r + (d - q) = d - r by omega, show r + 1 + (q - r) = q + 1 by omega] at hadd
    have one : cnt (isBus h) (q + 1) (d - q) = 1 := by
      obtain ⟨k, hk⟩ : ∃ k, d - q = k + 1 := ⟨d - q - 1, by omega⟩
      rw [hk, cnt, cnt_zero_of_none (fun x a b => q5 x (by omega) (by omega)),
        show q + 1 + k = d by omega, hbd]
      rfl
    unfold busBetween at hc ⊢
    omega

/-- Stepping forward `n` business days lands on the business day with exactly `n` business days in
`(d, r]`, and stepping back `n` business days from there returns to `d` when `d` is a business day.
(Hypothesis: the calendar has `n` business days left before the last representable date.) -/
theorem C11_steps_invert (h : Hols) (n d : Nat) (hd : d < 65536)
    (hn : n ≤ busBetween h d 65535) (hb : isBus h d = true) :
    ∃ r, stepFwd h n d = some r ∧ isBus h r = true ∧ busBetween h d r = n ∧
      stepBack h n r = some d := by
  obtain ⟨r, h1, h2, h3, h4, h5⟩ := stepFwd_spec h n d hd hn
  have hbr : isBus h r = true := by
    cases n with
    | zero => rw [stepFwd] at h1; injection h1 with e; rw [← e]; exact hb
    | succ n => exact h5 (by omega)
  exact ⟨r, h1, hbr, h4, stepBack_spec h n r d h3 h2 hb hbr h4⟩

/-- Libor dates: the start date computed from a fixing date is `nDays` business days later and the
fixing date computed back from it is the original, for every business-day fixing date. -/
theorem C11_libor_fix_start (h : Hols) (nDays fix : Nat) (hf : fix < 65536)
    (hn : nDays ≤ busBetween h fix 65535) (hb : isBus h fix = true) :
    ∃ s, startFromFix h nDays fix = some s ∧ isBus h s = true ∧ busBetween h fix s = nDays ∧
      fixFromStart h nDays s = some fix := by
  by_cases h0 : nDays = 0
  · subst h0
    refine ⟨fix, ?_, hb, by simp [busBetween, cnt], ?_⟩
    · simp [startFromFix, nextBus_of_isBus hb]
    · simp [fixFromStart, prevBus_of_isBus hb]
  · obtain ⟨r, h1, h2, h3, h4⟩ := C11_steps_invert h nDays fix hf hn hb
    exact ⟨r, by simp [startFromFix, h0, h1], h2, h3, by simp [fixFromStart, h0, h4]⟩

example : isBus [demoCenter] (mk' 2023 12 22).serial = true ∧
    startFromFix [demoCenter] 3 (mk' 2023 12 22).serial = some (mk' 2023 12 29).serial ∧
    fixFromStart [demoCenter] 3 (mk' 2023 12 29).serial = some (mk' 2023 12 22).serial := by
  decide +kernel

/-- From a date that is not a business day the two directions are not inverse (the source's TODO). -/
theorem C11_not_inverse_off_business_days :
    startFromFix [demoCenter] 2 (mk' 2023 12 24).serial = some (mk' 2023 12 28).serial ∧
    fixFromStart [demoCenter] 2 (mk' 2023 12 28).serial = some (mk' 2023 12 22).serial := by
  decide +kernel

/-- C11: whatever the given date, the start date of a rate and its fixing date are business days; without a lag they are the nearest ones. -/
theorem C11_libor_business_days (h : Hols) (nDays d r : Nat) :
    (startFromFix h nDays d = some r → isBus h r = true) ∧ (fixFromStart h nDays d = some r → isBus h r = true) ∧
    (startFromFix h 0 d = nextBus h d ∧ fixFromStart h 0 d = prevBus h d) := by
  have fwd : ∀ n d, 0 < n → stepFwd h n d = some r → isBus h r = true := by
    intro n
    induction n with
    | zero => intro d h0; omega
    | succ n ih =>
      intro d _ hs
      rw [stepFwd, Option.bind_eq_some_iff] at hs
      obtain ⟨e, h1, h2⟩ := hs
      cases n with
      | zero => rw [stepFwd] at h2; cases h2; exact nextBus_isBus h1
      | succ n => exact ih e (by omega) h2
  have back : ∀ n d, 0 < n → stepBack h n d = some r → isBus h r = true := by
    intro n
    induction n with
    | zero => intro d h0; omega
    | succ n ih =>
      intro d _ hs
      rw [stepBack, Option.bind_eq_some_iff] at hs
      obtain ⟨e, h1, h2⟩ := hs
      cases n with
      | zero => rw [stepBack] at h2; cases h2; exact prevBus_isBus h1
      | succ n => exact ih e (by omega) h2
  refine ⟨fun hs => ?_, fun hs => ?_, by rw [startFromFix, if_pos rfl], by rw [fixFromStart, if_pos rfl]⟩
  · unfold startFromFix at hs
    by_cases h0 : nDays = 0
    · rw [if_pos h0] at hs; exact nextBus_isBus hs
    · rw [if_neg h0] at hs; exact fwd nDays d (by omega) hs
  · unfold fixFromStart at hs
    by_cases h0 : nDays = 0
    · rw [if_pos h0] at hs; exact prevBus_isBus hs
    · rw [if_neg h0] at hs; exact back nDays d (by omega) hs

/-! ## C12 -/

/-- A registration request. -/
structure Request where
  city : String
  hols : List Nat
  wws : List Nat
  deriving DecidableEq

/-- Concurrent execution of AddCenter: `read t` is the part before the mutex (the checks and the
copy, holidaydata.cpp:53-63), `write t` the part under the mutex (65-68).  The unsynchronised copy is
treated as atomic, which is generous: in C++ it is a data race. -/
inductive Ev
  | read (t : Nat)
  | write (t : Nat)

structure Sys where
  reg : Registry
  copies : Nat → Option Registry

def Sys.step (req : Nat → Request) (s : Sys) : Ev → Option Sys
  | .read t =>
    match addCenter s.reg (req t).city (req t).hols (req t).wws with
    | some r => some { s with copies := fun u => if u = t then some r else s.copies u }
    | none => none
  | .write t =>
    match s.copies t with
    | some r => some { s with reg := r }
    | none => none

def Sys.run (req : Nat → Request) (s : Sys) : List Ev → Option Sys
  | [] => some s
  | e :: es => (s.step req e).bind (fun s' => s'.run req es)

/-- Sequential registrations. -/
def addAll (r : Registry) : List Request → Option Registry
  | [] => some r
  | q :: qs => (addCenter r q.city q.hols q.wws).bind (fun r' => addAll r' qs)

theorem isValid_append {r : Registry} {city : String} {hols wws : List Nat}
    (hv : r.isValid = true) :
    Registry.isValid ⟨r.centers ++ [⟨city, hols, wws⟩], r.index ++ [(city, r.centers.length)]⟩ = true := by
  unfold Registry.isValid at hv ⊢
  simp only [Bool.and_eq_true, beq_iff_eq, List.all_eq_true, List.length_append,
    List.length_singleton, List.mem_append, List.mem_singleton] at hv ⊢
  refine ⟨by omega, ?_⟩
  rintro ci (hci | rfl)
  · have := hv.2 ci hci
    split at this
    · rename_i c hc
      have hlt : ci.2 < r.centers.length := by
        by_contra hn
        rw [List.getElem?_eq_none (by omega)] at hc; simp at hc
      rw [List.getElem?_append_left hlt, hc]; exact this
    · simp at this
  · simp

theorem addCenter_found {r r' : Registry} {city : String} {hols wws : List Nat}
    (h : addCenter r city hols wws = some r') :
    r.isValid = true ∧ acceptable hols wws = true ∧ ofCenter r city = none ∧ r'.isValid = true ∧
    ofCenter r' city = some ⟨city, hols, wws⟩ ∧
    (∀ c, c ≠ city → ofCenter r' c = ofCenter r c) := by
  unfold addCenter at h
  split at h
  · rename_i hc
    simp only [Bool.and_eq_true, Bool.not_eq_true'] at hc
    obtain ⟨⟨hv, ha⟩, hd⟩ := hc
    rw [if_pos (isValid_append hv)] at h
    injection h with h
    have hnone : r.index.find? (fun p => p.1 == city) = none := by
      rw [List.find?_eq_none]
      intro p hp
      have := List.any_eq_false.1 hd p hp
      exact this
    refine ⟨hv, ha, ?_, ?_, ?_, ?_⟩
    · unfold ofCenter; rw [hnone]
    · rw [← h]; exact isValid_append hv
    · rw [← h]
      unfold ofCenter
      simp [List.find?_append, hnone]
    · intro c hc
      rw [← h]
      unfold ofCenter
      simp only [List.find?_append]
      cases hf : r.index.find? (fun p => p.1 == c) with
      | none =>
        have : (city == c) = false := by simpa using fun e => hc e.symm
        simp [this]
      | some p =>
        simp only [Option.some_or]
        have hp := List.mem_of_find?_eq_some hf
        unfold Registry.isValid at hv
        simp only [Bool.and_eq_true, List.all_eq_true] at hv
        have := hv.2 p hp
        split at this
        · rename_i cc hcc
          have hlt : p.2 < r.centers.length := by
            by_contra hn
            rw [List.getElem?_eq_none (by omega)] at hcc; simp at hcc
          rw [List.getElem?_append_left hlt]
        · simp at this
  · simp at h

theorem addCenter_ok {r : Registry} {city : String} {hols wws : List Nat}
    (hv : r.isValid = true) (ha : acceptable hols wws = true) (hn : ofCenter r city = none) :
    ∃ r', addCenter r city hols wws = some r' := by
  unfold addCenter
  have hd : r.index.any (fun p => p.1 == city) = false := by
    rw [List.any_eq_false]
    intro p hp hpc
    unfold ofCenter at hn
    cases hf : r.index.find? (fun p => p.1 == city) with
    | none => exact absurd hpc (List.find?_eq_none.1 hf p hp)
    | some q =>
      rw [hf] at hn
      simp only at hn
      unfold Registry.isValid at hv
      simp only [Bool.and_eq_true, List.all_eq_true] at hv
      have := hv.2 q (List.mem_of_find?_eq_some hf)
      rw [hn] at this; simp at this
  simp only [hv, ha, hd, Bool.not_false, Bool.and_self, if_true]
  exact ⟨_, by rw [if_pos (isValid_append hv)]⟩

/-- FULL CLAIM (false, see `C12_lost_update`): after any concurrent execution of registrations of
distinct centres every registered centre is found.  PROVED PART: executions in which the
registrations do not overlap — every registration succeeds and every centre is found with its data. -/
theorem C12_sequential_registration_partial (qs : List Request) : ∀ r : Registry,
    r.isValid = true → (qs.map Request.city).Nodup →
    (∀ q ∈ qs, ofCenter r q.city = none ∧ acceptable q.hols q.wws = true) →
    ∃ r', addAll r qs = some r' ∧ r'.isValid = true ∧
      (∀ q ∈ qs, ofCenter r' q.city = some ⟨q.city, q.hols, q.wws⟩) ∧
      (∀ c, c ∉ qs.map Request.city → ofCenter r' c = ofCenter r c) := by
  induction qs with
  | nil => intro r hv _ _; exact ⟨r, rfl, hv, by simp, by simp⟩
  | cons q qs ih =>
    intro r hv hnd hq
    obtain ⟨hn, ha⟩ := hq q (by simp)
    obtain ⟨r1, h1⟩ := addCenter_ok hv ha hn
    obtain ⟨_, _, _, hv1, hf1, ho1⟩ := addCenter_found h1
    rw [List.map_cons, List.nodup_cons] at hnd
    obtain ⟨r2, h2, hv2, hf2, ho2⟩ := ih r1 hv1 hnd.2 (by
      intro q' hq'
      obtain ⟨a, b⟩ := hq q' (by simp [hq'])
      refine ⟨?_, b⟩
      rw [ho1 _ ?_]; · exact a
      rintro e
      exact hnd.1 (e ▸ List.mem_map_of_mem hq'))
    refine ⟨r2, ?_, hv2, ?_, ?_⟩
    · rw [addAll, h1]; exact h2
    · intro q' hq'
      rcases List.mem_cons.1 hq' with rfl | hq'
      · rw [ho2 _ hnd.1]; exact hf1
      · exact hf2 q' hq'
    · intro c hc
      rw [List.map_cons, List.mem_cons, not_or] at hc
      rw [ho2 c hc.2, ho1 c hc.1]

example : ∃ r', addAll ⟨[], []⟩ [⟨"A", [], []⟩, ⟨"B", [], []⟩] = some r' := ⟨_, rfl⟩

/-- In every interleaving the registry stays valid and every centre found carries exactly the data
of a request for that name or of the initial registry: registrations can be lost but not mixed up. -/
theorem C12_no_corruption (req : Nat → Request) (es : List Ev) (r0 : Registry)
    (h0 : r0.isValid = true) (s : Sys) (h : Sys.run req ⟨r0, fun _ => none⟩ es = some s) :
    s.reg.isValid = true ∧ ∀ c x, ofCenter s.reg c = some x →
      ofCenter r0 c = some x ∨ ∃ t, (req t).city = c ∧ x = ⟨c, (req t).hols, (req t).wws⟩ := by
  let Inv : Registry → Prop := fun r => r.isValid = true ∧ ∀ c x, ofCenter r c = some x →
      ofCenter r0 c = some x ∨ ∃ t, (req t).city = c ∧ x = ⟨c, (req t).hols, (req t).wws⟩
  have key : ∀ (es : List Ev) (s s' : Sys), Inv s.reg → (∀ t r, s.copies t = some r → Inv r) →
      s.run req es = some s' → Inv s'.reg := by
    intro es
    induction es with
    | nil => intro s s' h1 _ h3; simp only [Sys.run, Option.some.injEq] at h3; rw [← h3]; exact h1
    | cons e es ih =>
      intro s s' h1 h2 h3
      simp only [Sys.run] at h3
      cases hs : s.step req e with
      | none => rw [hs] at h3; simp at h3
      | some s1 =>
        rw [hs] at h3
        refine ih s1 s' ?_ ?_ h3
        · cases e with
          | read t =>
            simp only [Sys.step] at hs
            split at hs
            · injection hs with hs; rw [← hs]; exact h1
            · simp at hs
          | write t =>
            simp only [Sys.step] at hs
            split at hs
            · rename_i r hr; injection hs with hs; rw [← hs]; exact h2 t r hr
            · simp at hs
        · cases e with
          | read t =>
            simp only [Sys.step] at hs
            split at hs
            · rename_i r hr
              injection hs with hs
              intro u ru hu
              rw [← hs] at hu
              simp only at hu
              split at hu
              · injection hu with hu
                rw [← hu]
                obtain ⟨_, _, _, hv, hf, ho⟩ := addCenter_found hr
                refine ⟨hv, ?_⟩
                intro c x hx
                by_cases hc : c = (req t).city
                · right
                  rw [hc, hf] at hx
                  injection hx with hx
                  exact ⟨t, hc.symm, by rw [hc]; exact hx.symm⟩
                · rw [ho c hc] at hx; exact h1.2 c x hx
              · exact h2 u ru hu
            · simp at hs
          | write t =>
            simp only [Sys.step] at hs
            split at hs
            · injection hs with hs; rw [← hs]; exact h2
            · simp at hs
  exact key es _ s ⟨h0, fun c x hx => Or.inl hx⟩ (by simp) h

/-- Two overlapping registrations of distinct centres: both calls complete without exception and
one of the centres is gone. -/
theorem C12_lost_update : ∃ (req : Nat → Request) (es : List Ev) (s : Sys),
    (req 0).city ≠ (req 1).city ∧
    Sys.run req ⟨⟨[], []⟩, fun _ => none⟩ es = some s ∧
    es = [.read 0, .read 1, .write 0, .write 1] ∧
    ofCenter s.reg (req 0).city = none ∧ (ofCenter s.reg (req 1).city).isSome := by
  refine ⟨fun t => if t = 0 then ⟨"A", [], []⟩ else ⟨"B", [], []⟩, _,
    ⟨⟨[⟨"B", [], []⟩], [("B", 0)]⟩, fun u => if u = 1 then some ⟨[⟨"B", [], []⟩], [("B", 0)]⟩
      else if u = 0 then some ⟨[⟨"A", [], []⟩], [("A", 0)]⟩ else none⟩, by decide, ?_, rfl, ?_⟩
  · rfl
  · decide

end Dal
