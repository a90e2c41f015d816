import Verif.Time.StepModel
import Verif.Time.IncrementProps
import Verif.Time.DateTextProps
import Verif.Strings.EnumProps
import Verif.Strings.StringProps

/-!
# C70: tenors

Specification: serial numbers for days and weeks, year, month and day for months and years, the number of business days strictly between for business days.
-/

namespace Dal
open Dal.Date Dal.Incr Dal.Hol Dal.Spec Dal.Strings

attribute [local irreducible] mk' year month day nextBus prevBus

/-- The direction of a step. -/
def dir (fwd : Bool) : Int := if fwd then 1 else -1

/-- C70: a step of calendar days or weeks without holidays moves by exactly that many days, in the direction asked for, and the opposite step comes back. -/
theorem C70_days (n : Nat) (fwd : Bool) (d : Date) (hd : d.serial < 65536) (k : StepSize) (w : Int) (hk : k = .CD ∧ w = 1 ∨ k = .W ∧ w = 7)
    (h0 : 0 ≤ d.serial + dir fwd * w * n) (h1 : d.serial + dir fwd * w * n < 65536) :
    ∃ r : Date, stepBy k n [] fwd d = some r ∧ (r.serial : Int) = d.serial + dir fwd * w * n ∧ stepBy k n [] (!fwd) r = some d := by
  have key : ∀ (m : Int) (e : Date), 0 ≤ e.serial + m → e.serial + m < 65536 → ((addDays e m).serial : Int) = e.serial + m := by
    intro m e a b
    simp only [addDays, toU16]
    omega
  have ext : ∀ a b : Date, (a.serial : Int) = b.serial → a = b := by
    intro a b h
    cases a; cases b
    simp only [Date.mk.injEq] at h ⊢
    exact_mod_cast h
  rcases hk with ⟨rfl, rfl⟩ | ⟨rfl, rfl⟩ <;> cases fwd <;> simp only [dir, Bool.false_eq_true, if_false, if_true] at h0 h1 ⊢
  · refine ⟨addDays d (n * -1), by simp [stepBy], by rw [key _ _ (by omega) (by omega)]; omega, ?_⟩
    have : stepBy .CD n [] (!false) (addDays d (n * -1)) = some (addDays (addDays d (n * -1)) (n * 1)) := by simp [stepBy]
    rw [this]
    congr 1
    apply ext
    have := key (n * -1) d (by omega) (by omega)
    rw [key _ _ (by omega) (by omega)]
    omega
  · refine ⟨addDays d (n * 1), by simp [stepBy], by rw [key _ _ (by omega) (by omega)]; omega, ?_⟩
    have : stepBy .CD n [] (!true) (addDays d (n * 1)) = some (addDays (addDays d (n * 1)) (n * -1)) := by simp [stepBy]
    rw [this]
    congr 1
    apply ext
    have := key (n * 1) d (by omega) (by omega)
    rw [key _ _ (by omega) (by omega)]
    omega
  · refine ⟨addDays d (7 * n * -1), by simp [stepBy], by rw [key _ _ (by omega) (by omega)]; omega, ?_⟩
    have : stepBy .W n [] (!false) (addDays d (7 * n * -1)) = some (addDays (addDays d (7 * n * -1)) (7 * n * 1)) := by simp [stepBy]
    rw [this]
    congr 1
    apply ext
    have := key (7 * n * -1) d (by omega) (by omega)
    rw [key _ _ (by omega) (by omega)]
    omega
  · refine ⟨addDays d (7 * n * 1), by simp [stepBy], by rw [key _ _ (by omega) (by omega)]; omega, ?_⟩
    have : stepBy .W n [] (!true) (addDays d (7 * n * 1)) = some (addDays (addDays d (7 * n * 1)) (7 * n * -1)) := by simp [stepBy]
    rw [this]
    congr 1
    apply ext
    have := key (7 * n * 1) d (by omega) (by omega)
    rw [key _ _ (by omega) (by omega)]
    omega

/-- FULL CLAIM (false from 2034 on, see `C05_violated`): a step of months or years without holidays lands that many months away, on the same day or the last
one of the month. PROVED PART: the target month lies where dates are constructed correctly. -/
theorem C70_months_partial (n : Nat) (fwd : Bool) (d : Date) (h : d.Valid) (k : StepSize) (w : Int) (hk : k = .M ∧ w = 1 ∨ k = .Y ∧ w = 12)
    (t : Int × Int) (ht : t = shiftMonth (year d) (month d) (dir fwd * w * n)) (hlo : 1970 ≤ t.1)
    (hw : (t.1 ≤ 2033 ∨ t.1 = 2034 ∧ t.2 = 1) ∨ ((t.1 = 2100 ∧ 3 ≤ t.2 ∨ 2101 ≤ t.1) ∧ (t.1 ≤ 2148 ∨ t.1 = 2149 ∧ t.2 ≤ 5))) :
    ∃ r, stepBy k n [] fwd d = some r ∧ r.Valid ∧ ymd r = (t.1, t.2, min (day d) (monthLen t.1 t.2)) := by
  have e : stepBy k n [] fwd d = some (addMonths d (dir fwd * w * n) false) := by
    rcases hk with ⟨rfl, rfl⟩ | ⟨rfl, rfl⟩ <;> cases fwd
    all_goals
      simp only [stepBy, dir, ne_eq, not_true_eq_false, if_false, if_true, Bool.false_eq_true]
      congr 2
      omega
  obtain ⟨a, b⟩ := C05_addMonths_partial d (dir fwd * w * n) false h t ht hlo hw (by simp)
  exact ⟨_, e, a, by simpa using b⟩

/-- C70: with holidays, a step of days, weeks, months or years is the step without them, moved on to a business day in the direction of the step. -/
theorem C70_adjusted (k : StepSize) (hk : k ≠ .BD) (n : Nat) (h : Hols) (hh : h ≠ []) (fwd : Bool) (d : Date) :
    ∃ x, stepBy k n [] fwd d = some x ∧ stepBy k n h fwd d = (if fwd then nextBus h x.serial else prevBus h x.serial).map Date.mk := by
  cases k with
  | BD => exact absurd rfl hk
  | _ =>
    unfold stepBy
    dsimp only
    rw [if_neg (not_not.2 rfl), if_pos hh]
    exact ⟨_, rfl, Option.bind_some ..⟩

/-- C70: with holidays, every step ends on a business day. -/
theorem C70_ends_on_business_day (k : StepSize) (n : Nat) (h : Hols) (hh : h ≠ []) (fwd : Bool) (d r : Date) (hr : stepBy k n h fwd d = some r) :
    isBus h r.serial = true := by
  unfold stepBy at hr
  dsimp only at hr
  rw [if_pos hh, Option.bind_eq_some_iff] at hr
  obtain ⟨x, _, hx⟩ := hr
  rw [Option.map_eq_some_iff] at hx
  obtain ⟨s, hs, rfl⟩ := hx
  by_cases hf : fwd = true
  · rw [if_pos hf] at hs
    exact nextBus_isBus hs
  · rw [if_neg hf] at hs
    exact prevBus_isBus hs

private theorem back_spec (h : Hols) (n : Nat) : ∀ d, d < 65536 → n ≤ cnt (isBus h) 0 d →
    ∃ r, stepBack h n d = some r ∧ r ≤ d ∧ cnt (isBus h) r (d - r) = n ∧ (0 < n → isBus h r = true) := by
  induction n with
  | zero => exact fun d _ _ => ⟨d, rfl, le_refl _, by simp [cnt], by simp⟩
  | succ n ih =>
    intro d hd hn
    obtain ⟨e, h1, h2, h3⟩ := cnt_pos_exists (P := isBus h) (b := 0) (n := d) (by omega)
    obtain ⟨q, q1, q2, q3, q4, q5⟩ := C10_prevBus_greatest h (d - 1) e (by omega) (by omega) h3
    have hm : (d + 65535) % 65536 = d - 1 := by omega
    have one : cnt (isBus h) q (d - q) = 1 := by
      obtain ⟨k, hk⟩ : ∃ k, d - q = 1 + k := ⟨d - q - 1, by omega⟩
      rw [hk, cnt_add, cnt_zero_of_none (b := q + 1) (fun x a b => q5 x (by omega) (by omega))]
      simp [cnt, q4]
    have split : ∀ c, c ≤ q → cnt (isBus h) c (d - c) = cnt (isBus h) c (q - c) + 1 := by
      intro c hc
      have := cnt_add (isBus h) c (q - c) (d - q)
      rw [show q - c + (d - q) = d - c by omega, show c + (q - c) = q by omega, one] at this
      exact this
    obtain ⟨r, r1, r2, r3, r4⟩ := ih q (by omega) (by have := split 0 (by omega); simp only [Nat.sub_zero] at this; omega)
    refine ⟨r, ?_, by omega, by rw [split r r2, r3], fun _ => ?_⟩
    · rw [stepBack, hm, q1]
      exact r1
    · cases n with
      | zero => rw [stepBack] at r1; cases r1; exact q4
      | succ n => exact r4 (by omega)

/-- C70: a step of business days forward ends on the business day such that exactly that many business days come after the start, up to and with the end; a step
backward ends on the one such that exactly that many come before the start, from the end on. -/
theorem C70_business_days (n : Nat) (hn : 0 < n) (h : Hols) (d : Date) (hd : d.serial < 65536) :
    (n ≤ cnt (isBus h) (d.serial + 1) (65535 - d.serial) →
      ∃ r : Date, stepBy .BD n h true d = some r ∧ d.serial < r.serial ∧ isBus h r.serial = true ∧ cnt (isBus h) (d.serial + 1) (r.serial - d.serial) = n) ∧
    (n ≤ cnt (isBus h) 0 d.serial →
      ∃ r : Date, stepBy .BD n h false d = some r ∧ r.serial < d.serial ∧ isBus h r.serial = true ∧ cnt (isBus h) r.serial (d.serial - r.serial) = n) := by
  constructor
  · intro hc
    obtain ⟨r, r1, r2, r3, r4, r5⟩ := stepFwd_spec h n d.serial hd hc
    have hb := r5 hn
    have hlt : d.serial < r := by
      rcases Nat.lt_or_ge d.serial r with hl | hl
      · exact hl
      · unfold busBetween at r4
        rw [show r - d.serial = 0 by omega] at r4
        simp [cnt] at r4
        omega
    refine ⟨⟨r⟩, ?_, hlt, hb, r4⟩
    unfold stepBy
    simp only [if_true, r1, Option.map_some, Option.bind_some, nextBus_of_isBus hb, ite_self]
  · intro hc
    obtain ⟨r, r1, r2, r3, r4⟩ := back_spec h n d.serial hd hc
    have hb := r4 hn
    have hlt : r < d.serial := by
      rcases Nat.lt_or_ge r d.serial with hl | hl
      · exact hl
      · rw [show d.serial - r = 0 by omega] at r3
        simp [cnt] at r3
        omega
    refine ⟨⟨r⟩, ?_, hlt, hb, r3⟩
    unfold stepBy
    simp only [Bool.false_eq_true, if_false, r1, Option.map_some, Option.bind_some, prevBus_of_isBus hb, ite_self]

private theorem takeWhile_digits (a u : Str) (ha : ∀ c ∈ a, c.isDigit = true) (hu : ∀ c, u.head? = some c → c.isDigit = false) :
    (a ++ u).takeWhile Char.isDigit = a ∧ (a ++ u).dropWhile Char.isDigit = u := by
  induction a with
  | nil =>
    cases u with
    | nil => exact ⟨rfl, rfl⟩
    | cons c u => simp [hu c rfl]
  | cons c a ih =>
    obtain ⟨h1, h2⟩ := ih fun x hx => ha x (List.mem_cons_of_mem _ hx)
    have hc := ha c List.mem_cons_self
    constructor
    · rw [List.cons_append, List.takeWhile_cons, if_pos hc, h1]
    · rw [List.cons_append, List.dropWhile_cons, if_pos hc, h2]

private theorem takeWhile_semi (u v : Str) (hu : ';' ∉ u) : (u ++ ';' :: v).takeWhile (· ≠ ';') = u ∧ (u ++ ';' :: v).dropWhile (· ≠ ';') = ';' :: v := by
  induction u with
  | nil => exact ⟨rfl, rfl⟩
  | cons c u ih =>
    rw [List.mem_cons, not_or] at hu
    obtain ⟨h1, h2⟩ := ih hu.2
    have hc : decide (c ≠ ';') = true := decide_eq_true (Ne.symm hu.1)
    constructor
    · rw [List.cons_append, List.takeWhile_cons, if_pos hc, h1]
    · rw [List.cons_append, List.dropWhile_cons, if_pos hc, h2]

private theorem takeWhile_self (u : Str) (hu : ';' ∉ u) : u.takeWhile (· ≠ ';') = u := by
  rw [List.takeWhile_eq_self_iff]
  intro c hc
  simp only [ne_eq, decide_not, Bool.not_eq_true', decide_eq_false_iff_not]
  rintro rfl
  exact hu hc

/-- C70: the text of a number, with leading zeros or not, and of a spelling of a unit reads as that many steps of the unit, with no holidays or with those that
are named after a semicolon. -/
theorem C70_parse (sgn : Bool) (parseHols : Str → Option Hols) (n zeros : Nat) (hn : n ≤ 2147483647) (u v : Str) (k : StepSize) (hu : Ascii u)
    (hread : (condensed u, v) ∈ dateStepSizeTable.reads) (hk : stepOfName v = some k) (hd : ∀ c, u.head? = some c → c.isDigit = false) (hne : u ≠ [])
    (hs : ';' ∉ u ∧ '&' ∉ u) :
    parseIncrement sgn parseHols (DateText.padded '0' zeros n ++ u) = some [.steps n k []] ∧
    ∀ hols, '&' ∉ hols → parseIncrement sgn parseHols (DateText.padded '0' zeros n ++ u ++ ';' :: hols) = (parseHols hols).map fun h => [.steps n k h] := by
  obtain ⟨p1, p2⟩ := padded_digits zeros n
  have pnot : ∀ c, c.isDigit = false → c ∉ DateText.padded '0' zeros n := by
    intro c hc hm
    rw [p2 c hm] at hc
    cases hc
  have hr : readEnum sgn dateStepSizeTable u = some v := (C67_reads_iff sgn dateStepSizeTable (by simp [allTables]) u hu v).2 hread
  constructor
  · obtain ⟨t1, t2⟩ := takeWhile_digits _ u p2 hd
    unfold parseIncrement
    rw [if_neg (by rw [List.mem_append, not_or]; exact ⟨pnot _ (by decide), hs.2⟩)]
    unfold parseSingle
    rw [if_neg (by simp [hne])]
    dsimp only
    rw [t1, t2, if_neg p1, if_neg hs.1, stoi_padded _ _ hn]
    simp only [Option.bind_some, if_neg hne, takeWhile_self u hs.1, hr, hk, Option.map_some, Int.toNat_natCast]
  · intro hols hh
    have hd' : ∀ c, (u ++ ';' :: hols).head? = some c → c.isDigit = false := by
      intro c hc
      cases u with
      | nil => exact absurd rfl hne
      | cons x u => exact hd c (by simpa using hc)
    obtain ⟨t1, t2⟩ := takeWhile_digits _ (u ++ ';' :: hols) p2 hd'
    obtain ⟨s1, s2⟩ := takeWhile_semi u hols hs.1
    unfold parseIncrement
    rw [List.append_assoc, if_neg (by
      simp only [List.mem_append, List.mem_cons, not_or]
      exact ⟨pnot _ (by decide), hs.2, by decide, hh⟩)]
    unfold parseSingle
    rw [if_neg (by simp)]
    dsimp only
    rw [t1, t2, if_neg p1, if_pos (by simp), s1, s2, List.tail_cons, stoi_padded _ _ hn]
    cases parseHols hols with
    | none => rfl
    | some h => simp [hr, hk]

/-- C70: the names of special days read as steps to them. -/
theorem C70_parse_special (sgn : Bool) (parseHols : Str → Option Hols) (u v : Str) (hu : Ascii u) (hread : (condensed u, v) ∈ specialDayTable.reads)
    (hd : ∀ c, u.head? = some c → c.isDigit = false) (hne : u ≠ []) (hs : '&' ∉ u) : parseIncrement sgn parseHols u = some [.special v] := by
  have hr : readEnum sgn specialDayTable u = some v := (C67_reads_iff sgn specialDayTable (by simp [allTables]) u hu v).2 hread
  obtain ⟨t1, _⟩ := takeWhile_digits [] u (by simp) hd
  rw [List.nil_append] at t1
  unfold parseIncrement
  rw [if_neg hs]
  unfold parseSingle
  rw [if_neg hne]
  dsimp only
  rw [t1, if_pos rfl, hr]
  rfl

/-- C70: texts that are joined by ampersands read as their increments in order; empty ones in between do not matter. -/
theorem C70_parse_compound (sgn : Bool) (parseHols : Str → Option Hols) (ps : List Str) (hs : ∀ p ∈ ps, '&' ∉ p) (hl : 2 ≤ ps.length) :
    parseIncrement sgn parseHols (accumulate ['&'] false ps) = (ps.filter fun p => !p.isEmpty).mapM (parseSingle sgn parseHols) := by
  have hm : '&' ∈ accumulate ['&'] false ps := by
    obtain ⟨a, b, rest, rfl⟩ : ∃ a b rest, ps = a :: b :: rest := by
      match ps, hl with
      | a :: b :: rest, _ => exact ⟨a, b, rest, rfl⟩
    have : ∀ (rest : List Str) (x : Str), '&' ∈ x → '&' ∈ rest.foldl (joiner ['&'] false) x := by
      intro rest
      induction rest with
      | nil => exact fun x h => h
      | cons y rest ih => exact fun x h => ih _ (by simp [joiner, h])
    exact this rest _ (by simp [joiner])
  unfold parseIncrement
  rw [if_pos hm, C18_split_join_drop '&' ps hs]

/-- C70: the increments of a compound are applied in order, in both directions. -/
theorem C70_compound (fwd : Bool) (a b : List Single) (d : Date) : applyAll fwd (a ++ b) d = (applyAll fwd a d).bind (applyAll fwd b) := by
  induction a generalizing d with
  | nil => rfl
  | cons s a ih =>
    simp only [List.cons_append, applyAll]
    cases applySingle fwd d s with
    | none => rfl
    | some x => exact ih x

/-- C70: a period ends like the step of as many months. -/
theorem C70_nominal_maturity (d : Date) (h : d.Valid) (p : Str) (m : Int) (hm : periodMonths p = some m) : nominalMaturity d m = addMonths d m false := by
  obtain ⟨_, b, _⟩ := ymd_spec h
  have m1 := b.m1
  have m2 := b.m12
  have hmm : 1 ≤ m ∧ m ≤ 12 := by
    unfold periodMonths at hm
    split_ifs at hm <;> cases hm <;> decide
  have hc : nominalCarry (year d) (month d + m) = carryMonths (year d) (month d) m := by
    rw [addMonths_carry _ _ _ m1 m2]
    unfold nominalCarry
    generalize year d = y at *
    generalize month d = mm at *
    clear * - m1 m2 hmm
    split <;> apply Prod.ext <;> simp only <;> omega
  unfold nominalMaturity addMonths
  dsimp only
  rw [hc]
  congr 1
  generalize day d = x
  generalize daysInMonth _ _ = y
  simp only [Bool.false_and, Bool.false_or, decide_eq_true_eq]
  clear * -
  split <;> omega

/-! ### The hypotheses hold -/

example : (condensed "Months".toList, "M".toList) ∈ dateStepSizeTable.reads ∧ stepOfName "M".toList = some .M ∧ Ascii "Months".toList := by decide +kernel

example : (stepBy .M 1 [] true (mk' 2024 1 31)).map ymd = some (2024, 2, 29) ∧ (stepBy .Y 2 [] false (mk' 2024 2 29)).map ymd = some (2022, 2, 28) ∧
    (stepBy .W 2 [] false (mk' 2024 1 10)).map ymd = some (2023, 12, 27) := by decide +kernel

example : (stepBy .BD 3 [demoCenter] true (mk' 2023 12 22)).map ymd = some (2023, 12, 29) := by decide +kernel

end Dal
