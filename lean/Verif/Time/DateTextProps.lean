import Mathlib.Tactic.Linarith
import Mathlib.Tactic.Ring
import Mathlib.Tactic.FieldSimp
import Mathlib.Tactic.NormNum
import Mathlib.Algebra.Order.Floor.Ring
import Verif.Time.DateTextModel
import Verif.Time.DateProps

/-! # C06, C07: date text and date-times -/

namespace Dal
open Date Spec DateText

/-! ## C06 -/

attribute [local irreducible] mk' year month day dayNum

theorem takeWhile_sep {p : Char → Bool} {l r : List Char} {c : Char} (h : ∀ x ∈ l, p x = true)
    (hc : p c = false) :
    (l ++ c :: r).takeWhile p = l ∧ (l ++ c :: r).dropWhile p = c :: r := by
  induction l with
  | nil => simp [hc]
  | cons a l ih =>
    have := ih (fun x hx => h x (by simp [hx]))
    simp [h a (by simp), this.1, this.2]

theorem matchTriple_of {sep : Char} (hs : sep.isDigit = false) {a b c : List Char}
    (ha : a ≠ [] ∧ ∀ x ∈ a, x.isDigit = true) (hb : b ≠ [] ∧ ∀ x ∈ b, x.isDigit = true)
    (hc : c ≠ [] ∧ ∀ x ∈ c, x.isDigit = true) :
    matchTriple sep (a ++ sep :: (b ++ sep :: c)) = some (a, b, c) := by
  obtain ⟨t1, d1⟩ := takeWhile_sep (r := b ++ sep :: c) ha.2 hs
  obtain ⟨t2, d2⟩ := takeWhile_sep (r := c) hb.2 hs
  unfold matchTriple
  simp only [t1, d1, List.head?_cons, List.tail_cons, t2, d2, ha.1, hb.1]
  simp
  exact hc

theorem matchTriple_none {sep sep' : Char} (hs : sep.isDigit = false) (hne : sep ≠ sep')
    {a r : List Char} (ha : ∀ x ∈ a, x.isDigit = true) :
    matchTriple sep' (a ++ sep :: r) = none := by
  obtain ⟨t1, d1⟩ := takeWhile_sep (r := r) ha hs
  unfold matchTriple
  simp only [t1, d1, List.head?_cons]
  rw [if_pos (Or.inr (by simpa using hne))]

theorem padded_digits (w n : Nat) : padded '0' w n ≠ [] ∧ ∀ x ∈ padded '0' w n, x.isDigit = true := by
  unfold padded
  refine ⟨by simp, ?_⟩
  intro x hx
  rcases List.mem_append.1 hx with h | h
  · rw [(List.mem_replicate.1 h).2]; rfl
  · exact Nat.isDigit_of_mem_toDigits (by omega) (by omega) h

theorem padded_space {w n : Nat} (h : w ≤ (Nat.toDigits 10 n).length) (c : Char) :
    padded c w n = Nat.toDigits 10 n := by
  unfold padded; rw [Nat.sub_eq_zero_of_le h]; simp

theorem stoi_padded (w n : Nat) (hn : n ≤ 2147483647) : stoi (padded '0' w n) = some (n : Int) := by
  have : Nat.ofDigitChars 10 (padded '0' w n) 0 = n := by
    unfold padded
    rw [Nat.ofDigitChars_append, Nat.ofDigitChars_replicate_zero]
    simp
  unfold stoi; simp only [this]; rw [if_pos hn]

theorem padded_length (w n : Nat) : w ≤ (padded '0' w n).length := by
  unfold padded; simp; omega

/-- The numbers printed are the ones read back: any year/month/day written with `-` and any
zero padding is read as that year, month and day; with `/` as month, day, year. -/
theorem fromString_ymd (y m d w1 w2 w3 : Nat) (hy : y ≤ 2147483647) (hm : m ≤ 2147483647)
    (hd : d ≤ 2147483647) :
    fromString (padded '0' w1 y ++ '-' :: (padded '0' w2 m ++ '-' :: padded '0' w3 d))
      = some (mk' y m d) := by
  unfold fromString
  rw [matchTriple_none (sep := '-') rfl (by decide) (padded_digits w1 y).2,
    matchTriple_of (sep := '-') rfl (padded_digits _ _) (padded_digits _ _) (padded_digits _ _)]
  simp [stoi_padded, hy, hm, hd]

theorem monthLen_le (y m : Int) : monthLen y m ≤ 31 := by
  unfold monthLen; split <;> (try split) <;> omega

theorem toString_eq (d : Date) (h : d.Valid) :
    toString' d = padded '0' 4 (year d).toNat ++ '-' :: (padded '0' 2 (month d).toNat ++
      '-' :: padded '0' 2 (day d).toNat) ∧
    ((year d).toNat : Int) = year d ∧ ((month d).toNat : Int) = month d ∧ ((day d).toNat : Int) = day d ∧
    (year d).toNat ≤ 2147483647 ∧ (month d).toNat ≤ 2147483647 ∧ (day d).toNat ≤ 2147483647 ∧
    (padded '0' 4 (year d).toNat).length = 4 ∧ (padded '0' 2 (month d).toNat).length = 2 ∧
    (padded '0' 2 (day d).toNat).length = 2 := by
  obtain ⟨_, r, hy1, hy2⟩ := ymd_spec h
  have m1 := r.m1; have m2 := r.m12; have d1 := r.d1
  have d2 := r.dl.trans (monthLen_le _ _)
  have hlen : 4 ≤ (Nat.toDigits 10 (year d).toNat).length := by
    by_contra hc
    have := (Nat.length_toDigits_le_iff (b := 10) (n := (year d).toNat) (k := 3) (by omega)
      (by omega)).1 (by omega)
    generalize year d = y at *
    omega
  have hlen' : (Nat.toDigits 10 (year d).toNat).length ≤ 4 :=
    (Nat.length_toDigits_le_iff (b := 10) (by omega) (by omega)).2 (by
      generalize year d = y at *; omega)
  have l2 : ∀ n : Nat, n < 100 → (padded '0' 2 n).length = 2 := by
    intro n hn
    have := (Nat.length_toDigits_le_iff (b := 10) (n := n) (k := 2) (by omega) (by omega)).2 (by omega)
    unfold padded; simp; omega
  refine ⟨?_, ?_, ?_, ?_, ?_, ?_, ?_, ?_, l2 _ ?_, l2 _ ?_⟩
  · unfold toString'
    rw [padded_space hlen ' ', padded_space hlen '0']
  · generalize year d = y at *; omega
  · generalize month d = y at *; omega
  · generalize day d = y at *; omega
  · generalize year d = y at *; omega
  · generalize month d = y at *; omega
  · generalize day d = y at *; omega
  · rw [padded_space hlen '0']; omega
  · generalize month d = y at *; omega
  · generalize day d = y at *; omega

/-- Every date is printed as ten characters `yyyy-mm-dd` which read back as the date constructed from
its year, month and day. -/
theorem C06_text_reads_as_ctor (d : Date) (h : d.Valid) :
    fromString (toString' d) = some (mk' (year d) (month d) (day d)) ∧
    isDateString (toString' d) = true ∧ (toString' d).length = 10 := by
  obtain ⟨e, hy, hm, hd, ly, lm, ld, e4, e2, e2'⟩ := toString_eq d h
  refine ⟨?_, ?_, ?_⟩
  · rw [e, fromString_ymd _ _ _ _ _ _ ly lm ld, hy, hm, hd]
  · rw [e]
    unfold isDateString
    rw [matchTriple_of (sep := '-') rfl (padded_digits _ _) (padded_digits _ _) (padded_digits _ _)]
    rw [Bool.or_eq_true]; right; rfl
  · rw [e, List.length_append, List.length_cons, List.length_append, List.length_cons, e4, e2, e2']

/-- FULL CLAIM (false, see `C06_violated`): reading back the text of a date gives the date.
PROVED PART: all dates outside 2034-03-01..2100-02-28. -/
theorem C06_roundtrip_partial (d : Date) (h : d.Valid)
    (hg : before (ymd d) (2034, 3, 1) ∨ ¬ before (ymd d) (2100, 3, 1)) :
    fromString (toString' d) = some d := by
  rw [(C06_text_reads_as_ctor d h).1]
  obtain ⟨e, r, _⟩ := ymd_spec h
  have hr : InRange (year d) (month d) (day d) := (inRange_iff r).2 (by
    rw [e]; have h1 := h.1; have h2 := h.2; clear * - h1 h2; omega)
  obtain ⟨v, e1, e2, e3⟩ := C01_ctor_roundtrip_partial _ _ _ r hr hg
  rw [C02_ymd_determines_date _ d v h (by rw [e1, e2, e3])]

example : (mk' 2024 2 29).Valid ∧ before (ymd (mk' 2024 2 29)) (2034, 3, 1) ∧
    toString' (mk' 2024 2 29) = "2024-02-29".toList := by
  refine ⟨by decide +kernel, ?_, by decide +kernel⟩
  have : ymd (mk' 2024 2 29) = (2024, 2, 29) := by decide +kernel
  rw [this]; simp [before]

/-- Inside the constructor's bad window the text reads back as the day before. -/
theorem C06_violated (d : Date) (h : d.Valid) (h1 : ¬ before (ymd d) (2034, 3, 1))
    (h2 : before (ymd d) (2100, 3, 1)) :
    ∃ x, fromString (toString' d) = some x ∧ x.serial + 1 = d.serial := by
  refine ⟨_, (C06_text_reads_as_ctor d h).1, ?_⟩
  obtain ⟨e, r, _⟩ := ymd_spec h
  have hr : InRange (year d) (month d) (day d) := (inRange_iff r).2 (by
    rw [e]; have h1 := h.1; have h2 := h.2; clear * - h1 h2; omega)
  have hg : gap (year d) (month d) := by
    have q1 := r.d1; have q2 := r.m1
    simp only [before, ymd] at h1 h2; unfold gap
    clear * - h1 h2 q1 q2
    generalize year d = y at *
    generalize month d = m at *
    generalize day d = dd at *
    omega
  have hs := mk'_serial r hr
  rw [if_pos hg, e] at hs
  generalize mk' (year d) (month d) (day d) = M at *
  omega

example : (mk' 2050 1 1).Valid ∧ ¬ before (ymd (mk' 2050 1 1)) (2034, 3, 1) ∧
    before (ymd (mk' 2050 1 1)) (2100, 3, 1) := by
  have : ymd (mk' 2050 1 1) = (2049, 12, 31) := by decide +kernel
  rw [this]; simp only [before]
  exact ⟨by decide +kernel, by omega, by omega⟩

/-- The American form: month/day/year, where a two-digit year means 20xx. -/
theorem C06_us_format (y m d : Nat) (hy : y ≤ 2147483647) (hm : m ≤ 2147483647)
    (hd : d ≤ 2147483647) (w1 w2 w3 : Nat) :
    fromString (padded '0' w1 m ++ '/' :: (padded '0' w2 d ++ '/' :: padded '0' w3 y))
      = some (mk' (y + if (padded '0' w3 y).length = 2 then 2000 else 0) m d) := by
  unfold fromString
  rw [matchTriple_of (sep := '/') rfl (padded_digits _ _) (padded_digits _ _) (padded_digits _ _)]
  simp [stoi_padded, hy, hm, hd]

example : fromString "1/15/24".toList = some (mk' 2024 1 15) ∧
    fromString "1/15/2024".toList = some (mk' 2024 1 15) ∧ fromString "2024-1".toList = none := by
  decide +kernel

/-- Anything that is not three groups of digits separated by two `/` or two `-` is refused. -/
theorem C06_rejects (s : List Char) : (fromString s).isSome = true → isDateString s = true := by
  unfold fromString isDateString
  cases h1 : matchTriple '/' s with
  | some g => simp
  | none =>
    cases h2 : matchTriple '-' s with
    | some g => simp
    | none => simp

/-- Futures month codes: the twelve letters F G H J K M N Q U V X Z mean January to December, in
that order, and every other byte is refused. -/
theorem C66_future_codes (code : Nat) (h : code < 256) :
    (∀ i : Fin 12, monthFromFutureCode ("FGHJKMNQUVXZ".toList[i]'(by simp)).toNat
      = some ((i : Nat) + 1 : Int)) ∧
    ((Char.ofNat code) ∉ "FGHJKMNQUVXZ".toList → monthFromFutureCode code = none) := by
  constructor
  · decide +kernel
  · revert code; decide +kernel

example : monthFromFutureCode 'Z'.toNat = some 12 ∧ monthFromFutureCode 'A'.toNat = none := by decide

/-! ## C07 -/

/-- The instant a date-time denotes, in days. -/
def instant (t : DateTime) : Rat := t.date.serial + t.frac
/-- Well-formed date-times: the time of day is in [0, 1). -/
def WF (t : DateTime) : Prop := 0 ≤ t.frac ∧ t.frac < 1

/-- On date-times with time of day in [0,1), `<` is the order of instants, and `-` is the difference
of instants. -/
theorem C07_order_and_difference_partial (a b : DateTime) (ha : WF a) (hb : WF b) :
    (ltDT a b ↔ instant a < instant b) ∧ diff a b = instant a - instant b := by
  constructor
  · unfold ltDT lt instant
    constructor
    · rintro (h | ⟨h, h'⟩)
      · have : (a.date.serial : Rat) + 1 ≤ b.date.serial := by exact_mod_cast h
        linarith [ha.2, hb.1]
      · rw [h]; linarith
    · intro h
      rcases lt_trichotomy a.date.serial b.date.serial with h1 | h1 | h1
      · exact Or.inl h1
      · right
        have hd : a.date = b.date := by
          have := a.date; cases hx : a.date; cases hy : b.date; simp_all
        refine ⟨hd, ?_⟩
        rw [h1] at h; linarith
      · exfalso
        have : (b.date.serial : Rat) + 1 ≤ a.date.serial := by exact_mod_cast h1
        linarith [ha.1, hb.2]
  · unfold diff instant sub toExcel
    push_cast; ring

/-- The constructor accepts negative fractions; with one, order and instants disagree. -/
theorem C07_violated : ∃ a b : DateTime, mkFrac ⟨100⟩ (-1/2) = some a ∧ mkFrac ⟨99⟩ (9/10) = some b ∧
    instant a < instant b ∧ ltDT b a := by
  refine ⟨⟨⟨100⟩, -1/2⟩, ⟨⟨99⟩, 9/10⟩, ?_, ?_, ?_, ?_⟩
  · unfold mkFrac; rw [if_pos (by norm_num)]
  · unfold mkFrac; rw [if_pos (by norm_num)]
  · unfold instant; norm_num
  · unfold ltDT lt; left; norm_num

/-- Adding a positive number of days moves the instant by exactly that amount and keeps the time of
day in [0,1), provided the result is inside the supported range; a non-positive amount is refused. -/
theorem C07_add (t : DateTime) (f : Rat) (ht : WF t) :
    (f ≤ 0 → add t f = none) ∧
    (0 < f → (instant t + f < 65536) →
      ∃ r, add t f = some r ∧ WF r ∧ instant r = instant t + f ∧ diff r t = f ∧ ltDT t r) := by
  constructor
  · intro h; unfold add; rw [if_neg (not_lt.2 h)]
  · intro h hmax
    have key : ∃ r, add t f = some r ∧ WF r ∧ instant r = instant t + f := by
      unfold add
      rw [if_pos h]
      simp only
      have hfl := Int.floor_le (t.frac + f)
      have hfl2 := Int.lt_floor_add_one (t.frac + f)
      by_cases hd : ⌊t.frac + f⌋ > 0
      · rw [if_pos hd]
        refine ⟨_, rfl, ⟨by simp only; linarith, by simp only; linarith⟩, ?_⟩
        have hser : ((addDays t.date ⌊t.frac + f⌋).serial : Int) = t.date.serial + ⌊t.frac + f⌋ := by
          have hb : (t.date.serial : Rat) + ⌊t.frac + f⌋ < 65536 := by
            unfold instant at hmax; linarith
          have hb' : (t.date.serial : Int) + ⌊t.frac + f⌋ < 65536 := by exact_mod_cast hb
          simp only [addDays, toU16]
          generalize ⌊t.frac + f⌋ = k at *
          omega
        have hser' : ((addDays t.date ⌊t.frac + f⌋).serial : Rat) = t.date.serial + ⌊t.frac + f⌋ := by
          exact_mod_cast hser
        unfold instant
        simp only
        rw [hser']; ring
      · rw [if_neg hd]
        have h0 : ⌊t.frac + f⌋ = 0 := by
          have : 0 ≤ ⌊t.frac + f⌋ := Int.floor_nonneg.2 (by linarith [ht.1])
          omega
        rw [h0] at hfl2
        refine ⟨_, rfl, ⟨by simp only; linarith [ht.1], by simp only; push_cast at hfl2; linarith⟩, ?_⟩
        unfold instant; simp only; ring
    obtain ⟨r, h1, h2, h3⟩ := key
    obtain ⟨ho, hd⟩ := C07_order_and_difference_partial r t h2 ht
    obtain ⟨ho', _⟩ := C07_order_and_difference_partial t r ht h2
    exact ⟨r, h1, h2, h3, by rw [hd, h3]; ring, ho'.2 (by rw [h3]; linarith)⟩

example : add ⟨⟨100⟩, 3/4⟩ (1/2) = some ⟨⟨101⟩, 1/4⟩ := by decide +kernel
example : WF ⟨⟨100⟩, 3/4⟩ := ⟨by norm_num, by norm_num⟩

theorem trunc_int_div (n : Int) (k : Int) (hn : 0 ≤ n) (hk : 0 < k) : trunc ((n : Rat) / k) = n / k := by
  unfold trunc
  have hk' : (0 : Rat) < k := by exact_mod_cast hk
  rw [if_pos (div_nonneg (by exact_mod_cast hn) hk'.le)]
  rw [Int.floor_eq_iff]
  have h1 := Int.mul_ediv_add_emod n k
  have h2 := Int.emod_nonneg n (ne_of_gt hk)
  have h3 := Int.emod_lt_of_pos n hk
  constructor
  · rw [le_div_iff₀ hk']
    have : n / k * k ≤ n := by linarith [mul_comm (n / k) k]
    exact_mod_cast this
  · rw [div_lt_iff₀ hk']
    have : n < (n / k + 1) * k := by nlinarith [mul_comm (n / k) k]
    exact_mod_cast this

/-- Hours, minutes and seconds given to the constructor are the ones read back (exact arithmetic). -/
theorem C07_hms_roundtrip (d : Date) (h m s : Int) (hh : 0 ≤ h ∧ h < 24) (hm : 0 ≤ m ∧ m < 60)
    (hs : 0 ≤ s ∧ s < 60) :
    ∃ t, mkHMS d h m s = some t ∧ t.date = d ∧ WF t ∧ fracToHMS t.frac = (h, m, s) := by
  have hsec : 0 ≤ 60 * (60 * h + m) + s ∧ 60 * (60 * h + m) + s < 86400 := by omega
  refine ⟨⟨d, ((60 * (60 * h + m) + s : Int) : Rat) / 86400⟩, ?_, rfl, ⟨?_, ?_⟩, ?_⟩
  · unfold mkHMS; simp only; rw [if_pos hsec]
  · exact div_nonneg (by exact_mod_cast hsec.1) (by norm_num)
  · rw [div_lt_one (by norm_num)]; exact_mod_cast hsec.2
  · generalize hN : 60 * (60 * h + m) + s = N at *
    have e1 : trunc (24 * ((N : Rat) / 86400)) = N / 3600 := by
      rw [← trunc_int_div N 3600 hsec.1 (by omega)]
      refine congrArg trunc ?_; push_cast; ring
    have e2 : trunc (1440 * ((N : Rat) / 86400)) = N / 60 := by
      rw [← trunc_int_div N 60 hsec.1 (by omega)]
      refine congrArg trunc ?_; push_cast; ring
    have e3 : trunc (86400 * ((N : Rat) / 86400)) = N / 1 := by
      rw [← trunc_int_div N 1 hsec.1 (by omega)]
      refine congrArg trunc ?_; push_cast; ring
    unfold fracToHMS
    rw [e1, e2, e3, Int.tmod_eq_emod_of_nonneg (by omega), Int.tmod_eq_emod_of_nonneg (by omega)]
    refine Prod.ext ?_ (Prod.ext ?_ ?_) <;> simp only <;> omega

example : (0 : Int) ≤ 23 ∧ (23 : Int) < 24 ∧ mkHMS ⟨5⟩ 23 59 58 = some ⟨⟨5⟩, 86398 / 86400⟩ := by
  decide +kernel

/-- Milliseconds since the first date round trip (exact arithmetic, non-negative, in range). -/
theorem C07_msec_roundtrip (n : Int) (h0 : 0 ≤ n) (h1 : n < 86400000 * 65535) :
    ∃ t, mkMSec n = some t ∧ WF t ∧ msec t = n := by
  have hq : n.tdiv 86400000 = n / 86400000 := Int.tdiv_eq_ediv_of_nonneg h0
  have hr : n - 86400000 * (n / 86400000) = n % 86400000 := by omega
  have hlt : ((n % 86400000 : Int) : Rat) / 86400000 < 1 := by
    rw [div_lt_one (by norm_num)]
    have : n % 86400000 < 86400000 := by omega
    exact_mod_cast this
  have hnn : (0 : Rat) ≤ ((n % 86400000 : Int) : Rat) / 86400000 :=
    div_nonneg (by exact_mod_cast (by omega : 0 ≤ n % 86400000)) (by norm_num)
  refine ⟨⟨addDays minimum (n / 86400000), ((n % 86400000 : Int) : Rat) / 86400000⟩, ?_, ⟨hnn, hlt⟩, ?_⟩
  · unfold mkMSec; simp only [hq, hr]; rw [if_pos hlt]
  · have e1 : trunc (((n % 86400000 : Int) : Rat) / 86400000 * 86400000) = n % 86400000 := by
      rw [div_mul_cancel₀ _ (by norm_num)]
      have := trunc_int_div (n % 86400000) 1 (by omega) (by omega)
      simpa using this
    have hmin : minimum.serial = 1 := by decide +kernel
    have hs : sub (addDays minimum (n / 86400000)) minimum = n / 86400000 := by
      simp only [sub, toExcel, addDays, toU16, hmin]; omega
    unfold msec
    simp only
    rw [e1, hs]; omega

example : mkMSec 86400001 = some ⟨⟨2⟩, 1 / 86400000⟩ := by decide +kernel

end Dal
