import Verif.Storage.JsonModel
import Verif.Time.DateTextProps
import Mathlib.Tactic.FieldSimp
import Mathlib.Tactic.Positivity
import Mathlib.Tactic.Linarith
import Mathlib.Tactic.Push

/-! # C26: the JSON archive -/

namespace Dal
open Json DateText Date Spec

attribute [local irreducible] mk' year month day dayOfWeek dayNum monthLen addDays toString'

/-- What may follow a value without changing how it is read. -/
def Follow (rest : List Char) : Prop :=
  ∀ c, rest.head? = some c → c.isDigit = false ∧ c ≠ '.' ∧ c ≠ 'e' ∧ c ≠ 'E'

/-- The text is read as this value, whatever follows. -/
def ReadsAs (txt : List Char) (v : JVal) : Prop :=
  (∃ c r, txt = c :: r ∧ isWs c = false ∧ c ≠ ']') ∧
  ∀ fuel rest, Follow rest → parseValue (fuel + 1) (txt ++ rest) = some (v, rest)

theorem ws_cons {c : Char} {r : List Char} (h : isWs c = false) : ws (c :: r) = c :: r := by
  unfold ws; rw [List.dropWhile_cons, if_neg (by simp [h])]

/-- A value read alone is the value of the whole text. -/
theorem parse_of_reads {txt : List Char} {v : JVal} (h : ReadsAs txt v) : parse txt = some v := by
  obtain ⟨⟨c, r, hc, hw, _⟩, h2⟩ := h
  have := h2 txt.length [] (by intro c hc; simp at hc)
  rw [List.append_nil] at this
  unfold parse
  have hws : ws txt = txt := by rw [hc]; exact ws_cons hw
  rw [hws, this]
  simp [ws]

/-! ### Numbers -/

theorem toDigits_no_leading (n : Nat) : (Nat.toDigits 10 n).head? = some '0' → Nat.toDigits 10 n = ['0'] := by
  induction n using Nat.strongRecOn with
  | _ n ih =>
    by_cases h : n < 10
    · rw [Nat.toDigits_of_lt_base h]
      intro hh
      simpa using hh
    · rw [Nat.toDigits_of_base_le (by omega) (by omega)]
      have hne : Nat.toDigits 10 (n / 10) ≠ [] := Nat.toDigits_ne_nil
      intro hh
      rw [List.head?_append_of_ne_nil _ hne] at hh
      have h0 := ih (n / 10) (by omega) hh
      have hv : n / 10 = 0 := by
        have e := Nat.ofDigitChars_ten_toDigits (n := n / 10)
        rw [h0] at e
        exact e.symm
      omega

theorem takeWhile_digits {l r : List Char} (hl : ∀ x ∈ l, x.isDigit = true)
    (hr : ∀ c, r.head? = some c → c.isDigit = false) :
    (l ++ r).takeWhile Char.isDigit = l ∧ (l ++ r).dropWhile Char.isDigit = r := by
  induction l with
  | nil =>
    cases r with
    | nil => simp
    | cons c r =>
      have := hr c rfl
      simp [this]
  | cons a l ih =>
    have ha := hl a (by simp)
    obtain ⟨h1, h2⟩ := ih (fun x hx => hl x (by simp [hx]))
    constructor
    · rw [List.cons_append, List.takeWhile_cons, if_pos ha, h1]
    · rw [List.cons_append, List.dropWhile_cons, if_pos ha, h2]

theorem ofDigitChars_padded (w n : Nat) : Nat.ofDigitChars 10 (padded '0' w n) 0 = n := by
  unfold padded
  rw [Nat.ofDigitChars_append, Nat.ofDigitChars_replicate_zero]
  simp

theorem padded6_length (n : Nat) (h : n < 1000000) : (padded '0' 6 n).length = 6 := by
  unfold padded
  have := (Nat.length_toDigits_le_iff (b := 10) (n := n) (k := 6) (by omega) (by omega)).2 (by omega)
  rw [List.length_append, List.length_replicate]; omega

theorem parseNum_fixed (neg : Bool) (n : Nat) (rest : List Char) (h : Follow rest) :
    parseNum neg (Nat.toDigits 10 (n / 1000000) ++ '.' :: (padded '0' 6 (n % 1000000) ++ rest)) =
      some (.dbl ((if neg then -1 else 1) * ((n : Rat) / 1000000)), rest) := by
  obtain ⟨t1, d1⟩ := takeWhile_digits (l := Nat.toDigits 10 (n / 1000000))
    (r := '.' :: (padded '0' 6 (n % 1000000) ++ rest))
    (fun _ hx => Nat.isDigit_of_mem_toDigits (by omega) (by omega) hx) (by intro c hc; simp at hc; rw [← hc]; rfl)
  obtain ⟨t2, d2⟩ := takeWhile_digits (padded_digits 6 (n % 1000000)).2 (r := rest)
    (fun c hc => (h c hc).1)
  unfold parseNum
  simp only [t1, d1, t2, d2]
  rw [if_neg, if_neg]
  · rw [ofDigitChars_padded, Nat.ofDigitChars_ten_toDigits, padded6_length _ (Nat.mod_lt _ (by omega))]
    congr 3
    have hsplit : (n : Rat) = 1000000 * ((n / 1000000 : Nat) : Rat) + ((n % 1000000 : Nat) : Rat) := by
      have := Nat.div_add_mod n 1000000
      exact_mod_cast this.symm
    have : ((n / 1000000 : Nat) : Rat) + ((n % 1000000 : Nat) : Rat) / (10 : Rat) ^ 6 = (n : Rat) / 1000000 := by
      rw [hsplit]; field_simp; ring
    rw [this]
    cases neg <;> simp
  · rintro (h0 | h0 | h0)
    · exact (padded_digits 6 (n % 1000000)).1 h0
    · exact (h _ h0).2.2.1 rfl
    · exact (h _ h0).2.2.2 rfl
  · rintro (h0 | ⟨h0, h1⟩)
    · exact Nat.toDigits_ne_nil h0
    · exact h1 (toDigits_no_leading _ h0)

theorem parseValue_digit (fuel : Nat) {c : Char} (r : List Char) (h : c.isDigit = true) :
    parseValue (fuel + 1) (c :: r) = parseNum false (c :: r) := by
  have hne : ∀ x : Char, x.isDigit = false → c ≠ x := by
    rintro x hx rfl; rw [h] at hx; cases hx
  rw [parseValue.eq_def]
  simp only
  split
  · rename_i e; cases e
  · rename_i e; cases e; exact absurd h (by decide)
  · rename_i e; cases e; exact absurd h (by decide)
  · rename_i e; cases e; exact absurd h (by decide)
  · rename_i e; cases e; exact absurd h (by decide)
  · rename_i c' r' _ _ _ _ e
    cases e
    rw [if_neg (fun hc => hne 't' rfl hc.1), if_neg (fun hc => hne 'f' rfl hc.1),
      if_neg (fun hc => hne 'n' rfl hc.1)]

theorem digit_not_ws {c : Char} (h : c.isDigit = true) : isWs c = false ∧ c ≠ ']' := by
  refine ⟨?_, ?_⟩
  · have hne : ∀ x : Char, x.isDigit = false → c ≠ x := by
      rintro x hx rfl; rw [h] at hx; cases hx
    simp [isWs, hne ' ' rfl, hne '\n' rfl, hne '\t' rfl, hne '\r' rfl]
  · rintro rfl; exact absurd h (by decide)

/-- The printed number is read as the printed number. -/
theorem reads_fixed6 (neg : Bool) (n : Nat) :
    ReadsAs (fixed6 neg n) (.dbl ((if neg then -1 else 1) * ((n : Rat) / 1000000))) := by
  have hne : Nat.toDigits 10 (n / 1000000) ≠ [] := Nat.toDigits_ne_nil
  obtain ⟨c, r, hcr⟩ := List.exists_cons_of_ne_nil hne
  have hc : c.isDigit = true := Nat.isDigit_of_mem_toDigits (b := 10) (n := n / 1000000) (by omega) (by omega)
    (by rw [hcr]; simp)
  refine ⟨?_, ?_⟩
  · cases neg with
    | true => exact ⟨'-', _, rfl, rfl, by decide⟩
    | false =>
      refine ⟨c, r ++ '.' :: padded '0' 6 (n % 1000000), ?_, digit_not_ws hc⟩
      unfold fixed6; rw [hcr]; simp
  · intro fuel rest h
    have key := parseNum_fixed neg n rest h
    cases neg with
    | true =>
      have e : fixed6 true n ++ rest =
          '-' :: (Nat.toDigits 10 (n / 1000000) ++ '.' :: (padded '0' 6 (n % 1000000) ++ rest)) := by
        simp [fixed6]
      rw [e, parseValue.eq_def]
      exact key
    | false =>
      have e : fixed6 false n ++ rest =
          Nat.toDigits 10 (n / 1000000) ++ '.' :: (padded '0' 6 (n % 1000000) ++ rest) := by
        simp [fixed6]
      rw [e]
      rw [hcr] at key ⊢
      rw [List.cons_append] at key ⊢
      rw [parseValue_digit fuel _ hc]
      exact key

theorem millionths_sign (q : Rat) :
    (if decide (q < 0) then -1 else 1) * (((millionths q).natAbs : Rat) / 1000000) =
      (millionths q : Rat) / 1000000 := by
  have hcast : ((millionths q).natAbs : Rat) = |(millionths q : Rat)| := by
    rw [Nat.cast_natAbs]; push_cast; rfl
  rw [hcast]
  by_cases h : q < 0
  · have : millionths q ≤ 0 := by
      unfold millionths
      have h1 : q * 1000000 < 0 := by linarith
      have h2 := round_le (q * 1000000) 0
      by_contra hc
      have hpos : (1 : Int) ≤ round (q * 1000000) := by omega
      have h3 := abs_sub_round (q * 1000000)
      have hpos' : (1 : Rat) ≤ (round (q * 1000000) : Rat) := by exact_mod_cast hpos
      rw [abs_le] at h3
      linarith [h3.1]
    have h' : (millionths q : Rat) ≤ 0 := by exact_mod_cast this
    rw [abs_of_nonpos h']
    simp [h]; ring
  · have : 0 ≤ millionths q := by
      unfold millionths
      push Not at h
      have h1 : 0 ≤ q * 1000000 := by linarith
      by_contra hc
      have hneg : round (q * 1000000) ≤ -1 := by omega
      have h3 := abs_sub_round (q * 1000000)
      have hneg' : (round (q * 1000000) : Rat) ≤ -1 := by exact_mod_cast hneg
      rw [abs_le] at h3
      linarith [h3.2]
    have h' : (0 : Rat) ≤ (millionths q : Rat) := by exact_mod_cast this
    rw [abs_of_nonneg h']
    simp [h]

theorem reads_double (q : Rat) : ReadsAs (writeDouble q) (.dbl ((millionths q : Rat) / 1000000)) := by
  rw [← millionths_sign q]
  exact reads_fixed6 _ _

/-- A number comes back rounded to six decimals: it survives exactly when it is a multiple of
`10^-6`. -/
theorem C26_number_survives_iff (q : Rat) :
    (parse (writeDouble q)).bind eDouble = some q ↔ ∃ n : Int, q = (n : Rat) / 1000000 := by
  rw [parse_of_reads (reads_double q)]
  simp only [Option.bind_some, eDouble, Option.some.injEq]
  constructor
  · intro h; exact ⟨_, h.symm⟩
  · rintro ⟨n, rfl⟩
    have : millionths ((n : Rat) / 1000000) = n := by
      unfold millionths
      rw [div_mul_cancel₀ _ (by norm_num)]
      exact round_intCast n
    rw [this]

example : (1 : Rat) / 4 = ((250000 : Int) : Rat) / 1000000 := by norm_num

/-- The error of a number written and read is at most half a millionth. -/
theorem C26_number_error (q : Rat) : ∃ x, (parse (writeDouble q)).bind eDouble = some x ∧
    |q - x| ≤ 1 / 2000000 := by
  refine ⟨_, by rw [parse_of_reads (reads_double q)]; rfl, ?_⟩
  have h := abs_sub_round (q * 1000000)
  unfold millionths
  rw [abs_le] at h ⊢
  constructor <;> linarith [h.1, h.2]

/-- No integer written is read back as an integer: it is written with a decimal point. -/
theorem C26_int_violated (n : Int) : (parse (writeInt n)).bind eInt = none ∧
    (parse (writeInt n)).bind eDouble = some (n : Rat) := by
  unfold writeInt
  constructor
  · rw [parse_of_reads (reads_double n)]; rfl
  · rw [C26_number_survives_iff]
    exact ⟨n * 1000000, by push_cast; field_simp⟩

/-! ### Strings, dates, booleans -/

/-- A character that needs no escaping. -/
def plain (c : Char) : Prop := c ≠ '"' ∧ c ≠ '\\' ∧ 32 ≤ c.toNat

theorem parseStr_plain (s rest : List Char) (h : ∀ c ∈ s, plain c) :
    parseStr (s ++ '"' :: rest) = some (s, rest) := by
  induction s with
  | nil => simp [parseStr]
  | cons c s ih =>
    obtain ⟨h1, h2, h3⟩ := h c (by simp)
    have ih := ih (fun x hx => h x (by simp [hx]))
    rw [List.cons_append, parseStr.eq_def]
    split
    · rename_i e; cases e
    · rename_i e; cases e; exact absurd rfl h1
    · rename_i e; cases e; exact absurd rfl h2
    · rename_i e; cases e
      rw [if_neg (by omega), ih]; rfl

theorem reads_str (s : List Char) (h : ∀ c ∈ s, plain c) : ReadsAs (writeStr s) (.str s) := by
  refine ⟨⟨'"', _, rfl, rfl, by decide⟩, ?_⟩
  intro fuel rest _
  have e : writeStr s ++ rest = '"' :: (s ++ '"' :: rest) := by simp [writeStr]
  rw [e, parseValue.eq_def]
  simp only
  rw [parseStr_plain s rest h]; rfl

/-- Strings without quotes, backslashes and control characters survive. -/
theorem C26_string_roundtrip_partial (s : List Char) (h : ∀ c ∈ s, plain c) :
    (parse (writeStr s)).bind eString = some s := by
  rw [parse_of_reads (reads_str s h)]; rfl

example : ∀ c ∈ "EQ[IBM] strike=100".toList, plain c := by
  unfold plain; decide +kernel

/-- A quote ends the string early and the text becomes unreadable; a backslash is dropped. -/
theorem C26_string_violated :
    parse (writeStr ['a', '"', 'b']) = none ∧
    (parse (writeStr ['a', '\\', '/', 'b'])).bind eString = some ['a', '/', 'b'] := by
  constructor <;> rfl

private theorem parseStr_length : ∀ (n : Nat) (u t r : List Char), u.length ≤ n → parseStr u = some (t, r) →
    t.length + 1 + r.length ≤ u.length ∧ (t.length + 1 + r.length = u.length → ∀ c ∈ t, plain c) := by
  intro n
  induction n with
  | zero =>
    intro u t r hu h
    rw [List.length_eq_zero_iff.1 (Nat.le_zero.1 hu)] at h
    cases h
  | succ n ih =>
    intro u t r hu h
    rw [parseStr.eq_def] at h
    split at h
    · cases h
    · cases h
      exact ⟨by simp only [List.length_cons, List.length_nil]; omega, fun _ c hc => by cases hc⟩
    · rename_i r1
      split at h
      · cases h
      · rename_i e r2
        split at h
        · cases h
        · rw [Option.map_eq_some_iff] at h
          obtain ⟨⟨t', r'⟩, h1, h2⟩ := h
          cases h2
          simp only [List.length_cons] at hu ⊢
          have := (ih r2 t' r' (by omega) h1).1
          exact ⟨by omega, fun he => by omega⟩
    · rename_i c r1 hq hb
      split at h
      · cases h
      · rename_i hc
        rw [Option.map_eq_some_iff] at h
        obtain ⟨⟨t', r'⟩, h1, h2⟩ := h
        cases h2
        simp only [List.length_cons] at hu ⊢
        have := ih r1 t' r' (by omega) h1
        refine ⟨by omega, fun he x hx => ?_⟩
        rcases List.mem_cons.1 hx with rfl | hx
        · exact ⟨fun h => hq h, fun h => hb h, by omega⟩
        · exact this.2 (by omega) x hx

private theorem parse_quoted (u : List Char) : parse ('"' :: u) = match (parseStr u).map fun x => (JVal.str x.1, x.2) with
    | some (v, r) => if ws r = [] then some v else none
    | none => none := by
  rw [parse, show ws ('"' :: u) = '"' :: u from rfl, parseValue.eq_def]
  simp only
  rfl

/-- Exactly the strings without quotes, backslashes and control characters survive. -/
theorem C26_string_survives_iff (s : List Char) : (parse (writeStr s)).bind eString = some s ↔ ∀ c ∈ s, plain c := by
  refine ⟨fun h => ?_, C26_string_roundtrip_partial s⟩
  rw [writeStr, parse_quoted] at h
  cases hp : parseStr (s ++ ['"']) with
  | none => rw [hp] at h; cases h
  | some x =>
    obtain ⟨t, r⟩ := x
    rw [hp, Option.map_some] at h
    dsimp only at h
    split at h
    · cases h
      have := parseStr_length _ _ s r le_rfl hp
      simp only [List.length_append, List.length_cons, List.length_nil] at this
      exact this.2 (by omega)
    · cases h

example : (parse (writeStr "a\\qb".toList)).bind eString ≠ some "a\\qb".toList := fun h => by
  have := (C26_string_survives_iff _).1 h '\\' (by decide)
  exact this.2.1 rfl

/-- A backslash before a character that makes no escape: the text cannot be read. -/
theorem C26_escape_violated (p r : List Char) (hp : ∀ c ∈ p, plain c) (e : Char) (he : e ∉ ['"', '\\', '/', 'b', 'f', 'n', 'r', 't', 'u']) :
    parse (writeStr (p ++ '\\' :: e :: r)) = none := by
  have h1 : parseStr (p ++ '\\' :: e :: (r ++ ['"'])) = none := by
    induction p with
    | nil =>
      simp only [List.mem_cons, List.not_mem_nil, or_false, not_or] at he
      obtain ⟨a1, a2, a3, -, -, a6, a7, a8, -⟩ := he
      rw [List.nil_append, parseStr.eq_def]
      simp [a1, a2, a3, a6, a7, a8]
    | cons c p ih =>
      obtain ⟨h1, h2, h3⟩ := hp c List.mem_cons_self
      have ih := ih fun x hx => hp x (List.mem_cons_of_mem _ hx)
      rw [List.cons_append, parseStr.eq_def]
      split
      · rename_i e; cases e
      · rename_i e; cases e; exact absurd rfl h1
      · rename_i e; cases e; exact absurd rfl h2
      · rename_i e; cases e
        rw [if_neg (by omega), ih]; rfl
  rw [writeStr, parse_quoted, show (p ++ '\\' :: e :: r) ++ ['"'] = p ++ '\\' :: e :: (r ++ ['"']) by simp, h1]
  rfl

example : parse (writeStr "a\\qb".toList) = none := C26_escape_violated ['a'] ['b'] (by simp [plain]) 'q' (by decide)

theorem reads_bool (b : Bool) : ReadsAs (writeBool b) (.bool b) := by
  cases b
  · refine ⟨⟨'f', _, rfl, rfl, by decide⟩, ?_⟩
    intro fuel rest _
    have e : writeBool false ++ rest = 'f' :: ("alse".toList ++ rest) := rfl
    rw [e, parseValue.eq_def]
    simp
  · refine ⟨⟨'t', _, rfl, rfl, by decide⟩, ?_⟩
    intro fuel rest _
    have e : writeBool true ++ rest = 't' :: ("rue".toList ++ rest) := rfl
    rw [e, parseValue.eq_def]
    simp

/-- Booleans survive. -/
theorem C26_bool_roundtrip (b : Bool) : (parse (writeBool b)).bind eBool = some b := by
  rw [parse_of_reads (reads_bool b)]; rfl

theorem date_plain (d : Date) (h : d.Valid) : ∀ c ∈ toString' d, plain c := by
  obtain ⟨e, -⟩ := toString_eq d h
  have hdig : ∀ c : Char, c.isDigit = true → plain c := by
    intro c hc
    refine ⟨?_, ?_, ?_⟩
    · rintro rfl; exact absurd hc (by decide)
    · rintro rfl; exact absurd hc (by decide)
    · simp only [Char.isDigit, Bool.and_eq_true, decide_eq_true_eq, UInt32.le_iff_toNat_le] at hc
      have h1 := hc.1
      have h2 : c.toNat = c.val.toNat := rfl
      rw [h2]
      have h3 : ('0' : Char).val.toNat = 48 := rfl
      omega
  have hdash : plain '-' := by unfold plain; decide
  rw [e]
  intro c hc
  rw [List.mem_append, List.mem_cons, List.mem_append, List.mem_cons] at hc
  rcases hc with hc | rfl | hc | rfl | hc
  · exact hdig c ((padded_digits _ _).2 c hc)
  · exact hdash
  · exact hdig c ((padded_digits _ _).2 c hc)
  · exact hdash
  · exact hdig c ((padded_digits _ _).2 c hc)

theorem reads_date (d : Date) (h : d.Valid) : ReadsAs (writeDate d) (.str (toString' d)) :=
  reads_str _ (date_plain d h)

theorem eDate_str (s : List Char) : eDate (.str s) = fromString s := by rw [eDate]

/-- Dates outside the constructor's bad window survive. -/
theorem C26_date_roundtrip_partial (d : Date) (h : d.Valid)
    (hg : before (ymd d) (2034, 3, 1) ∨ ¬ before (ymd d) (2100, 3, 1)) :
    (parse (writeDate d)).bind eDate = some d := by
  rw [parse_of_reads (reads_date d h), Option.bind_some, eDate_str]
  exact C06_roundtrip_partial d h hg

example : (mk' 2024 2 29).Valid := by decide +kernel

/-! ### Arrays and matrices -/

theorem follow_sep {c : Char} (r : List Char) (h : c = ',' ∨ c = ']' ∨ c = '}') : Follow (c :: r) := by
  intro x hx
  simp only [List.head?_cons, Option.some.injEq] at hx
  subst hx
  rcases h with rfl | rfl | rfl <;> decide

theorem parseElems_sep {V : Type} (w : V → List Char) (val : V → JVal) (sep : List Char)
    (hsep : sep = [','] ∨ sep = [',', ' ']) (vs : List V) (h : ∀ v ∈ vs, ReadsAs (w v) (val v))
    (v : V) (hv : ReadsAs (w v) (val v)) (fuel : Nat) (rest : List Char) (hf : vs.length < fuel) :
    parseElems (fuel + 1) (w v ++ writeSep sep w false vs ++ ']' :: rest) =
      some (val v :: vs.map val, rest) := by
  induction vs generalizing v fuel with
  | nil =>
    obtain ⟨⟨c, r, hc, hw, _⟩, h2⟩ := hv
    rw [writeSep, List.append_nil, parseElems.eq_def]
    simp only
    have hws : ws (w v ++ ']' :: rest) = w v ++ ']' :: rest := by rw [hc]; exact ws_cons hw
    obtain ⟨f, rfl⟩ : ∃ f, fuel = f + 1 := ⟨fuel - 1, by simp at hf; omega⟩
    rw [hws, h2 f (']' :: rest) (follow_sep _ (by simp))]
    simp only
    rw [ws_cons (by rfl)]
    rfl
  | cons u vs ih =>
    obtain ⟨⟨c, r, hc, hw, _⟩, h2⟩ := hv
    obtain ⟨f, rfl⟩ : ∃ f, fuel = f + 1 := ⟨fuel - 1, by simp at hf; omega⟩
    have ih' := ih (fun x hx => h x (by simp [hx])) u (h u (by simp)) f (by simp at hf; omega)
    obtain ⟨⟨c', r', hc', hw', _⟩, _⟩ := h u (by simp)
    have hskip : ∀ tail, parseElems (f + 1) (sep.tail ++ (w u ++ tail)) = parseElems (f + 1) (w u ++ tail) := by
      intro tail
      rcases hsep with rfl | rfl
      · rfl
      · have : ws ([' '] ++ (w u ++ tail)) = ws (w u ++ tail) := by
          rw [List.cons_append, List.nil_append]
          unfold ws
          rw [List.dropWhile_cons, if_pos (by decide)]
        rw [parseElems.eq_def]
        conv_rhs => rw [parseElems.eq_def]
        simp only [List.tail_cons]
        rw [this]
    have e : w v ++ writeSep sep w false (u :: vs) ++ ']' :: rest =
        w v ++ ',' :: (sep.tail ++ (w u ++ (writeSep sep w false vs ++ ']' :: rest))) := by
      rcases hsep with rfl | rfl <;> simp [writeSep]
    rw [e, parseElems.eq_def]
    simp only
    have hws : ∀ t, ws (w v ++ t) = w v ++ t := by intro t; rw [hc]; exact ws_cons hw
    rw [hws, h2 f _ (follow_sep _ (by simp))]
    simp only
    rw [ws_cons (by rfl)]
    simp only
    rw [hskip, ← List.append_assoc, ih']
    rfl

theorem parse_array {V : Type} (w : V → List Char) (val : V → JVal) (sep : List Char)
    (hsep : sep = [','] ∨ sep = [',', ' ']) (vs : List V) (h : ∀ v ∈ vs, ReadsAs (w v) (val v))
    (fuel : Nat) (hf : vs.length < fuel) (rest : List Char) :
    parseValue (fuel + 1) ('[' :: (writeSep sep w true vs ++ ']' :: rest)) = some (.arr (vs.map val), rest) := by
  rw [parseValue.eq_def]
  simp only
  cases vs with
  | nil =>
    rw [writeSep, List.nil_append, ws_cons (by rfl)]
    rfl
  | cons v vs =>
    obtain ⟨⟨c, r, hc, hw, hb⟩, _⟩ := h v (by simp)
    have e : writeSep sep w true (v :: vs) ++ ']' :: rest = w v ++ writeSep sep w false vs ++ ']' :: rest := by
      simp [writeSep]
    have hws : ws (w v ++ writeSep sep w false vs ++ ']' :: rest) =
        w v ++ writeSep sep w false vs ++ ']' :: rest := by
      rw [hc]; exact ws_cons hw
    rw [e, hws]
    obtain ⟨f, rfl⟩ : ∃ f, fuel = f + 1 := ⟨fuel - 1, by simp at hf; omega⟩
    have := parseElems_sep w val sep hsep vs (fun x hx => h x (by simp [hx])) v (h v (by simp)) f rest
      (by simp at hf; omega)
    split
    · rename_i hh
      rw [hc] at hh
      simp only [List.cons_append, List.cons.injEq] at hh
      exact absurd hh.1 hb
    · rw [this]; rfl

theorem writeSep_length {V : Type} (w : V → List Char) (sep : List Char) (b : Bool) (vs : List V)
    (h : ∀ v ∈ vs, w v ≠ []) : vs.length ≤ (writeSep sep w b vs).length := by
  induction vs generalizing b with
  | nil => simp
  | cons v vs ih =>
    have h1 := ih false (fun x hx => h x (by simp [hx]))
    have h2 : 0 < (w v).length := List.length_pos_iff.2 (h v (by simp))
    simp only [writeSep, List.length_append, List.length_cons]
    omega

/-- A written array reads as the array of the values of its entries. -/
theorem C26_array {V : Type} (w : V → List Char) (val : V → JVal) (vs : List V)
    (h : ∀ v ∈ vs, ReadsAs (w v) (val v)) : parse (writeArr w vs) = some (.arr (vs.map val)) := by
  unfold parse
  have hne : ∀ v ∈ vs, w v ≠ [] := by
    intro v hv
    obtain ⟨⟨c, r, hc, -⟩, -⟩ := h v hv
    rw [hc]; simp
  have hl := writeSep_length w [','] true vs hne
  have hw : ws (writeArr w vs) = writeArr w vs := ws_cons (by rfl)
  have := parse_array w val [','] (Or.inl rfl) vs h (writeArr w vs).length
    (by unfold writeArr; simp only [List.length_cons, List.length_append]; omega) []
  rw [hw]
  change parseValue _ ('[' :: (writeSep [','] w true vs ++ [']'])) = _ at this
  unfold writeArr at this ⊢
  rw [this]
  rfl

theorem mapM_map {V W : Type} (f : V → JVal) (e : JVal → Option W) (g : V → W) (vs : List V)
    (h : ∀ v ∈ vs, e (f v) = some (g v)) : (vs.map f).mapM e = some (vs.map g) := by
  induction vs with
  | nil => rfl
  | cons v vs ih =>
    rw [List.map_cons, List.mapM_cons, h v (by simp), ih (fun x hx => h x (by simp [hx]))]
    rfl

/-- Vectors of plain strings and vectors of dates survive; vectors of numbers survive when the numbers
have at most six decimals. -/
theorem C26_vectors_partial :
    (∀ vs : List (List Char), (∀ s ∈ vs, ∀ c ∈ s, plain c) →
      (parse (writeArr writeStr vs)).bind (asVector eString) = some vs) ∧
    (∀ vs : List Date, (∀ d ∈ vs, d.Valid ∧ (before (ymd d) (2034, 3, 1) ∨ ¬ before (ymd d) (2100, 3, 1))) →
      (parse (writeArr writeDate vs)).bind (asVector eDate) = some vs) ∧
    (∀ vs : List Bool, (parse (writeArr writeBool vs)).bind (asVector eBool) = some vs) ∧
    (∀ vs : List Rat, (∀ q ∈ vs, ∃ n : Int, q = (n : Rat) / 1000000) →
      (parse (writeArr writeDouble vs)).bind (asVector eDouble) = some vs) := by
  refine ⟨?_, ?_, ?_, ?_⟩
  · intro vs h
    rw [C26_array writeStr JVal.str vs (fun v hv => reads_str v (h v hv))]
    have := mapM_map JVal.str eString id vs (fun v _ => rfl)
    simpa [asVector] using this
  · intro vs h
    rw [C26_array writeDate (fun d => JVal.str (toString' d)) vs (fun v hv => reads_date v (h v hv).1)]
    have := mapM_map (fun d => JVal.str (toString' d)) eDate id vs
      (fun v hv => by rw [eDate_str]; exact C06_roundtrip_partial v (h v hv).1 (h v hv).2)
    simpa [asVector] using this
  · intro vs
    rw [C26_array writeBool JVal.bool vs (fun v _ => reads_bool v)]
    have := mapM_map JVal.bool eBool id vs (fun v _ => rfl)
    simpa [asVector] using this
  · intro vs h
    rw [C26_array writeDouble (fun q => JVal.dbl ((millionths q : Rat) / 1000000)) vs (fun v _ => reads_double v)]
    have := mapM_map (fun q => JVal.dbl ((millionths q : Rat) / 1000000)) eDouble id vs (by
      intro v hv
      have := (C26_number_survives_iff v).2 (h v hv)
      rw [parse_of_reads (reads_double v)] at this
      exact this)
    simpa [asVector] using this

example : ∀ q ∈ [(1 : Rat) / 4, 3], ∃ n : Int, q = (n : Rat) / 1000000 := by
  intro q hq
  simp only [List.mem_cons, List.not_mem_nil, or_false] at hq
  rcases hq with rfl | rfl
  · exact ⟨250000, by norm_num⟩
  · exact ⟨3000000, by norm_num⟩

/-- A non-empty vector of integers is never read back. -/
theorem C26_int_vector_violated (n : Int) (ns : List Int) :
    (parse (writeArr writeInt (n :: ns))).bind (asVector eInt) = none := by
  rw [C26_array writeInt (fun n => JVal.dbl ((millionths (n : Rat) : Rat) / 1000000)) _ (fun v _ => reads_double v)]
  simp [asVector, eInt]

theorem reads_nat (n : Nat) (h : n ≤ 2147483647) : ReadsAs (Nat.toDigits 10 n) (.int n) := by
  have hne : Nat.toDigits 10 n ≠ [] := Nat.toDigits_ne_nil
  obtain ⟨c, r, hcr⟩ := List.exists_cons_of_ne_nil hne
  have hc : c.isDigit = true := Nat.isDigit_of_mem_toDigits (b := 10) (n := n) (by omega) (by omega)
    (by rw [hcr]; simp)
  refine ⟨⟨c, r, hcr, digit_not_ws hc⟩, ?_⟩
  intro fuel rest hf
  have key : parseNum false (Nat.toDigits 10 n ++ rest) = some (.int n, rest) := by
    obtain ⟨t1, d1⟩ := takeWhile_digits (l := Nat.toDigits 10 n) (r := rest)
      (fun _ hx => Nat.isDigit_of_mem_toDigits (by omega) (by omega) hx) (fun c hc => (hf c hc).1)
    unfold parseNum
    simp only [t1, d1]
    rw [if_neg]
    · split
      · rename_i r' 
        exact absurd rfl (hf '.' rfl).2.1
      · rw [if_neg, Nat.ofDigitChars_ten_toDigits, if_pos]
        · simp
        · simp; omega
        · rintro (h0 | h0)
          · exact (hf _ h0).2.2.1 rfl
          · exact (hf _ h0).2.2.2 rfl
    · rintro (h0 | ⟨h0, h1⟩)
      · exact hne h0
      · exact h1 (toDigits_no_leading _ h0)
  rw [hcr] at key ⊢
  rw [List.cons_append] at key ⊢
  rw [parseValue_digit fuel _ hc]
  exact key

theorem chunks_flatten {V : Type} (cols : Nat) (rows : List (List V)) (h : ∀ r ∈ rows, r.length = cols) :
    chunks cols rows.length rows.flatten = rows ∧ rows.flatten.length = rows.length * cols := by
  induction rows with
  | nil => simp [chunks]
  | cons r rows ih =>
    obtain ⟨h1, h2⟩ := ih (fun x hx => h x (by simp [hx]))
    have hr := h r (by simp)
    refine ⟨?_, ?_⟩
    · rw [List.length_cons, chunks, List.flatten_cons, List.take_left' hr, List.drop_left' hr, h1]
    · rw [List.flatten_cons, List.length_append, h2, hr, List.length_cons]; ring

/-- One member of an object, followed by another or by the end. -/
theorem parseMembers_step (fuel : Nat) (name txt rest : List Char) (v : JVal) (hn : ∀ c ∈ name, plain c)
    (d : Char) (hd : isWs d = false) (hv : parseValue (fuel + 1) (txt ++ d :: rest) = some (v, d :: rest))
    (htx : ∃ c r, txt = c :: r ∧ isWs c = false) :
    (d = ',' → parseMembers (fuel + 2) ('"' :: (name ++ '"' :: ':' :: ' ' :: (txt ++ d :: rest))) =
      (parseMembers (fuel + 1) rest).map fun x => ((name, v) :: x.1, x.2)) ∧
    (d = '}' → parseMembers (fuel + 2) ('"' :: (name ++ '"' :: ':' :: ' ' :: (txt ++ d :: rest))) =
      some ([(name, v)], rest)) := by
  obtain ⟨c, r, hc, hw⟩ := htx
  have hws : ws (' ' :: (txt ++ d :: rest)) = txt ++ d :: rest := by
    unfold ws
    rw [List.dropWhile_cons, if_pos (by decide), hc, List.cons_append, List.dropWhile_cons, if_neg (by simp [hw])]
  constructor
  · rintro rfl
    rw [parseMembers.eq_def]
    simp only
    rw [ws_cons (by rfl)]
    simp only
    rw [parseStr_plain name _ hn]
    simp only
    rw [ws_cons (by rfl)]
    simp only
    rw [hws, hv]
    simp only
    rw [ws_cons (by rfl)]
    rfl
  · rintro rfl
    rw [parseMembers.eq_def]
    simp only
    rw [ws_cons (by rfl)]
    simp only
    rw [parseStr_plain name _ hn]
    simp only
    rw [ws_cons (by rfl)]
    simp only
    rw [hws, hv]
    simp only
    rw [ws_cons (by rfl)]
    rfl

theorem plain_names : (∀ c ∈ "rows".toList, plain c) ∧ (∀ c ∈ "cols".toList, plain c) ∧
    ∀ c ∈ "vals".toList, plain c := by
  unfold plain; decide +kernel

theorem chunks_map {V W : Type} (g : V → W) (cols : Nat) (rows : List (List V))
    (hl : ∀ r ∈ rows, r.length = cols) :
    chunks cols rows.length (rows.flatten.map g) = rows.map (List.map g) := by
  have e1 : rows.flatten.map g = (rows.map (List.map g)).flatten := by rw [List.map_flatten]
  rw [e1]
  have := (chunks_flatten cols (rows.map (List.map g)) (by
    intro r hr
    obtain ⟨r', hr', rfl⟩ := List.mem_map.1 hr
    rw [List.length_map]; exact hl r' hr')).1
  rw [List.length_map] at this
  exact this

theorem asMatrix_of {V W : Type} (val : V → JVal) (e : JVal → Option W) (g : V → W) (cols : Nat) (hc : 0 < cols)
    (rows : List (List V)) (hlen : ∀ r ∈ rows, r.length = cols) (h : ∀ v ∈ rows.flatten, e (val v) = some (g v))
    (j : JVal) (h1 : member "cols".toList j = some (.int cols))
    (h2 : member "vals".toList j = some (.arr (rows.flatten.map val))) :
    asMatrix e j = some ((cols : Int), rows.map (List.map g)) := by
  have hmap := mapM_map val e g rows.flatten h
  have e2 : asVector e (.arr (rows.flatten.map val)) = some (rows.flatten.map g) := by rw [asVector, hmap]
  have hlv : (rows.flatten.map g).length = rows.length * cols := by
    rw [List.length_map, (chunks_flatten cols rows hlen).2]
  have hch := chunks_map g cols rows hlen
  generalize rows.flatten.map g = w at *
  unfold asMatrix
  rw [h1, h2, Option.bind_some, Option.bind_some, e2]
  simp only [eInt, Int.toNat_natCast]
  rw [hlv, Nat.mul_div_cancel _ hc, hch, if_pos]
  refine ⟨by exact_mod_cast hc, Nat.mul_mod_left _ _⟩

theorem ws_skip (t : List Char) : ws (' ' :: '"' :: t) = '"' :: t ∧ ws ('\n' :: '"' :: t) = '"' :: t := by
  constructor <;> unfold ws <;>
  rw [List.dropWhile_cons, if_pos (by decide), List.dropWhile_cons, if_neg (by decide)]

theorem parseMembers_nl (f : Nat) (t : List Char) :
    parseMembers (f + 1) ('\n' :: '"' :: t) = parseMembers (f + 1) ('"' :: t) := by
  rw [parseMembers.eq_def]
  conv_rhs => rw [parseMembers.eq_def]
  simp only
  rw [(ws_skip t).2, ws_cons (c := '"') (by rfl)]

theorem toDigits_start (n : Nat) : ∃ c r, Nat.toDigits 10 n = c :: r ∧ isWs c = false := by
  obtain ⟨c, r, hcr⟩ := List.exists_cons_of_ne_nil (Nat.toDigits_ne_nil (n := n) (b := 10))
  exact ⟨c, r, hcr, (digit_not_ws (Nat.isDigit_of_mem_toDigits (b := 10) (n := n) (by omega) (by omega)
    (by rw [hcr]; simp))).1⟩

/-- The three members of a matrix. -/
theorem parse_three (F r c : Nat) (hr : r ≤ 2147483647) (hc : c ≤ 2147483647) (a : List Char) (v : JVal)
    (ha : parseValue (F + 1 + 1) (('[' :: a) ++ ['}']) = some (v, ['}'])) :
    parseValue (F + 6) ('{' :: ' ' :: '"' :: ("rows".toList ++ '"' :: ':' :: ' ' ::
      (Nat.toDigits 10 r ++ ',' :: '\n' :: '"' :: ("cols".toList ++ '"' :: ':' :: ' ' ::
      (Nat.toDigits 10 c ++ ',' :: '\n' :: '"' :: ("vals".toList ++ '"' :: ':' :: ' ' ::
      (('[' :: a) ++ ['}']))))))) =
    some (.obj [("rows".toList, .int r), ("cols".toList, .int c), ("vals".toList, v)], []) := by
  have s3 := (parseMembers_step (F + 1) "vals".toList ('[' :: a) []
    v plain_names.2.2 '}' rfl ha ⟨'[', _, rfl, rfl⟩).2 rfl
  have s2 := fun t => (parseMembers_step (F + 2) "cols".toList (Nat.toDigits 10 c) t
    (.int c) plain_names.2.1 ',' rfl
    ((reads_nat _ hc).2 _ _ (follow_sep _ (by simp))) (toDigits_start _)).1 rfl
  have s1 := fun t => (parseMembers_step (F + 3) "rows".toList (Nat.toDigits 10 r) t
    (.int r) plain_names.1 ',' rfl
    ((reads_nat _ hr).2 _ _ (follow_sep _ (by simp))) (toDigits_start _)).1 rfl
  have hobj : ∀ (fuel : Nat) (t : List Char), parseValue (fuel + 1) ('{' :: ' ' :: '"' :: t) =
      (parseMembers fuel ('"' :: t)).map fun x => (.obj x.1, x.2) := by
    intro fuel t
    rw [parseValue.eq_def]
    simp only
    rw [(ws_skip _).1]
    rfl
  rw [hobj (F + 5), s1, parseMembers_nl (F + 3), s2, parseMembers_nl (F + 2), s3]
  rfl

theorem writeMat_text {V : Type} (w : V → List Char) (cols : Nat) (rows : List (List V)) :
    writeMat w cols rows = '{' :: ' ' :: '"' :: ("rows".toList ++ '"' :: ':' :: ' ' ::
      (Nat.toDigits 10 rows.length ++ ',' :: '\n' :: '"' :: ("cols".toList ++ '"' :: ':' :: ' ' ::
      (Nat.toDigits 10 cols ++ ',' :: '\n' :: '"' :: ("vals".toList ++ '"' :: ':' :: ' ' ::
      (('[' :: (writeSep [',', ' '] w true rows.flatten ++ [']'])) ++ ['}'])))))) := by
  unfold writeMat
  simp

/-- Matrices survive entry by entry: the reader recovers the number of columns and every row. -/
theorem C26_matrix {V W : Type} (w : V → List Char) (val : V → JVal) (e : JVal → Option W) (g : V → W)
    (cols : Nat) (hc : 0 < cols) (hc2 : cols ≤ 2147483647) (rows : List (List V))
    (hr2 : rows.length ≤ 2147483647) (hlen : ∀ r ∈ rows, r.length = cols)
    (h : ∀ r ∈ rows, ∀ v ∈ r, ReadsAs (w v) (val v) ∧ e (val v) = some (g v)) :
    (parse (writeMat w cols rows)).bind (asMatrix e) = some ((cols : Int), rows.map (List.map g)) := by
  have hval : ∀ v ∈ rows.flatten, ReadsAs (w v) (val v) ∧ e (val v) = some (g v) := by
    intro v hv
    obtain ⟨r, hr, hvr⟩ := List.mem_flatten.1 hv
    exact h r hr v hvr
  have hne : ∀ v ∈ rows.flatten, w v ≠ [] := by
    intro v hv
    obtain ⟨⟨c, r, hc, -⟩, -⟩ := (hval v hv).1
    rw [hc]; simp
  have hl := writeSep_length w [',', ' '] true rows.flatten hne
  have hlen1 : rows.flatten.length + 20 ≤ (writeMat w cols rows).length := by
    rw [writeMat_text]; simp only [List.length_cons, List.length_append]
    have e1 : ("rows".toList).length = 4 := rfl
    have e2 : ("cols".toList).length = 4 := rfl
    have e3 : ("vals".toList).length = 4 := rfl
    omega
  obtain ⟨F, hF⟩ : ∃ F, (writeMat w cols rows).length = F + 5 := ⟨(writeMat w cols rows).length - 5, by omega⟩
  have harr : parseValue (F + 1 + 1) ('[' :: (writeSep [',', ' '] w true rows.flatten ++ [']']) ++ ['}']) =
      some (.arr (rows.flatten.map val), ['}']) := by
    have := parse_array w val [',', ' '] (Or.inr rfl) rows.flatten (fun v hv => (hval v hv).1) (F + 1)
      (by omega) ['}']
    rw [← this]; simp
  have h3 := parse_three F rows.length cols hr2 hc2 _ _ harr
  rw [← writeMat_text] at h3
  have hw : ws (writeMat w cols rows) = writeMat w cols rows := by rw [writeMat_text]; exact ws_cons (by rfl)
  have hparse : parse (writeMat w cols rows) = some (.obj [("rows".toList, .int rows.length),
      ("cols".toList, .int cols), ("vals".toList, .arr (rows.flatten.map val))]) := by
    unfold parse
    rw [hw, hF, h3]
    rfl
  rw [hparse, Option.bind_some]
  exact asMatrix_of val e g cols hc rows hlen (fun v hv => (hval v hv).2) _ rfl rfl

/-- Matrices of cells or of numbers: an instance with numbers of at most six decimals. -/
theorem C26_number_matrix (cols : Nat) (hc : 0 < cols) (hc2 : cols ≤ 2147483647) (rows : List (List Rat))
    (hr2 : rows.length ≤ 2147483647) (hlen : ∀ r ∈ rows, r.length = cols)
    (h : ∀ r ∈ rows, ∀ q ∈ r, ∃ n : Int, q = (n : Rat) / 1000000) :
    (parse (writeMat writeDouble cols rows)).bind (asMatrix eDouble) = some ((cols : Int), rows) := by
  have := C26_matrix writeDouble (fun q => JVal.dbl ((millionths q : Rat) / 1000000)) eDouble id cols hc hc2 rows hr2
    hlen (by
      intro r hr q hq
      refine ⟨reads_double q, ?_⟩
      have := (C26_number_survives_iff q).2 (h r hr q hq)
      rw [parse_of_reads (reads_double q)] at this
      exact this)
  simpa using this

example : ∀ r ∈ [[(1 : Rat), 2], [3, 1 / 2]], r.length = 2 := by decide +kernel

/-! ### Cells -/

/-- A string that looks like a date comes back as a date, a blank cell as a string. -/
theorem C26_cell_violated :
    (∃ d, (parse (writeCell (.str "2020-01-15".toList))).bind eCell = some (.date d)) ∧
    (parse (writeCell .blank)).bind eCell = some (.str []) := by
  constructor
  · have hp : ∀ c ∈ "2020-01-15".toList, plain c := by unfold plain; decide +kernel
    have hr := parse_of_reads (reads_str _ hp)
    have : writeCell (.str "2020-01-15".toList) = writeStr "2020-01-15".toList := rfl
    rw [this, hr, Option.bind_some]
    have hd : fromString "2020-01-15".toList = some (mk' 2020 1 15) := by
      have := fromString_ymd 2020 1 15 4 2 2 (by omega) (by omega) (by omega)
      have e : padded '0' 4 2020 ++ '-' :: (padded '0' 2 1 ++ '-' :: padded '0' 2 15) = "2020-01-15".toList := by
        decide +kernel
      rw [e] at this
      exact this
    refine ⟨mk' 2020 1 15, ?_⟩
    have hpat : datePattern "2020-01-15".toList = true := by decide +kernel
    rw [eCell, if_pos hpat, hd]
    rfl
  · rfl

end Dal
