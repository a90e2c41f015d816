import Verif.Script.DcfLemmas
import Verif.Script.DcfSpec

/-! # C112: `DCF` in scripts -/

namespace Dal
open Dal.Script Dal.Dcf Dal.Strings

attribute [local irreducible] Date.mk' Date.year Date.month Date.day

/-- The text `DCF(n,s,t)`. -/
def dcfText (n s t : List Char) : List Char := 'D' :: 'C' :: 'F' :: '(' :: (n ++ ',' :: (s ++ ',' :: (t ++ [')'])))

theorem dcf_tokens (n s t : List Char) : tokens (dcfText n s t) = .kw .dcf :: .lp :: ((tokens n ++ .comma :: (tokens s ++ .comma :: tokens t)) ++ [.rp]) := by
  have h0 : dcfText n s t = ['D', 'C', 'F'] ++ '(' :: (n ++ ',' :: (s ++ ',' :: (t ++ [')']))) := rfl
  have h1 : tokens ['D', 'C', 'F'] = [.kw .dcf] := by decide +kernel
  have h2 : tokens [] = [] := rfl
  rw [h0, tokens_append (by decide) (by decide), h1, tokens_single (t := .lp) (by decide) (by decide) (by decide) (by decide),
    tokens_append (by decide) (by decide), tokens_single (t := .comma) (by decide) (by decide) (by decide) (by decide),
    tokens_append (by decide) (by decide), tokens_single (t := .comma) (by decide) (by decide) (by decide) (by decide),
    tokens_append (by decide) (by decide), tokens_single (t := .rp) (by decide) (by decide) (by decide) (by decide), h2]
  simp

/-- C112: three fields separated by commas are taken as they stand between the commas; whatever follows the third up to the closing parenthesis is passed over. -/
theorem C112_fields {D : Type} (frac : List Char → List Char → List Char → Option (Option D)) (a b c tail : List Tok) (k : Nat)
    (ha : ∀ t ∈ a, t ≠ .comma) (hb : ∀ t ∈ b, t ≠ .comma) (hc : ∀ t ∈ c, t ≠ .comma) (hb0 : b ≠ []) (hc0 : c ≠ []) (hk : k ≤ tail.length)
    (ht : tail.length = k ∨ tail.head? = some .comma) :
    Dcf.parse frac (a ++ .comma :: (b ++ .comma :: (c ++ tail))) k = frac (joined a) (joined b) (joined c) := by
  have h1 : ¬ (a ++ .comma :: (b ++ .comma :: (c ++ tail))).length = k := by simp; omega
  obtain ⟨t, b', rfl⟩ := List.exists_cons_of_ne_nil hb0
  obtain ⟨u, c', rfl⟩ := List.exists_cons_of_ne_nil hc0
  rw [Dcf.parse, if_neg h1, field_run (by simp; omega) (Or.inr rfl) a ha, Option.bind_some]
  dsimp only
  rw [List.cons_append, advance_comma (hb t (List.mem_cons_self ..)) (by simp; omega), Option.bind_some]
  dsimp only
  rw [← List.cons_append, field_run (by simp; omega) (Or.inr rfl) (t :: b') hb, Option.bind_some]
  dsimp only
  rw [List.cons_append, advance_comma (hc u (List.mem_cons_self ..)) (by simp; omega), Option.bind_some]
  dsimp only
  rw [← List.cons_append, field_run hk ht (u :: c') hc, Option.bind_some]

private theorem fields_rp {D : Type} (frac : List Char → List Char → List Char → Option (Option D)) (a b c rest : List Tok)
    (ha : ∀ t ∈ a, t ≠ .comma) (hb : ∀ t ∈ b, t ≠ .comma) (hc : ∀ t ∈ c, t ≠ .comma) (hb0 : b ≠ []) (hc0 : c ≠ []) :
    Dcf.parse frac (a ++ .comma :: (b ++ .comma :: (c ++ .rp :: rest))) (rest.length + 1) = frac (joined a) (joined b) (joined c) :=
  C112_fields frac a b c (.rp :: rest) (rest.length + 1) ha hb hc hb0 hc0 (by simp) (Or.inl rfl)

private theorem field_rp (a rest : List Tok) (ha : ∀ t ∈ a, t ≠ .comma) : field (a ++ .rp :: rest) (rest.length + 1) = some (joined a, .rp :: rest) :=
  field_run (by simp) (Or.inl rfl) a ha

/-! ### The texts of dates -/

theorem date_chars {d : Date.Date} (h : d.Valid) : ∀ c ∈ DateText.toString' d, c.isDigit = true ∨ c = '-' := by
  intro c hc
  rw [(toString_eq d h).1, List.mem_append, List.mem_cons, List.mem_append, List.mem_cons] at hc
  rcases hc with hc | hc | hc | hc | hc
  · exact Or.inl ((padded_digits _ _).2 c hc)
  · exact Or.inr hc
  · exact Or.inl ((padded_digits _ _).2 c hc)
  · exact Or.inr hc
  · exact Or.inl ((padded_digits _ _).2 c hc)

private theorem spaced_chars {d : Date.Date} (h : d.Valid) {s : List Char} (hs : s.filter (fun c => c ≠ ' ') = DateText.toString' d) :
    ∀ c ∈ s, c.isDigit = true ∨ c = '-' ∨ c = ' ' := by
  intro c hc
  by_cases hb : c = ' '
  · exact Or.inr (Or.inr hb)
  · have : c ∈ s.filter (fun c => c ≠ ' ') := List.mem_filter.2 ⟨hc, by simpa using hb⟩
    rw [hs] at this
    rcases date_chars h c this with h' | h'
    · exact Or.inl h'
    · exact Or.inr (Or.inl h')

theorem spaced_joined {d : Date.Date} (h : d.Valid) {s : List Char} (hs : s.filter (fun c => c ≠ ' ') = DateText.toString' d) :
    joined (tokens s) = DateText.toString' d := by
  rw [joined_date (spaced_chars h hs), hs]

private theorem digit_word {c : Char} (hd : c.isDigit = true) : isWordChar c = true := by
  simp only [Char.isDigit, Bool.and_eq_true, decide_eq_true_eq, ge_iff_le, UInt32.le_iff_toNat_le] at hd
  have h1 : '0'.toNat ≤ c.toNat := hd.1
  have h2 : c.toNat ≤ '9'.toNat := hd.2
  have h3 : 48 ≤ c.toNat ∧ c.toNat ≤ 57 := ⟨h1, h2⟩
  simp [isWordChar, h3]

theorem spaced_plain {d : Date.Date} (h : d.Valid) {s : List Char} (hs : s.filter (fun c => c ≠ ' ') = DateText.toString' d) : Worded s := by
  intro c hc
  rcases spaced_chars h hs c hc with h' | h' | h'
  · exact Or.inl (digit_word h')
  · exact Or.inr (Or.inr (Or.inl h'))
  · exact Or.inr (Or.inr (Or.inr h'))

theorem spaced_ne {d : Date.Date} (h : d.Valid) {s : List Char} (hs : s.filter (fun c => c ≠ ' ') = DateText.toString' d) : tokens s ≠ [] := by
  intro h0
  have := spaced_joined h hs
  rw [h0] at this
  have hl := (C06_text_reads_as_ctor d h).2.2
  rw [← this] at hl
  cases hl

/-! ### The names of day bases -/

private theorem condensed_upper (s : List Char) : condensed s = (upper s).filter fun c => !isFluff c := by
  rw [condensed, upper, List.filter_map]
  congr 1
  refine List.filter_congr fun c _ => ?_
  simp [isFluff_toUpper]

private theorem condensed_joined {n : List Char} (h : Worded n) : condensed (joined (tokens n)) = condensed n := by
  rw [condensed_upper, joined_upper h, ← condensed_upper, condensed, condensed, List.filter_filter]
  congr 1
  refine List.filter_congr fun c _ => ?_
  by_cases hc : c = ' '
  · subst hc; decide
  · simp [hc]

private theorem plain_ascii {n : List Char} (h : Worded n) : Ascii n := by
  intro c hc
  rcases h c hc with h' | rfl | rfl | rfl
  · simp only [isWordChar, Bool.or_eq_true, Bool.and_eq_true, decide_eq_true_eq, beq_iff_eq] at h'
    rcases h' with (((h' | h') | h') | rfl) | rfl
    · have : c.toNat ≤ 122 := h'.2
      omega
    · have : c.toNat ≤ 90 := h'.2
      omega
    · have : c.toNat ≤ 57 := h'.2
      omega
    · decide
    · decide
  · decide
  · decide
  · decide

private theorem joined_ascii {n : List Char} (h : Worded n) : Ascii (joined (tokens n)) := by
  intro c hc
  have h1 : c.toUpper ∈ upper (joined (tokens n)) := List.mem_map.2 ⟨c, hc, rfl⟩
  rw [joined_upper h, upper, List.mem_map] at h1
  obtain ⟨d, hd, hu⟩ := h1
  have hda := plain_ascii h d (List.mem_filter.1 hd).1
  rcases toUpper_spec c with ⟨_, h2, _⟩ | ⟨_, h2⟩
  · omega
  · rw [h2] at hu
    rcases toUpper_spec d with ⟨_, h3, h4⟩ | ⟨_, h4⟩
    · rw [hu] at h4; omega
    · rw [h4] at hu; rw [← hu]; exact hda

private theorem table_mem : dayBasisTable ∈ allTables := by simp [allTables]

private theorem read_name (sgn : Bool) {n : List Char} (h : Worded n) (w : List Char) :
    readEnum sgn dayBasisTable (joined (tokens n)) = some w ↔ (condensed n, w) ∈ dayBasisTable.reads := by
  rw [C67_reads_iff sgn dayBasisTable table_mem _ (joined_ascii h), condensed_joined h]

/-- The enumerator of a day basis. -/
private def enumerator : Basis → List Char
  | .act365F => "ACT_365F".toList
  | .act360 => "ACT_360".toList
  | .actAct => "ACT_ACT".toList
  | .bond => "BOND".toList

private theorem names_table : ∀ k : Basis, ∀ m ∈ k.names, (m, enumerator k) ∈ dayBasisTable.reads := by
  intro k; cases k <;> decide +kernel

private theorem table_names : ∀ e ∈ dayBasisTable.reads, e.2 = "ACT_365L".toList ∨ ∃ k : Basis, e.1 ∈ k.names := by
  intro e he
  have hall : ∀ e ∈ dayBasisTable.reads, e.2 = "ACT_365L".toList ∨ (e.1 ∈ Basis.act365F.names ∨ e.1 ∈ Basis.act360.names ∨ e.1 ∈ Basis.actAct.names ∨ e.1 ∈ Basis.bond.names) := by
    decide +kernel
  rcases hall e he with h | h | h | h | h
  · exact Or.inl h
  · exact Or.inr ⟨_, h⟩
  · exact Or.inr ⟨_, h⟩
  · exact Or.inr ⟨_, h⟩
  · exact Or.inr ⟨_, h⟩

/-- The fraction of a basis by its enumerator. -/
private theorem fraction_value (sgn : Bool) (k : Basis) {n s t : List Char} {a b : Date.Date} (hn : readEnum sgn dayBasisTable n = some (enumerator k))
    (ha : DateText.fromString s = some a) (hb : DateText.fromString t = some b) (hva : a.Valid) (hvb : b.Valid) (hk : k.Sound a b) :
    ∃ d₀, ∀ depth, d₀ ≤ depth → Dcf.fraction sgn depth n s t = some (some (k.years a b)) := by
  have hsub : ((Date.sub b a : Int) : Rat) = (b.serial : Rat) - a.serial := by
    rw [sub_eq]; push_cast; ring
  cases k with
  | act365F =>
    refine ⟨0, fun depth _ => ?_⟩
    rw [Dcf.fraction, hn, ha, hb]
    dsimp only
    rw [if_neg (by decide), if_pos (by decide), DayBasis.act365F, hsub]
    rfl
  | act360 =>
    refine ⟨0, fun depth _ => ?_⟩
    rw [Dcf.fraction, hn, ha, hb]
    dsimp only
    rw [if_pos (by decide), DayBasis.act360, hsub]
    rfl
  | actAct =>
    obtain ⟨d₀, h⟩ := C14_actAct_is_daily_sum_partial a b hva hvb hk.1 (Or.inl hk.2)
    refine ⟨d₀, fun depth hd => ?_⟩
    rw [Dcf.fraction, hn, ha, hb]
    dsimp only
    rw [if_neg (by decide), if_neg (by decide), if_pos (by decide), h depth hd]
    rfl
  | bond =>
    refine ⟨0, fun depth _ => ?_⟩
    rw [Dcf.fraction, hn, ha, hb]
    dsimp only
    rw [if_neg (by decide), if_neg (by decide), if_neg (by decide), if_neg (by decide)]
    have h1 := C14_bond_partial a b hk.1 (Or.inl hk.2)
    have h2 : bondSpecDays (Date.day a) (Date.day b) = (Date.day a, Date.day b) := by
      have hd := hk.2
      have n2 : ¬ (Date.day a = 31) := by clear * - hd; generalize Date.day a = x at *; omega
      have n3 : ¬ (Date.day a = 30) := by clear * - hd; generalize Date.day a = x at *; omega
      simp only [bondSpecDays, n2, n3, and_false, if_false]
    rw [h2] at h1
    have h3 : DayBasis.bond a b = Basis.years .bond a b := by
      rw [Basis.years]
      push_cast at h1
      generalize (Date.year b : Rat) = yb at *
      generalize (Date.year a : Rat) = ya at *
      generalize (Date.month b : Rat) = mb at *
      generalize (Date.month a : Rat) = ma at *
      generalize (Date.day b : Rat) = db at *
      generalize (Date.day a : Rat) = da at *
      generalize DayBasis.bond a b = x at *
      linarith
    rw [h3]

/-- `DCF(n,s,t)` as an expression, wherever it stands. -/
theorem dcf_grammar {D : Type} {v : PEnv D} {x : D} {n s t : List Char} (hn : Worded n) (hs : Worded s) (ht : Worded t) (hs0 : tokens s ≠ []) (ht0 : tokens t ≠ [])
    (frac : List Char → List Char → List Char → Option (Option D)) (hv : v.dcf = Dcf.parse frac) (hf : frac (joined (tokens n)) (joined (tokens s)) (joined (tokens t)) = some (some x)) :
    G4 v (tokens (dcfText n s t)) (.const x) := by
  rw [dcf_tokens]
  refine G4.dcf ?_ ?_
  · intro u hu
    simp only [List.mem_append, List.mem_cons] at hu
    rcases hu with hu | rfl | hu | rfl | hu
    · exact (plain_tokens hn u hu).2
    · exact ⟨by decide, by decide⟩
    · exact (plain_tokens hs u hu).2
    · exact ⟨by decide, by decide⟩
    · exact (plain_tokens ht u hu).2
  · intro rest
    have := C112_fields frac (tokens n) (tokens s) (tokens t) (.rp :: rest) (rest.length + 1) (fun u hu => (plain_tokens hn u hu).1) (fun u hu => (plain_tokens hs u hu).1)
      (fun u hu => (plain_tokens ht u hu).1) hs0 ht0 (by simp) (Or.inl rfl)
    rw [hv, ← hf, ← this]
    simp

/-- How the parser is set up: `ParseDCF` with the day bases and dates of the library; `num` makes the fraction a `double`. -/
def DcfEnv {D : Type} (v : PEnv D) (sgn : Bool) (depth : Nat) (num : Rat → D) : Prop :=
  v.dcf = Dcf.parse fun n s t => (Dcf.fraction sgn depth n s t).map (Option.map num)

/-- The expression `DCF(n,s,t)` is the year fraction between the dates. -/
theorem dcf_value (sgn : Bool) (k : Basis) (n s t : List Char) (a b : Date.Date) (hn : Worded n) (hk : condensed n ∈ k.names) (ha : Readable a) (hb : Readable b)
    (hs : s.filter (fun c => c ≠ ' ') = DateText.toString' a) (ht : t.filter (fun c => c ≠ ' ') = DateText.toString' b) (hab : k.Sound a b) :
    ∃ d₀, ∀ depth, d₀ ≤ depth → ∀ (D : Type) (v : PEnv D) (num : Rat → D), DcfEnv v sgn depth num →
      G4 v (tokens (dcfText n s t)) (.const (num (k.years a b))) := by
  obtain ⟨d₀, h⟩ := fraction_value sgn k ((read_name sgn hn _).2 (names_table k _ hk)) (C06_roundtrip_partial a ha.1 ha.2) (C06_roundtrip_partial b hb.1 hb.2)
    ha.1 hb.1 hab
  refine ⟨d₀, fun depth hd D v num hv => ?_⟩
  refine dcf_grammar hn (spaced_plain ha.1 hs) (spaced_plain hb.1 ht) (spaced_ne ha.1 hs) (spaced_ne hb.1 ht) _ hv ?_
  rw [spaced_joined ha.1 hs, spaced_joined hb.1 ht, h depth hd]
  rfl

/-- The same for ACT/365F, whatever the depth of the stack. -/
theorem dcf_value_365 (sgn : Bool) (n s t : List Char) (a b : Date.Date) (hn : Worded n) (hk : condensed n ∈ Basis.names .act365F) (ha : Readable a) (hb : Readable b)
    (hs : s.filter (fun c => c ≠ ' ') = DateText.toString' a) (ht : t.filter (fun c => c ≠ ' ') = DateText.toString' b) {D : Type} {v : PEnv D} {depth : Nat} {num : Rat → D}
    (hv : DcfEnv v sgn depth num) : G4 v (tokens (dcfText n s t)) (.const (num (((b.serial : Rat) - a.serial) / 365))) := by
  refine dcf_grammar hn (spaced_plain ha.1 hs) (spaced_plain hb.1 ht) (spaced_ne ha.1 hs) (spaced_ne hb.1 ht) _ hv ?_
  have hsub : ((Date.sub b a : Int) : Rat) = (b.serial : Rat) - a.serial := by
    rw [sub_eq]; push_cast; ring
  rw [spaced_joined ha.1 hs, spaced_joined hb.1 ht, Dcf.fraction, (read_name sgn hn _).2 (names_table .act365F _ hk), C06_roundtrip_partial a ha.1 ha.2, C06_roundtrip_partial b hb.1 hb.2]
  dsimp only
  rw [if_neg (by decide), if_pos (by decide), DayBasis.act365F, hsub]
  rfl

/-- FULL CLAIM (false, see `C112_late_violated`): `DCF(basis, start, end)` with a name of a day basis — in any case, with blanks and underscores anywhere — and two dates `yyyy-mm-dd` is
read as the year fraction between the dates.  PROVED PART: for dates that can be read back (C06), and where the day basis is right (C14). -/
theorem C112_value_partial (sgn : Bool) (k : Basis) (n s t : List Char) (a b : Date.Date) (hn : Worded n) (hk : condensed n ∈ k.names) (ha : Readable a) (hb : Readable b)
    (hs : s.filter (fun c => c ≠ ' ') = DateText.toString' a) (ht : t.filter (fun c => c ≠ ' ') = DateText.toString' b) (hab : k.Sound a b) :
    ∃ d₀, ∀ depth, d₀ ≤ depth → ∀ (D : Type) (v : PEnv D) (num : Rat → D), DcfEnv v sgn depth num →
      ∃ N, ∀ m, N ≤ m → pExpr v m (tokens (dcfText n s t)) 0 = .ok (.const (num (k.years a b)), []) := by
  obtain ⟨d₀, h⟩ := dcf_value sgn k n s t a b hn hk ha hb hs ht hab
  exact ⟨d₀, fun depth hd D v num hv => C27_expression v _ _ (.up (.up (.up (h depth hd D v num hv))))⟩

/-- The hypotheses at work: the script of the snowball example. -/
example : ∃ d₀, ∀ depth, d₀ ≤ depth → ∀ (D : Type) (v : PEnv D) (num : Rat → D), DcfEnv v true depth num →
    ∃ N, ∀ m, N ≤ m → pExpr v m (tokens "DCF(ACT365F, 2023-02-01, 2025-03-01)".toList) 0 = .ok (.const (num (759 / 365)), []) := by
  have h1 : DateText.toString' (Date.mk' 2023 2 1) = "2023-02-01".toList := by decide +kernel
  have h2 : DateText.toString' (Date.mk' 2025 3 1) = "2025-03-01".toList := by decide +kernel
  have hy : Basis.act365F.years (Date.mk' 2023 2 1) (Date.mk' 2025 3 1) = 759 / 365 := by decide +kernel
  have hr : ∀ d ∈ [Date.mk' 2023 2 1, Date.mk' 2025 3 1], Readable d := by
    intro d hd
    have hv : ∀ d ∈ [Date.mk' 2023 2 1, Date.mk' 2025 3 1], d.Valid ∧ Date.year d < 2034 := by decide +kernel
    exact ⟨(hv d hd).1, Or.inl (Or.inl (hv d hd).2)⟩
  have := C112_value_partial true .act365F "ACT365F".toList " 2023-02-01".toList " 2025-03-01".toList (Date.mk' 2023 2 1) (Date.mk' 2025 3 1)
    (by unfold Worded; decide +kernel) (by decide +kernel) (hr _ (by simp)) (hr _ (by simp)) (by rw [h1]; decide +kernel) (by rw [h2]; decide +kernel) trivial
  rw [hy] at this
  exact this

/-- C112: any other name of a day basis, ACT/365L among them, is refused. -/
theorem C112_refused (sgn : Bool) (depth : Nat) (n s t : List Char) (hn : Worded n) (hk : ∀ k : Basis, condensed n ∉ k.names) (rest : List Tok) (hs : Worded s) (ht : Worded t)
    (hs0 : tokens s ≠ []) (ht0 : tokens t ≠ []) :
    Dcf.parse (Dcf.fraction sgn depth) (tokens n ++ .comma :: (tokens s ++ .comma :: (tokens t ++ .rp :: rest))) (rest.length + 1) = some none := by
  rw [fields_rp _ _ _ _ _ (fun u hu => (plain_tokens hn u hu).1) (fun u hu => (plain_tokens hs u hu).1) (fun u hu => (plain_tokens ht u hu).1) hs0 ht0]
  unfold Dcf.fraction
  split
  · next w a b hw _ _ =>
    have hm := (read_name sgn hn w).1 hw
    rcases table_names _ hm with h | ⟨k, h⟩
    · dsimp only at h
      subst h
      rw [if_neg (by decide), if_neg (by decide), if_neg (by decide), if_pos rfl]
    · exact absurd h (hk k)
  · rfl

/-- C112: what is not a date is refused. -/
theorem C112_refused_dates (sgn : Bool) (depth : Nat) (a b c : List Tok) (rest : List Tok) (ha : ∀ t ∈ a, t ≠ .comma) (hb : ∀ t ∈ b, t ≠ .comma) (hc : ∀ t ∈ c, t ≠ .comma)
    (hb0 : b ≠ []) (hc0 : c ≠ []) (h : DateText.isDateString (joined b) = false ∨ DateText.isDateString (joined c) = false) :
    Dcf.parse (Dcf.fraction sgn depth) (a ++ .comma :: (b ++ .comma :: (c ++ .rp :: rest))) (rest.length + 1) = some none := by
  rw [fields_rp _ _ _ _ _ ha hb hc hb0 hc0]
  unfold Dcf.fraction
  split
  · next w x y _ hx hy =>
    exfalso
    have h1 := C06_rejects (joined b) (by rw [hx]; rfl)
    have h2 := C06_rejects (joined c) (by rw [hy]; rfl)
    rw [h1, h2] at h
    simp at h
  · rfl

/-- C112, not so: without a date at all, the parser runs past the closing parenthesis, and past the end of the text if there is no comma further on, instead of reporting the missing field. -/
theorem C112_missing_violated {D : Type} (frac : List Char → List Char → List Char → Option (Option D)) (a rest : List Tok) (ha0 : a ≠ []) (ha : ∀ t ∈ a, t ≠ .comma)
    (hr : ∀ t ∈ rest, t ≠ .comma) : Dcf.parse frac (a ++ .rp :: rest) (rest.length + 1) = none := by
  have h0 : ¬ (a ++ .rp :: rest).length = rest.length + 1 := by
    have := List.length_pos_iff.2 ha0
    simp; omega
  rw [Dcf.parse, if_neg h0, field_rp a rest ha, Option.bind_some]
  dsimp only
  rcases advance_beyond (c := rest.length + 1) (by omega) hr with h | h
  · rw [h]; rfl
  · rw [h, Option.bind_some]
    dsimp only
    rw [field_beyond rest _ (by omega) hr]
    rfl

/-- C112, not so: the same without the second date. -/
theorem C112_missing_end_violated {D : Type} (frac : List Char → List Char → List Char → Option (Option D)) (a b rest : List Tok) (hb0 : b ≠ []) (ha : ∀ t ∈ a, t ≠ .comma)
    (hb : ∀ t ∈ b, t ≠ .comma) (hr : ∀ t ∈ rest, t ≠ .comma) : Dcf.parse frac (a ++ .comma :: (b ++ .rp :: rest)) (rest.length + 1) = none := by
  have h0 : ¬ (a ++ .comma :: (b ++ .rp :: rest)).length = rest.length + 1 := by simp; omega
  obtain ⟨t, b', rfl⟩ := List.exists_cons_of_ne_nil hb0
  rw [Dcf.parse, if_neg h0, field_run (by simp; omega) (Or.inr rfl) a ha, Option.bind_some]
  dsimp only
  rw [List.cons_append, advance_comma (hb t (List.mem_cons_self ..)) (by simp), Option.bind_some]
  dsimp only
  rw [← List.cons_append, field_rp (t :: b') rest hb, Option.bind_some]
  dsimp only
  rcases advance_beyond (c := rest.length + 1) (by omega) hr with h | h
  · rw [h]; rfl
  · rw [h, Option.bind_some]
    dsimp only
    rw [field_beyond rest _ (by omega) hr]
    rfl

/-- C112, not so: with commas further on, the dates are taken from outside the parentheses. -/
theorem C112_outside_violated {D : Type} (frac : List Char → List Char → List Char → Option (Option D)) (a b c rest : List Tok) (ha0 : a ≠ []) (ha : ∀ t ∈ a, t ≠ .comma)
    (hb0 : b ≠ []) (hb : ∀ t ∈ b, t ≠ .comma) (hc0 : c ≠ []) (hc : ∀ t ∈ c, t ≠ .comma) :
    Dcf.parse frac (a ++ .rp :: (b ++ .comma :: (c ++ .comma :: rest))) ((b ++ .comma :: (c ++ .comma :: rest)).length + 1) = frac (joined a) (joined b) (joined c) := by
  obtain ⟨t, b', rfl⟩ := List.exists_cons_of_ne_nil hb0
  obtain ⟨u, c', rfl⟩ := List.exists_cons_of_ne_nil hc0
  have h0 : ¬ (a ++ .rp :: (t :: b' ++ .comma :: (u :: c' ++ .comma :: rest))).length = (t :: b' ++ .comma :: (u :: c' ++ .comma :: rest)).length + 1 := by
    have := List.length_pos_iff.2 ha0
    simp; omega
  generalize hl : (t :: b' ++ .comma :: (u :: c' ++ .comma :: rest)).length = l at *
  have key : ∀ (q tail : List Tok) (c : Nat), (∀ x ∈ q, x ≠ .comma) → (q ++ .comma :: tail).length < c → field (q ++ .comma :: tail) c = some (joined q, .comma :: tail) := by
    intro q
    induction q with
    | nil => intro tail c _ hc; rw [List.nil_append, field, if_neg (by simp at hc ⊢; omega), if_pos rfl]; rfl
    | cons x q ih =>
      intro tail c hq hc
      rw [List.cons_append, field, if_neg (by simp at hc ⊢; omega), if_neg (hq x (List.mem_cons_self ..)), ih tail c (fun y hy => hq y (List.mem_cons_of_mem _ hy)) (by simp at hc ⊢; omega)]
      rfl
  have h3 : field (a ++ .rp :: (t :: b' ++ .comma :: (u :: c' ++ .comma :: rest))) (l + 1) = some (joined a, .rp :: (t :: b' ++ .comma :: (u :: c' ++ .comma :: rest))) := by
    rw [← hl]
    exact field_rp a _ ha
  rw [Dcf.parse, if_neg h0, h3, Option.bind_some]
  dsimp only
  have h1 : advance (.rp :: (t :: b' ++ .comma :: (u :: c' ++ .comma :: rest))) (l + 1) = some (some (t :: b' ++ .comma :: (u :: c' ++ .comma :: rest))) := by
    rw [advance, next, Option.bind_some, List.cons_append, skip_stop (hb t (List.mem_cons_self ..)), ← List.cons_append, Option.map_some, if_neg (by omega)]
  rw [h1, Option.bind_some]
  dsimp only
  rw [key (t :: b') _ _ hb (by omega), Option.bind_some]
  dsimp only
  have h2 : advance (.comma :: (u :: c' ++ .comma :: rest)) (l + 1) = some (some (u :: c' ++ .comma :: rest)) := by
    rw [advance, next, Option.bind_some, List.cons_append, skip_stop (hc u (List.mem_cons_self ..)), ← List.cons_append, Option.map_some, if_neg (by simp at hl ⊢; omega)]
  rw [h2, Option.bind_some]
  dsimp only
  rw [key (u :: c') _ _ hc (by simp at hl ⊢; omega), Option.bind_some]

/-- The text of the first `_violated` theorem: an assignment of `DCF(ACT365F)` is undefined behaviour, however long the parser is given. -/
theorem C112_missing_text_violated {D : Type} (v : PEnv D) (sgn : Bool) (depth : Nat) (num : Rat → D) (hv : DcfEnv v sgn depth num) :
    ∃ N, ∀ m, N ≤ m → pExpr v m (tokens "DCF(ACT365F)".toList) 0 = .ub := by
  have ht : tokens "DCF(ACT365F)".toList = [.kw .dcf, .lp, .name "ACT365F".toList, .rp] := by decide +kernel
  refine ⟨6, fun m hm => ?_⟩
  obtain ⟨m, rfl⟩ : ∃ j, m = j + 6 := ⟨m - 6, by omega⟩
  have hf : findClose 1 [.name "ACT365F".toList, .rp] 0 = .ok [.rp] := by decide +kernel
  have hd : v.dcf [.name "ACT365F".toList, .rp] 1 = none := by
    rw [hv]
    exact C112_missing_violated _ [.name "ACT365F".toList] [] (by simp) (by simp) (by simp)
  rw [ht]
  simp only [pExpr, pL2, pL3, pL4, pPrim, hf, Res.bind, List.length_cons, List.length_nil, Nat.zero_add, hd]

/-- C112, not so: what follows the third field is dropped without a word. -/
theorem C112_extra_violated {D : Type} (frac : List Char → List Char → List Char → Option (Option D)) (a b c extra rest : List Tok)
    (ha : ∀ t ∈ a, t ≠ .comma) (hb : ∀ t ∈ b, t ≠ .comma) (hc : ∀ t ∈ c, t ≠ .comma) (hb0 : b ≠ []) (hc0 : c ≠ []) :
    Dcf.parse frac (a ++ .comma :: (b ++ .comma :: (c ++ .comma :: (extra ++ .rp :: rest)))) (rest.length + 1) = frac (joined a) (joined b) (joined c) :=
  C112_fields frac a b c _ _ ha hb hc hb0 hc0 (by simp; omega) (Or.inr rfl)

/-- C112, not so: between a date that can be read back and one from 2034-03-01 to 2100-02-28, ACT/365F and ACT/360 are a day short. -/
theorem C112_late_violated (sgn : Bool) (depth : Nat) (k : Basis) (hk : k = .act365F ∨ k = .act360) (n s t : List Char) (a b : Date.Date) (hn : Worded n) (hkn : condensed n ∈ k.names)
    (ha : Readable a) (hb : b.Valid) (hb' : ¬ Readable b) (hs : s.filter (fun c => c ≠ ' ') = DateText.toString' a) (ht : t.filter (fun c => c ≠ ' ') = DateText.toString' b)
    (rest : List Tok) :
    ∃ x, x = k.years a b - (if k = .act365F then 1 / 365 else 1 / 360) ∧
      Dcf.parse (Dcf.fraction sgn depth) (tokens n ++ .comma :: (tokens s ++ .comma :: (tokens t ++ .rp :: rest))) (rest.length + 1) = some (some x) := by
  have h1 : ¬ Spec.before (Date.ymd b) (2034, 3, 1) := fun h => hb' ⟨hb, Or.inl h⟩
  have h2 : Spec.before (Date.ymd b) (2100, 3, 1) := by
    by_contra h
    exact hb' ⟨hb, Or.inr h⟩
  obtain ⟨b', hx, hx'⟩ := C06_violated b hb h1 h2
  have hr := (read_name sgn hn _).2 (names_table k _ hkn)
  have hsub : ((Date.sub b' a : Int) : Rat) = (b.serial : Rat) - a.serial - 1 := by
    rw [sub_eq, ← hx']; push_cast; ring
  rw [fields_rp _ _ _ _ _ (fun u hu => (plain_tokens hn u hu).1) (fun u hu => (plain_tokens (spaced_plain ha.1 hs) u hu).1)
    (fun u hu => (plain_tokens (spaced_plain hb ht) u hu).1) (spaced_ne ha.1 hs) (spaced_ne hb ht),
    spaced_joined ha.1 hs, spaced_joined hb ht, Dcf.fraction, hr, C06_roundtrip_partial a ha.1 ha.2, hx]
  dsimp only
  rcases hk with rfl | rfl
  · refine ⟨((b.serial : Rat) - a.serial - 1) / 365, ?_, ?_⟩
    · rw [Basis.years, if_pos rfl]
      ring
    · rw [if_neg (by decide), if_pos (by decide), DayBasis.act365F, hsub]
  · refine ⟨((b.serial : Rat) - a.serial - 1) / 360, ?_, ?_⟩
    · rw [Basis.years, if_neg (by decide)]
      ring
    · rw [if_pos (by decide), DayBasis.act360, hsub]

/-- Such a date. -/
example : (⟨30000⟩ : Date.Date).Valid ∧ ¬ Readable ⟨30000⟩ := by
  refine ⟨by decide +kernel, ?_⟩
  rintro ⟨_, h⟩
  have h3 : Date.year ⟨30000⟩ = 2052 := by decide +kernel
  rcases h with h | h
  · rcases h with h | ⟨h, _⟩
    · change Date.year ⟨30000⟩ < 2034 at h; omega
    · change Date.year ⟨30000⟩ = 2034 at h; omega
  · exact h (Or.inl (by change Date.year ⟨30000⟩ < 2100; omega))

end Dal
