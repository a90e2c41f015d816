import Verif.Indice.NameModel
import Verif.Strings.EnumProps
import Verif.Time.DateTextProps

/-!
# C61: index names round-trip

Specification: the text of an index as its `Name` prints it, and equality of indices.
-/

namespace Dal
open Dal.IndexName Dal.Strings Dal.DateText Dal.Date Dal.Spec

private theorem find_at {s : List Char} {cs : List Char} {start : Nat} {a b : List Char} {c : Char} (h : s.drop start = a ++ c :: b) (hc : c ∈ cs)
    (ha : ∀ x ∈ a, x ∉ cs) : findFirstOf s cs start = start + a.length := by
  have : (a ++ c :: b).findIdx? (· ∈ cs) = some a.length := by
    rw [List.findIdx?_append]
    have h1 : a.findIdx? (· ∈ cs) = none := by
      rw [List.findIdx?_eq_none_iff]
      intro x hx
      simpa using ha x hx
    rw [h1, List.findIdx?_cons]
    simp [hc]
  rw [findFirstOf, h, this]

private theorem find_none {s : List Char} {cs : List Char} {start : Nat} (h : ∀ x ∈ s.drop start, x ∉ cs) : findFirstOf s cs start = npos := by
  have : (s.drop start).findIdx? (· ∈ cs) = none := by
    rw [List.findIdx?_eq_none_iff]
    intro x hx
    simpa using h x hx
  rw [findFirstOf, this]

/-- What the parser makes of a text with the first brackets in order. -/
private theorem parser_brackets (p n rest : List Char) (hp : ∀ x ∈ p, x ≠ '[' ∧ x ≠ ']') (hn : ∀ x ∈ n, x ≠ ']')
    (hlen : (p ++ '[' :: n ++ ']' :: rest).length < 2 ^ 64 - 1) :
    equityParser (p ++ '[' :: n ++ ']' :: rest) =
      (match rest.findIdx? (· ∈ ['@', '>']) with
      | none => some ⟨n, .spot⟩
      | some i => if rest[i]? = some '@' then (fromString (rest.drop (i + 1))).map fun d => ⟨n, .date d⟩ else some ⟨n, .delay (rest.drop (i + 1))⟩) := by
  have hl : (p ++ '[' :: n ++ ']' :: rest).length = p.length + n.length + rest.length + 2 := by simp; omega
  rw [hl] at hlen
  have e1 : findFirstOf (p ++ '[' :: n ++ ']' :: rest) ['['] 0 = p.length := by
    rw [find_at (a := p) (c := '[') (b := n ++ ']' :: rest) (by simp) (by simp) (fun x hx => by simpa using (hp x hx).1)]
    omega
  have e2 : findFirstOf (p ++ '[' :: n ++ ']' :: rest) [']'] 0 = p.length + n.length + 1 := by
    rw [find_at (a := p ++ '[' :: n) (c := ']') (b := rest) (by simp) (by simp) (fun x hx => ?_)]
    · simp; omega
    · rcases List.mem_append.1 hx with h | h
      · simpa using (hp x h).2
      · rcases List.mem_cons.1 h with h | h
        · subst h; decide
        · simpa using hn x h
  have w1 : wadd p.length 1 = p.length + 1 := Nat.mod_eq_of_lt (by omega)
  have w2 : wsub (wsub (p.length + n.length + 1) p.length) 1 = n.length := by unfold wsub; omega
  have w3 : wadd (p.length + n.length + 1) 1 = p.length + n.length + 2 := Nat.mod_eq_of_lt (by omega)
  have d1 : (p ++ '[' :: n ++ ']' :: rest).drop (p.length + 1) = n ++ ']' :: rest := by
    rw [show p ++ '[' :: n ++ ']' :: rest = (p ++ ['[']) ++ (n ++ ']' :: rest) by simp]
    exact List.drop_left' (by simp)
  have d2 : ∀ k, (p ++ '[' :: n ++ ']' :: rest).drop (p.length + n.length + 2 + k) = rest.drop k := by
    intro k
    rw [← List.drop_drop, show p ++ '[' :: n ++ ']' :: rest = (p ++ '[' :: n ++ [']']) ++ rest by simp, List.drop_left' (by simp; try omega)]
  have g : ∀ k, (p ++ '[' :: n ++ ']' :: rest)[p.length + n.length + 2 + k]? = rest[k]? := by
    intro k
    rw [← List.head?_drop, ← List.head?_drop, d2]
  unfold equityParser
  dsimp only
  rw [e1, e2, w1, w2, w3, substr, if_pos (by rw [hl]; omega), d1, List.take_left', Option.bind_some]
  swap
  · rfl
  rw [findFirstOf, show p.length + n.length + 2 = p.length + n.length + 2 + 0 by rfl, d2 0, List.drop_zero]
  cases hf : rest.findIdx? (· ∈ ['@', '>']) with
  | none => rfl
  | some i =>
    dsimp only
    have hi : i < rest.length := by
      by_contra h
      have := List.findIdx?_eq_some_iff_getElem.1 hf
      exact h this.1
    have hmem : ∃ c, rest[i]? = some c ∧ (c = '@' ∨ c = '>') := by
      obtain ⟨h, hc, _⟩ := List.findIdx?_eq_some_iff_getElem.1 hf
      exact ⟨rest[i], List.getElem?_eq_getElem h, by simpa using hc⟩
    have w4 : wsub (wsub (p ++ '[' :: n ++ ']' :: rest).length (p.length + n.length + 2 + i)) 1 = (rest.drop (i + 1)).length := by
      rw [List.length_drop, hl]
      unfold wsub
      omega
    have hs : substr (p ++ '[' :: n ++ ']' :: rest) (p.length + n.length + 2 + i + 1)
        (wsub (wsub (p ++ '[' :: n ++ ']' :: rest).length (p.length + n.length + 2 + i)) 1) = some (rest.drop (i + 1)) := by
      rw [w4, substr, if_pos (by rw [hl]; omega), show p.length + n.length + 2 + i + 1 = p.length + n.length + 2 + (i + 1) by omega, d2, List.take_length]
    rw [if_neg (by unfold npos; omega), Nat.add_zero, hs, Option.bind_some, Option.bind_some, g i]
    obtain ⟨c, hc, hcc⟩ := hmem
    rw [hc]
    rcases hcc with rfl | rfl
    · rw [if_pos rfl, if_pos rfl]
      cases fromString (rest.drop (i + 1)) <;> rfl
    · rw [if_neg (by decide), if_pos rfl, if_neg (by decide)]

/-- The text of an equity index, cut at its brackets. -/
private theorem text_eq (e : Equity) (rest : List Char)
    (h : rest = match e.delivery with
      | .delay s => '>' :: s
      | .date d => '@' :: toString' d
      | .spot => []) : e.text = "EQ".toList ++ '[' :: e.name ++ ']' :: rest := by
  rw [h]
  unfold Equity.text
  cases e.delivery <;> simp

private theorem text_open (e : Equity) : ∃ rest, e.text = "EQ".toList ++ '[' :: rest := by
  rw [text_eq e _ rfl]
  exact ⟨_, List.append_assoc _ _ _⟩

private theorem parse_eq (s rest : List Char) (hs : s = "EQ".toList ++ '[' :: rest) :
    parseIndex registry s = match equityParser s with
      | none => .throws
      | some e => .index (.equity e) := by
  have e1 : findFirstOf s [':', '['] 0 = 2 := find_at (a := "EQ".toList) (c := '[') (b := rest) (by rw [hs]; rfl) (by simp) (by decide)
  have e2 : substr s 0 2 = some "EQ".toList := by
    rw [hs, substr, if_pos (Nat.zero_le _)]
    rfl
  have e3 : registry.lookup "EQ".toList = some (fun s => (equityParser s).map .equity) := by
    unfold registry
    simp [List.lookup]
  unfold parseIndex
  dsimp only
  rw [e1, if_neg (by decide), e2]
  dsimp only
  rw [e3]
  dsimp only
  cases equityParser s <;> rfl

private theorem parser_text (e : Equity) (hn : ∀ x ∈ e.name, x ≠ ']') (hlen : e.text.length < 2 ^ 64 - 1) :
    equityParser e.text = match e.delivery with
      | .spot => some e
      | .delay _ => some e
      | .date d => (fromString (toString' d)).map fun d => ⟨e.name, .date d⟩ := by
  rw [text_eq e _ rfl] at hlen ⊢
  rw [parser_brackets _ _ _ (by decide) hn hlen]
  obtain ⟨name, delivery⟩ := e
  cases delivery with
  | spot => rfl
  | date d =>
    dsimp only
    rw [List.findIdx?_cons, if_pos (by decide)]
    rfl
  | delay t =>
    dsimp only
    rw [List.findIdx?_cons, if_pos (by decide)]
    rfl

/-- The dates whose text reads back (C06). -/
def DeliveryOk : Delivery → Prop
  | .date d => d.Valid ∧ (before (ymd d) (2034, 3, 1) ∨ ¬ before (ymd d) (2100, 3, 1))
  | _ => True

/-- C61 for equities, in part: parsing the name of an equity index whose own name has no closing bracket, and whose delivery date, if any, lies outside the
years in which dates read back a day early, gives that very index. -/
theorem C61_equity_partial (e : Equity) (hn : ']' ∉ e.name) (hd : DeliveryOk e.delivery) (hlen : e.text.length < 2 ^ 64 - 1) :
    parseIndex registry e.text = .index (.equity e) := by
  obtain ⟨r, hr⟩ := text_open e
  have h : equityParser e.text = some e := by
    rw [parser_text e (fun x hx h => hn (h ▸ hx)) hlen]
    clear hlen hr hn
    obtain ⟨name, delivery⟩ := e
    cases delivery with
    | spot => rfl
    | delay t => rfl
    | date d =>
      dsimp only
      rw [C06_roundtrip_partial d hd.1 hd.2, Option.map_some]
  rw [parse_eq e.text r hr, h]

/-- C61 fails for delivery dates from March 2034 to February 2100: the index that comes back delivers a day earlier and has another name. -/
theorem C61_equity_date_violated (n : List Char) (d : Date) (hn : ']' ∉ n) (hv : d.Valid) (h1 : ¬ before (ymd d) (2034, 3, 1))
    (h2 : before (ymd d) (2100, 3, 1)) (hlen : (⟨n, .date d⟩ : Equity).text.length < 2 ^ 64 - 1) :
    ∃ x : Date, x.serial + 1 = d.serial ∧ parseIndex registry (⟨n, .date d⟩ : Equity).text = .index (.equity ⟨n, .date x⟩) := by
  obtain ⟨x, hx, hs⟩ := C06_violated d hv h1 h2
  refine ⟨x, hs, ?_⟩
  obtain ⟨r, hr⟩ := text_open ⟨n, .date d⟩
  have h := parser_text ⟨n, .date d⟩ (fun x hx h => hn (h ▸ hx)) hlen
  dsimp only at h
  rw [hx, Option.map_some] at h
  rw [parse_eq _ r hr, h]

/-- C61 fails for equity names with a closing bracket: the name that comes back stops there. -/
theorem C61_equity_bracket_violated (a b : List Char) (ha : ']' ∉ a) (hb : ∀ c ∈ b, c ≠ '@' ∧ c ≠ '>')
    (hlen : (⟨a ++ ']' :: b, .spot⟩ : Equity).text.length < 2 ^ 64 - 1) :
    parseIndex registry (⟨a ++ ']' :: b, .spot⟩ : Equity).text = .index (.equity ⟨a, .spot⟩) ∧
    (⟨a, .spot⟩ : Equity).text ≠ (⟨a ++ ']' :: b, .spot⟩ : Equity).text := by
  have ht : (⟨a ++ ']' :: b, .spot⟩ : Equity).text = "EQ".toList ++ '[' :: a ++ ']' :: (b ++ [']']) := by
    rw [text_eq _ _ rfl]; simp
  constructor
  · rw [parse_eq _ (a ++ ']' :: (b ++ [']'])) (by rw [ht]; simp)]
    rw [ht] at hlen ⊢
    rw [parser_brackets _ _ _ (by decide) (fun x hx h => ha (h ▸ hx)) hlen]
    have : (b ++ [']']).findIdx? (· ∈ ['@', '>']) = none := by
      rw [List.findIdx?_eq_none_iff]
      intro x hx
      rcases List.mem_append.1 hx with h | h
      · simpa using hb x h
      · rw [List.mem_singleton.1 h]; decide
    rw [this]
  · intro h
    have := congrArg List.length h
    rw [ht, text_eq _ _ rfl] at this
    simp at this

/-- C61: different equity indices may share their name, so that the name alone cannot give back the index. -/
theorem C61_equity_names_collide (a b : List Char) :
    (⟨a ++ "]>".toList ++ b, .spot⟩ : Equity).text = (⟨a, .delay (b ++ [']'])⟩ : Equity).text ∧
    (⟨a ++ "]>".toList ++ b, .spot⟩ : Equity) ≠ ⟨a, .delay (b ++ [']'])⟩ := by
  refine ⟨by rw [text_eq _ _ rfl, text_eq _ _ rfl]; simp, fun h => ?_⟩
  have := congrArg Equity.delivery h
  cases this

private theorem take_no (c : Char) (s : List Char) (i : Nat) (h : findFirstOf s [c] 0 = i) (a n : Nat) (ha : a + n ≤ i) : c ∉ (s.drop a).take n := by
  intro hc
  obtain ⟨k, hk, e⟩ := List.getElem_of_mem hc
  have hkn : k < n ∧ a + k < s.length := by
    rw [List.length_take, List.length_drop] at hk
    omega
  rw [List.getElem_take, List.getElem_drop] at e
  unfold findFirstOf at h
  rw [List.drop_zero] at h
  cases hf : s.findIdx? (· ∈ [c]) with
  | none =>
    have := List.findIdx?_eq_none_iff.1 hf c (e ▸ List.getElem_mem _)
    simp at this
  | some j =>
    rw [hf] at h
    obtain ⟨_, _, h3⟩ := List.findIdx?_eq_some_iff_getElem.1 hf
    have := h3 (a + k) (by dsimp only at h; omega)
    simp [e] at this

/-- C61 for texts, in part: a text in which brackets open before they close and that parses gives an index whose name parses to the same index, when the
delivery date, if any, reads back. -/
theorem C61_equity_texts_partial (p n rest : List Char) (e : Equity) (hp : '[' ∉ p ∧ ']' ∉ p) (hn : ']' ∉ n)
    (hlen : (p ++ '[' :: n ++ ']' :: rest).length < 2 ^ 64 - 1) (h : equityParser (p ++ '[' :: n ++ ']' :: rest) = some e)
    (hd : DeliveryOk e.delivery) (hlen' : e.text.length < 2 ^ 64 - 1) : e.name = n ∧ parseIndex registry e.text = .index (.equity e) := by
  have hname : e.name = n := by
    rw [parser_brackets p n rest (fun x hx => ⟨fun h => hp.1 (h ▸ hx), fun h => hp.2 (h ▸ hx)⟩) (fun x hx h => hn (h ▸ hx)) hlen] at h
    cases hf : rest.findIdx? (· ∈ ['@', '>']) with
    | none =>
      rw [hf] at h
      cases h
      rfl
    | some i =>
      rw [hf] at h
      dsimp only at h
      by_cases hc : rest[i]? = some '@'
      · rw [if_pos hc] at h
        cases hx : fromString (rest.drop (i + 1)) with
        | none => rw [hx] at h; cases h
        | some d => rw [hx] at h; cases h; rfl
      · rw [if_neg hc] at h
        cases h
        rfl
  exact ⟨hname, C61_equity_partial e (by rw [hname]; exact hn) hd hlen'⟩

private theorem ccy_texts : ∀ v ∈ ccyTable.values, ∃ p, printEnum ccyTable v = some p ∧ p.length < 100 ∧ ∀ c ∈ p, c ≠ '[' ∧ c ≠ ']' ∧ c ≠ '/' := by
  have : ∀ v ∈ ccyTable.values, (match printEnum ccyTable v with
      | some p => decide (p.length < 100) && p.all (fun c => c != '[' && c != ']' && c != '/')
      | none => false) = true := by decide +kernel
  intro v hv
  have h := this v hv
  cases hp : printEnum ccyTable v with
  | none => rw [hp] at h; cases h
  | some p =>
    rw [hp] at h
    refine ⟨p, rfl, ?_⟩
    simpa [and_assoc] using h

/-- C61 for fx, the parser alone: it gives back every fx index from its name, and swaps the currencies on the inverted name. -/
theorem C61_fx_parser (sgn : Bool) (f : Fx) (hd : f.dom ∈ ccyTable.values) (hf : f.fgn ∈ ccyTable.values) :
    (∃ t, f.text = some t ∧ fxParser sgn t = some f) ∧ ∃ t, f.xname true = some t ∧ fxParser sgn t = some ⟨f.fgn, f.dom⟩ := by
  have key : ∀ g : Fx, g.dom ∈ ccyTable.values → g.fgn ∈ ccyTable.values → ∃ t, g.text = some t ∧ fxParser sgn t = some g := by
    intro g hd hf
    obtain ⟨a, ha, la, na⟩ := ccy_texts _ hf
    obtain ⟨b, hb, lb, nb⟩ := ccy_texts _ hd
    obtain ⟨a', ha', ra⟩ := C67_roundtrip sgn ccyTable (by simp [allTables]) _ hf
    obtain ⟨b', hb', rb⟩ := C67_roundtrip sgn ccyTable (by simp [allTables]) _ hd
    rw [ha] at ha'
    cases ha'
    rw [hb] at hb'
    cases hb'
    refine ⟨"FX[".toList ++ a ++ ['/'] ++ b ++ [']'], ?_, ?_⟩
    · unfold Fx.text Fx.xname
      simp only [Bool.false_eq_true, if_false, ha, hb, Option.bind_some]
    · obtain ⟨s, hs⟩ : ∃ s, s = "FX[".toList ++ a ++ ['/'] ++ b ++ [']'] := ⟨_, rfl⟩
      have hl : s.length = a.length + b.length + 5 := by rw [hs]; simp; omega
      have e1 : findFirstOf s ['['] 0 = 2 := find_at (a := "FX".toList) (c := '[') (b := a ++ ['/'] ++ b ++ [']']) (by rw [hs]; simp) (by simp) (by decide)
      have e2 : findFirstOf s ['/'] 0 = a.length + 3 := by
        rw [find_at (a := "FX[".toList ++ a) (c := '/') (b := b ++ [']']) (by rw [hs]; simp) (by simp) (fun x hx => ?_)]
        · simp; try omega
        · rcases List.mem_append.1 hx with h | h
          · clear hx; revert x; decide
          · simpa using (na x h).2.2
      have e3 : findFirstOf s [']'] 0 = a.length + b.length + 4 := by
        rw [find_at (a := "FX[".toList ++ a ++ ['/'] ++ b) (c := ']') (b := []) (by rw [hs]; simp) (by simp) (fun x hx => ?_)]
        · simp; omega
        · rcases List.mem_append.1 hx with h | h
          · rcases List.mem_append.1 h with h | h
            · rcases List.mem_append.1 h with h | h
              · rename_i h1 h2; clear hx h1 h2; revert x; decide
              · simpa using (na x h).2.1
            · rw [List.mem_singleton.1 h]; decide
          · simpa using (nb x h).2.1
      have w1 : wadd 2 1 = 3 := rfl
      have w2 : wsub (wsub (a.length + 3) 2) 1 = a.length := by unfold wsub; omega
      have w3 : wadd (a.length + 3) 1 = a.length + 4 := Nat.mod_eq_of_lt (by omega)
      have w4 : wsub (wsub (a.length + b.length + 4) (a.length + 3)) 1 = b.length := by unfold wsub; omega
      have d1 : s.drop 3 = a ++ ('/' :: b ++ [']']) := by rw [hs]; simp
      have d2 : s.drop (a.length + 4) = b ++ [']'] := by
        rw [hs, show "FX[".toList ++ a ++ ['/'] ++ b ++ [']'] = ("FX[".toList ++ a ++ ['/']) ++ (b ++ [']']) by simp]
        exact List.drop_left' (by simp; try omega)
      rw [← hs]
      unfold fxParser
      dsimp only
      rw [e1, e2, e3, if_pos ⟨by decide, by unfold npos; omega, by unfold npos; omega⟩, w1, w2, w3, w4]
      simp only [substr]
      rw [if_pos (by omega), if_pos (by omega), d1, d2, List.take_left' rfl, List.take_left' rfl]
      simp only [Option.bind_some, ra, rb]
  refine ⟨key f hd hf, ?_⟩
  obtain ⟨t, h1, h2⟩ := key ⟨f.fgn, f.dom⟩ hf hd
  refine ⟨t, ?_, h2⟩
  rw [← h1]
  unfold Fx.text Fx.xname
  simp

/-- C61 fails for fx: the fx parser is never registered, so that parsing the name of any fx index throws. -/
theorem C61_fx_violated (f : Fx) (t : List Char) (h : f.text = some t) : parseIndex registry t = .throws := by
  obtain ⟨r, hr⟩ : ∃ r, t = "FX".toList ++ '[' :: r := by
    unfold Fx.text Fx.xname at h
    cases ha : printEnum ccyTable (if false = true then f.dom else f.fgn) with
    | none => rw [ha] at h; cases h
    | some a =>
      rw [ha, Option.bind_some] at h
      cases hb : printEnum ccyTable (if false = true then f.fgn else f.dom) with
      | none => rw [hb] at h; cases h
      | some b =>
        rw [hb, Option.bind_some] at h
        exact ⟨a ++ ['/'] ++ b ++ [']'], by rw [← Option.some.inj h]; simp⟩
  have e1 : findFirstOf t [':', '['] 0 = 2 := find_at (a := "FX".toList) (c := '[') (b := r) (by rw [hr]; rfl) (by simp) (by decide)
  have e2 : substr t 0 2 = some "FX".toList := by
    rw [hr, substr, if_pos (Nat.zero_le _)]
    rfl
  have e3 : registry.lookup "FX".toList = none := by
    unfold registry
    simp [List.lookup]
  unfold parseIndex
  dsimp only
  rw [e1, if_neg (by decide), e2]
  dsimp only
  rw [e3]

/-- C61: with the fx parser registered as well, every fx name would round-trip. -/
theorem C61_fx_registered (sgn : Bool) (f : Fx) (hd : f.dom ∈ ccyTable.values) (hf : f.fgn ∈ ccyTable.values) :
    ∃ t, f.text = some t ∧ parseIndex (("FX".toList, fun s => (fxParser sgn s).map .fx) :: registry) t = .index (.fx f) := by
  obtain ⟨t, h1, h2⟩ := (C61_fx_parser sgn f hd hf).1
  refine ⟨t, h1, ?_⟩
  obtain ⟨r, hr⟩ : ∃ r, t = "FX".toList ++ '[' :: r := by
    obtain ⟨a, ha, _⟩ := ccy_texts _ hf
    obtain ⟨b, hb, _⟩ := ccy_texts _ hd
    unfold Fx.text Fx.xname at h1
    simp only [Bool.false_eq_true, if_false, ha, hb, Option.bind_some] at h1
    exact ⟨a ++ ['/'] ++ b ++ [']'], by rw [← Option.some.inj h1]; simp⟩
  have e1 : findFirstOf t [':', '['] 0 = 2 := find_at (a := "FX".toList) (c := '[') (b := r) (by rw [hr]; rfl) (by simp) (by decide)
  have e2 : substr t 0 2 = some "FX".toList := by
    rw [hr, substr, if_pos (Nat.zero_le _)]
    rfl
  unfold parseIndex
  dsimp only
  rw [e1, if_neg (by decide), e2]
  dsimp only
  rw [List.lookup_cons_self]
  dsimp only
  rw [h2]
  rfl

/-! ### The hypotheses hold -/

example : parseIndex registry "EQ[SPX]@2025-06-20".toList = .index (.equity ⟨"SPX".toList, .date (mk' 2025 6 20)⟩) := by decide +kernel

example : parseIndex registry "EQ[SPX]>3M".toList = .index (.equity ⟨"SPX".toList, .delay "3M".toList⟩) := by decide +kernel

example : ']' ∉ "SPX".toList ∧ DeliveryOk (.delay "3M".toList) := ⟨by decide, trivial⟩

example : (⟨"USD".toList, "EUR".toList⟩ : Fx).text = some "FX[EUR/USD]".toList := by decide +kernel

end Dal
