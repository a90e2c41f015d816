import Verif.Script.ParserProps
import Verif.Script.DcfModel
import Verif.Strings.EnumProps

/-! # Lemmas about texts, tokens and the fields of `DCF` -/

namespace Dal.Script

/-- Tokens of a text end before a character that neither continues a word nor a comparator. -/
theorem lex_append {d : Char} (h1 : isWordChar d = false) (h2 : d ≠ '=') (rest : List Char) : ∀ (a buf : List Char) (skip : Bool), (skip = true → a ≠ []) →
    lex buf skip (a ++ d :: rest) = lex buf skip a ++ lex [] false (d :: rest) := by
  intro a
  induction a with
  | nil =>
    intro buf skip hs
    cases skip with
    | true => exact absurd rfl (hs rfl)
    | false =>
      have hd : ¬ isWordChar d = true := by simp [h1]
      simp only [List.nil_append, lex, if_neg hd]
      have hf : flush [] = [] := rfl
      rw [hf]
      split
      · rfl
      · split <;> rfl
  | cons c a ih =>
    intro buf skip hs
    cases skip with
    | true =>
      rw [List.cons_append, lex, lex]
      exact ih _ _ (by simp)
    | false =>
      rw [List.cons_append, lex, lex]
      by_cases hw : isWordChar c = true
      · rw [if_pos hw, if_pos hw]
        exact ih _ _ (by simp)
      · rw [if_neg hw, if_neg hw]
        have hh : ((a ++ d :: rest).head? = some '=') ↔ (a.head? = some '=') := by
          cases a with
          | nil => simp [h2]
          | cons e a => simp
        by_cases hc : (c = '!' ∨ c = '>' ∨ c = '<') ∧ a.head? = some '='
        · rw [if_pos (by rw [hh]; exact hc), if_pos hc, ih _ _ (fun _ hn => by rw [hn] at hc; simp at hc)]
          simp
        · rw [if_neg (by rw [hh]; exact hc), if_neg hc]
          by_cases hg : isSingle c = true
          · rw [if_pos hg, if_pos hg, ih _ _ (by simp)]
            simp
          · rw [if_neg hg, if_neg hg, ih _ _ (by simp)]
            simp

theorem tokens_append {d : Char} (h1 : isWordChar d = false) (h2 : d ≠ '=') (a rest : List Char) :
    tokens (a ++ d :: rest) = tokens a ++ tokens (d :: rest) := by
  rw [tokens, lex_append h1 h2 rest a [] false (by simp), List.filterMap_append]
  rfl

theorem tokens_blank (rest : List Char) : tokens (' ' :: rest) = tokens rest := by
  rw [tokens, lex, if_neg (by decide), if_neg (by simp), if_neg (by decide)]
  rfl

theorem tokens_single {d : Char} {t : Tok} (h1 : isWordChar d = false) (h2 : isSingle d = true) (h3 : ¬ (d = '!' ∨ d = '>' ∨ d = '<')) (ht : classify [d] = some t)
    (rest : List Char) : tokens (d :: rest) = t :: tokens rest := by
  rw [tokens, lex, if_neg (by simp [h1]), if_neg (by simp [h3]), if_pos h2]
  show (flush [] ++ [d] :: lex [] false rest).filterMap classify = _
  have hf : flush [] = [] := rfl
  rw [hf, List.nil_append, List.filterMap_cons, ht]
  rfl

/-- Texts of names and dates: words, strokes, hyphens and blanks. -/
def Worded (s : List Char) : Prop := ∀ c ∈ s, isWordChar c = true ∨ c = '/' ∨ c = '-' ∨ c = ' '

/-- The words of such a text put together are the text without its blanks. -/
theorem lex_flatten : ∀ (s buf : List Char), Worded s → (lex buf false s).flatten = buf ++ s.filter (fun c => c ≠ ' ') := by
  intro s
  induction s with
  | nil =>
    intro buf _
    rw [lex, flush]
    split
    · next h => simp [h]
    · simp
  | cons c s ih =>
    intro buf h
    have hs : Worded s := fun d hd => h d (List.mem_cons_of_mem _ hd)
    have hf : (flush buf).flatten = buf := by
      rw [flush]
      split
      · next h => simp [h]
      · simp
    rw [lex]
    rcases h c (List.mem_cons_self ..) with hw | rfl | rfl | rfl
    · have hb : c ≠ ' ' := by rintro rfl; cases hw
      rw [if_pos hw, ih _ hs]
      simp [hb]
    · rw [if_neg (by decide), if_neg (by simp), if_pos (by decide), List.flatten_append, hf, List.flatten_cons, ih _ hs]
      simp
    · rw [if_neg (by decide), if_neg (by simp), if_pos (by decide), List.flatten_append, hf, List.flatten_cons, ih _ hs]
      simp
    · rw [if_neg (by decide), if_neg (by simp), if_neg (by decide), List.flatten_append, hf, ih _ hs]
      simp

private theorem pick {w x : List Char} {t u : Tok} {r : Option Tok} (h : (if w = x then some t else r) = some u) : (w = x ∧ t = u) ∨ r = some u := by
  split at h
  · next hw => left; injection h with h; exact ⟨hw, h⟩
  · right; exact h

private theorem pick' {w x : List Char} {t : Tok} {r : Option Tok} (h : ∃ u, r = some u) : ∃ u, (if w = x then some t else r) = some u := by
  split
  · exact ⟨_, rfl⟩
  · exact h

/-- What is a token, is it by its text, up to the case of reserved words. -/
theorem classify_text {w : List Char} {t : Tok} (h : classify w = some t) : Tok.text t = w ∨ ∃ k, t = .kw k ∧ Tok.text t = upper w := by
  unfold classify at h
  iterate 16
    refine (pick h).elim (fun hw => ?_) (fun h => ?_)
    · left; rw [hw.1, ← hw.2]; rfl
    rename_i h
  split at h
  · cases h
  · split at h
    · left; injection h with h; rw [← h]; rfl
    · split at h
      · next k hk =>
        right
        injection h with h
        refine ⟨k, h.symm, ?_⟩
        rw [← h]
        show k.text = _
        simpa using List.find?_some hk
      · left; injection h with h; rw [← h]; rfl

theorem classify_isSome {w : List Char} (h : w ≠ []) : ∃ t, classify w = some t := by
  unfold classify
  iterate 16 refine pick' ?_
  split
  · exact absurd rfl h
  · split
    · exact ⟨_, rfl⟩
    · split <;> exact ⟨_, rfl⟩

/-- A number or name that starts with a digit is no reserved word. -/
theorem classify_exact {w : List Char} {t : Tok} (h : classify w = some t) (hd : ∀ c ∈ w, c.isDigit = true ∨ c = '-') : Tok.text t = w := by
  rcases classify_text h with h' | ⟨k, rfl, h'⟩
  · exact h'
  · exfalso
    have hu : upper w = w := by
      rw [upper]
      refine (List.map_congr_left fun c hc => ?_).trans (List.map_id w)
      rcases hd c hc with hx | rfl
      · have h1 : ¬ (97 ≤ c.toNat) := by
          intro h97
          simp only [Char.isDigit, Bool.and_eq_true, decide_eq_true_eq, ge_iff_le] at hx
          have := hx.2
          rw [UInt32.le_iff_toNat_le] at this
          have h57 : c.toNat ≤ 57 := this
          omega
        rcases Dal.toUpper_spec c with ⟨h2, _⟩ | h2
        · exact absurd h2 h1
        · exact h2.2
      · decide
    rw [hu] at h'
    have : ∃ c ∈ Tok.text (.kw k), ¬ (c.isDigit = true ∨ c = '-') := by cases k <;> decide
    obtain ⟨c, hc, hn⟩ := this
    exact hn (hd c (h' ▸ hc))

theorem lex_ne : ∀ (s buf : List Char) (b : Bool), ∀ w ∈ lex buf b s, w ≠ [] := by
  have hf : ∀ buf : List Char, ∀ w ∈ flush buf, w ≠ [] := by
    intro buf w hw
    rw [flush] at hw
    split at hw
    · cases hw
    · next h => rw [List.mem_singleton] at hw; rw [hw]; exact h
  intro s
  induction s with
  | nil => intro buf b w hw; rw [lex] at hw; exact hf _ _ hw
  | cons c s ih =>
    intro buf b w hw
    cases b with
    | true => rw [lex] at hw; exact ih _ _ _ hw
    | false =>
      rw [lex] at hw
      split at hw
      · exact ih _ _ _ hw
      · split at hw
        · rw [List.mem_append, List.mem_cons] at hw
          rcases hw with hw | rfl | hw
          · exact hf _ _ hw
          · simp
          · exact ih _ _ _ hw
        · split at hw
          · rw [List.mem_append, List.mem_cons] at hw
            rcases hw with hw | rfl | hw
            · exact hf _ _ hw
            · simp
            · exact ih _ _ _ hw
          · rw [List.mem_append] at hw
            rcases hw with hw | hw
            · exact hf _ _ hw
            · exact ih _ _ _ hw

/-- The tokens' texts put together. -/
def joined (ts : List Tok) : List Char := ts.flatMap Tok.text

private theorem joined_words : ∀ ws : List (List Char), (∀ w ∈ ws, w ≠ []) → upper (joined (ws.filterMap classify)) = upper ws.flatten := by
  intro ws
  induction ws with
  | nil => intro _; rfl
  | cons w ws ih =>
    intro h
    obtain ⟨t, ht⟩ := classify_isSome (h w (List.mem_cons_self ..))
    rw [List.filterMap_cons, ht, List.flatten_cons, joined, List.flatMap_cons]
    have h1 := ih fun u hu => h u (List.mem_cons_of_mem _ hu)
    have h2 : upper (Tok.text t) = upper w := by
      rcases classify_text ht with h' | ⟨k, _, h'⟩
      · rw [h']
      · rw [h', upper, upper, List.map_map]
        exact List.map_congr_left fun c _ => Dal.toUpper_idem c
    rw [upper, List.map_append, upper, List.map_append]
    rw [upper] at h1 h2
    rw [upper] at h2
    rw [h2]
    rw [joined, upper] at h1
    rw [h1]

theorem joined_upper {s : List Char} (h : Worded s) : upper (joined (tokens s)) = upper (s.filter fun c => c ≠ ' ') := by
  rw [tokens, joined_words _ (lex_ne s [] false), lex_flatten s [] h, List.nil_append]

private theorem joined_exact : ∀ ws : List (List Char), (∀ w ∈ ws, w ≠ [] ∧ ∀ c ∈ w, c.isDigit = true ∨ c = '-') → joined (ws.filterMap classify) = ws.flatten := by
  intro ws
  induction ws with
  | nil => intro _; rfl
  | cons w ws ih =>
    intro h
    have hw := h w (List.mem_cons_self ..)
    obtain ⟨t, ht⟩ := classify_isSome hw.1
    have h1 := ih fun u hu => h u (List.mem_cons_of_mem _ hu)
    rw [joined] at h1
    rw [List.filterMap_cons, ht, List.flatten_cons, joined, List.flatMap_cons, classify_exact ht hw.2, h1]

/-- Dates are put together again as they were written. -/
theorem joined_date {s : List Char} (h : ∀ c ∈ s, c.isDigit = true ∨ c = '-' ∨ c = ' ') : joined (tokens s) = s.filter fun c => c ≠ ' ' := by
  have hp : Worded s := by
    intro c hc
    rcases h c hc with hd | rfl | rfl
    · left
      simp only [Char.isDigit, Bool.and_eq_true, decide_eq_true_eq, ge_iff_le, UInt32.le_iff_toNat_le] at hd
      have h1 : '0'.toNat ≤ c.toNat := hd.1
      have h2 : c.toNat ≤ '9'.toNat := hd.2
      have h3 : 48 ≤ c.toNat ∧ c.toNat ≤ 57 := ⟨h1, h2⟩
      simp [isWordChar, h3]
    · right; right; left; rfl
    · right; right; right; rfl
  have hfl := lex_flatten s [] hp
  rw [List.nil_append] at hfl
  rw [tokens, joined_exact, hfl]
  intro w hw
  refine ⟨lex_ne s [] false w hw, fun c hc => ?_⟩
  have : c ∈ (lex [] false s).flatten := List.mem_flatten.2 ⟨w, hw, hc⟩
  rw [hfl, List.mem_filter] at this
  rcases h c this.1 with hd | hd | rfl
  · exact Or.inl hd
  · exact Or.inr hd
  · simp at this

/-- Such a text has neither commas nor parentheses. -/
theorem plain_tokens {s : List Char} (h : Worded s) : ∀ t ∈ tokens s, t ≠ .comma ∧ t ≠ .lp ∧ t ≠ .rp := by
  intro t ht
  rw [tokens, List.mem_filterMap] at ht
  obtain ⟨w, hw, hc⟩ := ht
  have key : ∀ c, Tok.text t = [c] → (∀ k, t ≠ .kw k) → isWordChar c = true ∨ c = '/' ∨ c = '-' ∨ c = ' ' := by
    intro c hx hk
    have : w = [c] := by
      rcases classify_text hc with h' | ⟨k, h', _⟩
      · rw [← h', hx]
      · exact absurd h' (hk k)
    have hm : c ∈ (lex [] false s).flatten := List.mem_flatten.2 ⟨w, hw, by rw [this]; simp⟩
    rw [lex_flatten s [] h, List.nil_append, List.mem_filter] at hm
    exact h c hm.1
  refine ⟨?_, ?_, ?_⟩
  · rintro rfl; exact absurd (key ',' rfl (by simp)) (by decide)
  · rintro rfl; exact absurd (key '(' rfl (by simp)) (by decide)
  · rintro rfl; exact absurd (key ')' rfl (by simp)) (by decide)

end Dal.Script

namespace Dal.Dcf
open Dal.Script

theorem field_run {tail : List Tok} {c : Nat} (hc : c ≤ tail.length) (hs : tail.length = c ∨ tail.head? = some .comma) : ∀ a : List Tok, (∀ t ∈ a, t ≠ .comma) →
    field (a ++ tail) c = some (joined a, tail) := by
  intro a
  induction a with
  | nil =>
    intro _
    rw [List.nil_append]
    cases tail with
    | nil =>
      rw [field, if_pos (by simpa using hc)]
      rfl
    | cons t r =>
      rw [field]
      by_cases hl : (t :: r).length = c
      · rw [if_pos hl]; rfl
      · rw [if_neg hl]
        rcases hs with hs | hs
        · exact absurd hs hl
        · rw [if_pos (by simpa using hs)]; rfl
  | cons t a ih =>
    intro h
    rw [List.cons_append, field, if_neg (by simp; omega), if_neg (h t (List.mem_cons_self ..)), ih fun u hu => h u (List.mem_cons_of_mem _ hu)]
    rfl

theorem skip_stop {t : Tok} {r : List Tok} {c : Nat} (h : t ≠ .comma) : skip (t :: r) c = some (t :: r) := by
  rw [skip, if_neg h]
  split <;> rfl

/-- Beyond the closing parenthesis a field ends at a comma only. -/
theorem field_beyond : ∀ (l : List Tok) (c : Nat), l.length < c → (∀ t ∈ l, t ≠ .comma) → field l c = none := by
  intro l
  induction l with
  | nil => intro c hc _; rw [field, if_neg (by simp at hc; omega)]
  | cons t l ih =>
    intro c hc h
    rw [field, if_neg (by omega), if_neg (h t (List.mem_cons_self ..)), ih c (by simp at hc; omega) fun u hu => h u (List.mem_cons_of_mem _ hu)]
    rfl

theorem advance_comma {t : Tok} {r : List Tok} {c : Nat} (h : t ≠ .comma) (hc : c < (t :: r).length) : advance (.comma :: t :: r) c = some (some (t :: r)) := by
  rw [advance, next, Option.bind_some, skip_stop h, Option.map_some, if_neg (by omega)]

theorem advance_beyond {rest : List Tok} {c : Nat} (hc : rest.length < c) (h : ∀ t ∈ rest, t ≠ .comma) :
    advance (.rp :: rest) c = none ∨ advance (.rp :: rest) c = some (some rest) := by
  rw [advance, next, Option.bind_some]
  cases rest with
  | nil => left; rw [skip, if_neg (by simp at hc; omega)]; rfl
  | cons t r => right; rw [skip_stop (h t (List.mem_cons_self ..)), Option.map_some, if_neg (by omega)]

end Dal.Dcf
