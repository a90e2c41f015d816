import Verif.Storage.FileModel
import Verif.Storage.SplatProps
import Verif.Strings.DictionaryProps
import Verif.Script.DebugProps

/-! # C89: archives in text files -/

namespace Dal
open Strings Dict DateText Date Spec Splat FileTab

attribute [local irreducible] mk' year month day dayNum

/-! ### Files of lines -/

theorem readLoop_write (size : Nat) : ∀ (ls : List Str) (n : Nat), (∀ l ∈ ls, '\n' ∉ cstr l) →
    (writeFile ls).length ≤ n → readLoop size n (writeFile ls) = (ls.map cstr).takeWhile fun l => l.length < size := by
  intro ls
  induction ls with
  | nil => intro n _ _; cases n <;> simp [writeFile, readLoop]
  | cons l ls ih =>
    intro n hn hl
    have e : writeFile (l :: ls) = cstr l ++ '\n' :: writeFile ls := by simp [writeFile]
    rw [e] at hl ⊢
    simp only [List.length_append, List.length_cons] at hl
    obtain ⟨n, rfl⟩ : ∃ m, n = m + 1 := ⟨n - 1, by omega⟩
    have h0 := hn l (by simp)
    have h1 : (cstr l ++ '\n' :: writeFile ls).takeWhile (· ≠ '\n') = cstr l := by
      rw [List.takeWhile_append_of_pos (by intro x hx; simp; rintro rfl; exact h0 hx)]; simp
    have h2 : (cstr l ++ '\n' :: writeFile ls).dropWhile (· ≠ '\n') = '\n' :: writeFile ls := by
      rw [List.dropWhile_append_of_pos (by intro x hx; simp; rintro rfl; exact h0 hx)]; simp
    have h3 : cstr (cstr l) = cstr l := by
      apply List.takeWhile_eq_self_iff.2
      intro x hx
      exact List.mem_takeWhile_imp (p := fun c => decide (c ≠ Char.ofNat 0)) hx
    rw [readLoop, if_neg (by simp), h1, h2, h3, List.tail_cons, List.map_cons, List.takeWhile_cons]
    by_cases hs : (cstr l).length < size
    · rw [if_pos hs, if_pos (by simpa using hs), ih n (fun x hx => hn x (by simp [hx])) (by omega)]
    · rw [if_neg hs, if_neg (by simpa using hs)]

/-- Reading a file written before gives the lines up to the first one of more than 2047 characters: that
line and all after it are lost without a message. -/
theorem C89_lines (ls : List Str) (h : ∀ l ∈ ls, '\n' ∉ l ∧ Char.ofNat 0 ∉ l) :
    readFile (writeFile ls) = ls.takeWhile fun l => l.length ≤ 2047 := by
  have hc : ∀ l ∈ ls, cstr l = l := by
    intro l hl
    apply List.takeWhile_eq_self_iff.2
    intro x hx
    have := (h l hl).2
    simp only [decide_eq_true_eq]
    rintro rfl
    exact this hx
  have hm : ls.map cstr = ls := by
    conv_rhs => rw [← List.map_id ls]
    exact List.map_congr_left fun l hl => by simpa using hc l hl
  rw [readFile, readLoop_write 2048 ls _ (fun l hl => by rw [hc l hl]; exact (h l hl).1) le_rfl, hm]
  congr 1
  funext l
  simp [Nat.lt_succ_iff]

example : (∀ l ∈ ["ab".toList, [], "c d".toList], '\n' ∉ l ∧ Char.ofNat 0 ∉ l) ∧
    readFile "ab\n\nc d\n".toList = ["ab".toList, [], "c d".toList] := by decide +kernel

/-- FULL CLAIM: what is written to a file is read from it.  VIOLATED by a long line: everything after it is
lost as well. -/
theorem C89_long_line_violated (l a : Str) (hl : 2048 ≤ l.length) (h : '\n' ∉ l ∧ Char.ofNat 0 ∉ l)
    (ha : '\n' ∉ a ∧ Char.ofNat 0 ∉ a) : readFile (writeFile [l, a]) = [] := by
  rw [C89_lines _ (by simp [h, ha]), List.takeWhile_cons, if_neg (by simpa using by omega)]

example : 2048 ≤ (List.replicate 3000 'x').length ∧ '\n' ∉ List.replicate 3000 'x' :=
  ⟨by rw [List.length_replicate]; omega, fun h => absurd (List.eq_of_mem_replicate h) (by decide)⟩

/-! ### Lines of fields -/

/-- A text that is one field of a line: its quotes are balanced and its commas are inside of quotes. -/
def Field (p : Str) : Prop := p.count '"' % 2 = 0 ∧ ∀ a b, p = a ++ ',' :: b → a.count '"' % 2 = 1

/-- The state of the quotes as a number. -/
private def qn (q : Bool) : Nat := if q then 1 else 0

theorem cut_sep : ∀ (p : Str) (q : Bool) (r : Str), (p.count '"' + qn q) % 2 = 0 →
    (∀ a b, p = a ++ ',' :: b → (a.count '"' + qn q) % 2 = 1) → cut q (p ++ ',' :: r) = (p, some r) := by
  intro p
  induction p with
  | nil =>
    intro q r h _
    cases q
    · simp [cut]
    · simp [qn] at h
  | cons c p ih =>
    intro q r h1 h2
    have hc : ¬ (q = false ∧ c = ',') := by
      rintro ⟨rfl, rfl⟩
      have := h2 [] p rfl
      simp [qn] at this
    rw [List.cons_append, cut, if_neg hc]
    have hq : ∀ k : Nat, (k + qn (if c = '"' then !q else q)) % 2 = ((if c = '"' then 1 else 0) + k + qn q) % 2 := by
      intro k
      by_cases h : c = '"' <;> cases q <;> simp [h, qn] <;> omega
    have e : ∀ l : Str, (c :: l).count '"' = (if c = '"' then 1 else 0) + l.count '"' := by
      intro l
      rw [List.count_cons]
      by_cases h : c = '"' <;> simp [h, Nat.add_comm]
    rw [ih _ r]
    · rw [hq, ← e]; exact h1
    · intro a b hab
      rw [hq, ← e]
      exact h2 (c :: a) b (by rw [hab]; rfl)

theorem cut_end : ∀ (p : Str) (q : Bool), (∀ a b, p = a ++ ',' :: b → (a.count '"' + qn q) % 2 = 1) →
    cut q p = (p, none) := by
  intro p
  induction p with
  | nil => intro q _; rw [cut]
  | cons c p ih =>
    intro q h2
    have hc : ¬ (q = false ∧ c = ',') := by
      rintro ⟨rfl, rfl⟩
      have := h2 [] p rfl
      simp [qn] at this
    rw [cut, if_neg hc]
    rw [ih]
    intro a b hab
    have := h2 (c :: a) b (by rw [hab]; rfl)
    rw [List.count_cons] at this
    by_cases h : c = '"' <;> cases q <;> simp [h, qn] at this ⊢ <;> omega

/-- The fields of a line: an empty field at the end does not count. -/
def withoutEmptyEnd : List Str → List Str
  | [] => []
  | [p] => if p = [] then [] else [p]
  | p :: q :: ps => p :: withoutEmptyEnd (q :: ps)

theorem pieces_join : ∀ (ps : List Str) (n : Nat), (∀ p ∈ ps, Field p) → (accumulate [','] false ps).length ≤ n →
    pieces n (accumulate [','] false ps) = withoutEmptyEnd ps := by
  intro ps
  induction ps with
  | nil => intro n _ _; cases n <;> simp [accumulate, pieces, withoutEmptyEnd]
  | cons p ps ih =>
    intro n hf hl
    have hp := hf p (by simp)
    cases ps with
    | nil =>
      simp only [accumulate, List.foldl_nil] at hl ⊢
      by_cases h0 : p = []
      · subst h0; cases n <;> simp [pieces, withoutEmptyEnd]
      · have : 0 < p.length := List.length_pos_iff.2 h0
        obtain ⟨n, rfl⟩ : ∃ m, n = m + 1 := ⟨n - 1, by omega⟩
        rw [pieces, if_neg h0, cut_end p false (by simpa [qn] using hp.2)]
        simp [withoutEmptyEnd, h0]
    | cons q ps =>
      rw [acc_cons] at hl ⊢
      simp only [List.singleton_append, List.length_append, List.length_cons] at hl ⊢
      obtain ⟨n, rfl⟩ : ∃ m, n = m + 1 := ⟨n - 1, by omega⟩
      rw [pieces, if_neg (by simp), cut_sep p false _ (by simpa [qn] using hp.1) (by simpa [qn] using hp.2)]
      simp only [withoutEmptyEnd]
      rw [ih n (fun x hx => hf x (by simp [List.mem_cons.1 hx])) (by omega)]

/-- A line of fields joined by commas is cut into these fields; an empty last field is lost. -/
theorem C89_fields (sgn : Bool) (strtod : Str → Option Rat) (ps : List Str) (h : ∀ p ∈ ps, Field p) :
    splitLine sgn strtod ([','].intercalate ps) = (withoutEmptyEnd ps).map (asCell sgn strtod) := by
  rw [← C18_join_spec, splitLine, pieces_join ps _ h le_rfl]

example : Field "\"a,b\" c".toList ∧ [','].intercalate ["\"a,b\" c".toList, [], "d".toList] = "\"a,b\" c,,d".toList := by
  refine ⟨⟨by decide, ?_⟩, by decide +kernel⟩
  intro a b h
  have e : "\"a,b\" c".toList = ['"', 'a', ',', 'b', '"', ' ', 'c'] := by decide +kernel
  rw [e] at h
  rcases a with _ | ⟨a1, _ | ⟨a2, _ | ⟨a3, _ | ⟨a4, _ | ⟨a5, _ | ⟨a6, _ | ⟨a7, a⟩⟩⟩⟩⟩⟩⟩ <;> simp at h
  obtain ⟨rfl, rfl, -⟩ := h
  rfl

/-! ### Cells and their texts -/

/-- What a cell is after a file: texts of dates stay texts, empty texts become empty cells. -/
def asRead : Splat.Cell Val → Splat.Cell Val
  | .blank => .blank
  | .str s => if s = [] then .blank else .str s
  | .val (.num q) => .val (.num q)
  | .val (.bool b) => .val (.bool b)
  | .val (.date d) => .str (toString' d)
  | .val (.dateTime t) => .str (dateTimeText t)

/-- A text that is read as itself. -/
def PlainText (sgn : Bool) (strtod : Str → Option Rat) (s : Str) : Prop :=
  Field s ∧ '\n' ∉ s ∧ Char.ofNat 0 ∉ s ∧ ¬ (s.head? = some '=' ∧ s.getLast? = some '=') ∧
    eqS sgn s ['T', 'R', 'U', 'E'] = false ∧ eqS sgn s ['F', 'A', 'L', 'S', 'E'] = false ∧
    (s.all numChar = true → strtod s = none)

/-- Cells that survive a file: plain texts, numbers that survive as text, all booleans and valid dates. -/
def PlainCell (sgn : Bool) (N : NumText) (strtod : Str → Option Rat) : Splat.Cell Val → Prop
  | .blank => True
  | .str s => s = [] ∨ PlainText sgn strtod s
  | .val (.num q) => ∃ t, coerce N (.num q) = some t ∧ t ≠ [] ∧ t.all numChar = true ∧ strtod t = some q
  | .val (.bool _) => True
  | .val (.date d) => d.Valid
  | .val (.dateTime t) => t.date.Valid

/-- Characters of numbers, dates and times. -/
private def Mild (c : Char) : Prop := numChar c = true ∨ c = ' ' ∨ c = ':'

private theorem mild_toNat {c : Char} (h : Mild c) : (32 ≤ c.toNat ∧ c.toNat ≤ 58 ∧ c.toNat ≠ 34 ∧ c.toNat ≠ 44) ∨
    c.toNat = 69 ∨ c.toNat = 101 := by
  rcases h with h | rfl | rfl
  · simp only [numChar, Bool.or_eq_true, decide_eq_true_eq] at h
    rcases h with ((((h | rfl) | rfl) | rfl) | rfl) | rfl
    · simp only [Char.isDigit, Bool.and_eq_true, decide_eq_true_eq, ge_iff_le, UInt32.le_iff_toNat_le] at h
      have h1 : 48 ≤ c.toNat := h.1
      have h2 : c.toNat ≤ 57 := h.2
      omega
    all_goals decide
  all_goals decide

private theorem mild_ne {c d : Char} (h : Mild c) (hd : (d.toNat < 32 ∨ 58 < d.toNat ∨ d.toNat = 34 ∨ d.toNat = 44) ∧ d.toNat ≠ 69 ∧
    d.toNat ≠ 101) : c ≠ d := by
  rintro rfl
  have := mild_toNat h
  omega

private theorem mild_sort (sgn : Bool) {c : Char} (h : Mild c) : sortVal sgn c ≠ 84 ∧ sortVal sgn c ≠ 70 := by
  have h1 := mild_toNat h
  have key : ∀ n : Fin 128, ((32 ≤ n.1 ∧ n.1 ≤ 58) ∨ n.1 = 69 ∨ n.1 = 101) → ciOrder n.1 < 128 ∧ ciOrder n.1 ≠ 84 ∧ ciOrder n.1 ≠ 70 := by
    decide +kernel
  have hlt : c.toNat < 128 := by omega
  obtain ⟨k1, k2, k3⟩ := key ⟨c.toNat, hlt⟩ (by simp only; omega)
  simp only at k1 k2 k3
  have e : sortVal sgn c = (ciOrder c.toNat : Int) := by
    unfold sortVal
    simp only
    have hz : (if c.toNat ≥ 128 then 128 else 0) = 0 := if_neg (by omega)
    rw [hz, Nat.zero_add, if_neg (by rintro ⟨-, h⟩; omega)]
  rw [e]
  omega

private theorem mild_text (sgn : Bool) (s : Str) (h0 : s ≠ []) (h : ∀ c ∈ s, Mild c) :
    Field s ∧ '\n' ∉ s ∧ Char.ofNat 0 ∉ s ∧ ¬ (s.head? = some '=' ∧ s.getLast? = some '=') ∧
      eqS sgn s ['T', 'R', 'U', 'E'] = false ∧ eqS sgn s ['F', 'A', 'L', 'S', 'E'] = false := by
  have hn : ∀ d : Char, ((d.toNat < 32 ∨ 58 < d.toNat ∨ d.toNat = 34 ∨ d.toNat = 44) ∧ d.toNat ≠ 69 ∧ d.toNat ≠ 101) → d ∉ s :=
    fun d hd hm => mild_ne (h d hm) hd rfl
  obtain ⟨c, r, rfl⟩ := List.exists_cons_of_ne_nil h0
  have hc := mild_sort sgn (h c (by simp))
  have heq : ∀ (d : Char) (w : Str), sortVal sgn c ≠ sortVal sgn d → eqS sgn (c :: r) (d :: w) = false := by
    intro d w hd
    by_contra hb
    rw [Bool.not_eq_false, eqS_iff_map] at hb
    simp only [List.map_cons, List.cons.injEq] at hb
    exact hd hb.1
  have hT : sortVal sgn 'T' = 84 := by cases sgn <;> decide +kernel
  have hF : sortVal sgn 'F' = 70 := by cases sgn <;> decide +kernel
  refine ⟨⟨?_, ?_⟩, hn _ (by decide), hn _ (by decide), ?_, heq _ _ (by rw [hT]; exact hc.1), heq _ _ (by rw [hF]; exact hc.2)⟩
  · rw [List.count_eq_zero.2 (hn '"' (by decide))]
  · intro a b hab
    exact absurd (by rw [hab]; simp) (hn ',' (by decide))
  · rintro ⟨h1, -⟩
    exact hn '=' (by decide) (by simp only [List.head?_cons, Option.some.injEq] at h1; simp [h1])

private theorem mild_padded (w n : Nat) : ∀ c ∈ padded '0' w n, Mild c := by
  intro c hc
  have := (padded_digits w n).2 c hc
  exact Or.inl (by simp [numChar, this])

private theorem time_mild (t : DateTime) : timeString t ≠ [] ∧ ∀ c ∈ timeString t, Mild c := by
  unfold timeString
  simp only
  constructor
  · exact List.append_ne_nil_of_right_ne_nil _ (List.cons_ne_nil _ _)
  · intro c hc
    simp only [List.mem_append, List.mem_cons] at hc
    rcases hc with h | h | h | h | h
    · exact mild_padded _ _ c h
    · exact Or.inr (Or.inr h)
    · exact mild_padded _ _ c h
    · exact Or.inr (Or.inr h)
    · exact mild_padded _ _ c h

private theorem date_mild (d : Date) (h : d.Valid) : toString' d ≠ [] ∧ (toString' d).all numChar = true := by
  obtain ⟨_, _, g3⟩ := C06_text_reads_as_ctor d h
  refine ⟨by intro hn; rw [hn] at g3; simp at g3, ?_⟩
  rw [List.all_eq_true]
  intro c hc
  rcases date_text_chars d h c hc with h | rfl
  · simp [numChar, h]
  · decide

/-- The text of a plain cell is one field, and is read as the cell. -/
theorem plain_cell (sgn : Bool) (N : NumText) (strtod : Str → Option Rat) (hs : NumSpec ⟨strtod, N.write⟩)
    (c : Splat.Cell Val) (h : PlainCell sgn N strtod c) :
    ∃ t, coerce N (toCell c) = some t ∧ Field t ∧ '\n' ∉ t ∧ Char.ofNat 0 ∉ t ∧ asCell sgn strtod t = asRead c ∧
      (t = [] ↔ Splat.isEmpty c = true) := by
  have hempty : Field [] := ⟨rfl, by simp⟩
  rcases c with _ | s | q | b | d | t
  · exact ⟨[], rfl, hempty, by simp, by simp, rfl, by simp [Splat.isEmpty]⟩
  · by_cases h0 : s = []
    · subst h0
      exact ⟨[], rfl, hempty, by simp, by simp, rfl, by simp [Splat.isEmpty]⟩
    · obtain ⟨p1, p2, p3, p4, p5, p6, p7⟩ := h.resolve_left h0
      refine ⟨s, rfl, p1, p2, p3, ?_, by simp [Splat.isEmpty]⟩
      rw [asRead, if_neg h0, asCell, if_neg h0, if_neg p4, p5, p6, if_neg (by simp), if_neg (by simp)]
      split_ifs with ha
      · rw [p7 ha]
      · rfl
  · obtain ⟨t, h1, h2, h3, h4⟩ := h
    obtain ⟨p1, p2, p3, p4, p5, p6⟩ := mild_text sgn t h2 fun c hc => Or.inl (List.all_eq_true.1 h3 c hc)
    refine ⟨t, h1, p1, p2, p3, ?_, by simp [h2, Splat.isEmpty]⟩
    rw [asRead, asCell, if_neg h2, if_neg p4, p5, p6, if_neg (by simp), if_neg (by simp), if_pos h3, h4]
  · have hf : ∀ w : Str, '"' ∉ w → ',' ∉ w → Field w := fun w h1 h2 =>
      ⟨by rw [List.count_eq_zero.2 h1], fun a b hab => absurd (by rw [hab]; simp) h2⟩
    cases b
    · refine ⟨['f', 'a', 'l', 's', 'e'], rfl, hf _ (by decide) (by decide), by decide, by decide, ?_, by simp [Splat.isEmpty]⟩
      have e1 : eqS sgn ['f', 'a', 'l', 's', 'e'] ['T', 'R', 'U', 'E'] = false := by cases sgn <;> decide +kernel
      have e2 : eqS sgn ['f', 'a', 'l', 's', 'e'] ['F', 'A', 'L', 'S', 'E'] = true := by cases sgn <;> decide +kernel
      rw [asRead, asCell, if_neg (by simp), if_neg (by simp), e1, e2, if_neg (by simp), if_pos rfl]
    · refine ⟨['t', 'r', 'u', 'e'], rfl, hf _ (by decide) (by decide), by decide, by decide, ?_, by simp [Splat.isEmpty]⟩
      have e1 : eqS sgn ['t', 'r', 'u', 'e'] ['T', 'R', 'U', 'E'] = true := by cases sgn <;> decide +kernel
      rw [asRead, asCell, if_neg (by simp), if_neg (by simp), e1, if_pos rfl]
  · obtain ⟨h2, h3⟩ := date_mild d h
    obtain ⟨p1, p2, p3, p4, p5, p6⟩ := mild_text sgn _ h2 fun c hc => Or.inl (List.all_eq_true.1 h3 c hc)
    have hr : strtod (toString' d) = none := hs.rejects (toString' d) (by
      rw [date_takeWhile d h]; exact (C06_text_reads_as_ctor d h).2.1)
    refine ⟨toString' d, rfl, p1, p2, p3, ?_, by simp [h2, Splat.isEmpty]⟩
    rw [asRead, asCell, if_neg h2, if_neg p4, p5, p6, if_neg (by simp), if_neg (by simp), if_pos h3, hr]
  · obtain ⟨h2, h3⟩ := date_mild t.date h
    obtain ⟨h4, h5⟩ := time_mild t
    have e : dateTimeText t = toString' t.date ++ ' ' :: timeString t := join_two _ _ h2 h4
    have hm : ∀ c ∈ dateTimeText t, Mild c := by
      rw [e]
      intro c hc
      simp only [List.mem_append, List.mem_cons] at hc
      rcases hc with hc | rfl | hc
      · exact Or.inl (List.all_eq_true.1 h3 c hc)
      · exact Or.inr (Or.inl rfl)
      · exact h5 c hc
    have hne : dateTimeText t ≠ [] := by rw [e]; simp
    obtain ⟨p1, p2, p3, p4, p5, p6⟩ := mild_text sgn _ hne hm
    refine ⟨dateTimeText t, rfl, p1, p2, p3, ?_, by simp [hne, Splat.isEmpty]⟩
    rw [asRead, asCell, if_neg hne, if_neg p4, p5, p6, if_neg (by simp), if_neg (by simp), if_neg]
    intro ha
    have := List.all_eq_true.1 ha ' ' (by rw [e]; simp)
    exact absurd this (by decide)

/-! ### Tables -/

theorem texts_mapM {β γ : Type} (f : β → Option γ) (t : β → γ) : ∀ l : List β, (∀ x ∈ l, f x = some (t x)) → l.mapM f = some (l.map t) := by
  intro l
  induction l with
  | nil => intro _; rfl
  | cons a l ih =>
    intro h
    rw [List.mapM_cons, h a (by simp), ih fun x hx => h x (by simp [hx])]
    rfl

theorem lens_max (rs : List (List (Splat.Cell Val))) : ∀ m, rs.foldl (fun m r => max m r.length) m =
    max m (rs.foldl (fun m r => max m r.length) 0) := by
  induction rs with
  | nil => intro m; simp
  | cons r rs ih =>
    intro m
    rw [List.foldl_cons, List.foldl_cons, ih, ih (max 0 r.length)]
    omega

theorem lens_max_le (rs : List (List (Splat.Cell Val))) (k : Nat) (h : ∀ r ∈ rs, r.length ≤ k) :
    rs.foldl (fun m r => max m r.length) 0 ≤ k := by
  induction rs with
  | nil => simp
  | cons r rs ih =>
    rw [List.foldl_cons, lens_max]
    have h1 := h r (by simp)
    have h2 := ih fun x hx => h x (by simp [hx])
    omega

theorem lens_max_ge (rs : List (List (Splat.Cell Val))) : ∀ r ∈ rs, r.length ≤ rs.foldl (fun m r => max m r.length) 0 := by
  induction rs with
  | nil => simp
  | cons r rs ih =>
    intro x hx
    rw [List.foldl_cons, lens_max]
    rcases List.mem_cons.1 hx with rfl | hx
    · omega
    · have := ih x hx
      omega

theorem withoutEmptyEnd_get : ∀ (ps : List Str) (j : Nat), (withoutEmptyEnd ps)[j]? = ps[j]? ∨
    ((withoutEmptyEnd ps)[j]? = none ∧ ps[j]? = some [])
  | [], _ => by simp [withoutEmptyEnd]
  | [p], j => by
    simp only [withoutEmptyEnd]
    split_ifs with h
    · subst h
      cases j <;> simp
    · exact Or.inl rfl
  | p :: q :: ps, j => by
    cases j with
    | zero => simp [withoutEmptyEnd]
    | succ j =>
      have := withoutEmptyEnd_get (q :: ps) j
      simpa [withoutEmptyEnd] using this

theorem withoutEmptyEnd_length : ∀ ps : List Str, (withoutEmptyEnd ps).length ≤ ps.length ∧ ps.length ≤ (withoutEmptyEnd ps).length + 1 ∧
    (ps.getLast? ≠ some [] → (withoutEmptyEnd ps).length = ps.length)
  | [] => by simp [withoutEmptyEnd]
  | [p] => by
    simp only [withoutEmptyEnd]
    split_ifs with h
    · simp [h]
    · simp
  | p :: q :: ps => by
    have := withoutEmptyEnd_length (q :: ps)
    simpa [withoutEmptyEnd] using this

/-- The lines of a table of texts. -/
def lineOf (T : Nat → Nat → Str) (cols i : Nat) : Str := [','].intercalate ((List.range cols).map (T i))

theorem mem_intercalate {c : Char} (hc : c ≠ ',') : ∀ ps : List Str, (∀ p ∈ ps, c ∉ p) → c ∉ [','].intercalate ps := by
  intro ps
  rw [← C18_join_spec]
  cases ps with
  | nil => intro _; simp [accumulate]
  | cons p ps =>
    intro h
    rw [accumulate, foldl_joiner]
    simp only [List.mem_append, List.mem_flatten, List.mem_map, not_or, not_exists, not_and]
    refine ⟨h p (by simp), ?_⟩
    rintro x ⟨a, ha, rfl⟩ hm
    simp only [List.singleton_append, List.mem_cons] at hm
    exact hm.elim hc (h a (by simp [ha]))

/-- A table of plain cells in a file is read back cell by cell; only a last column without any contents is
lost. -/
theorem C89_table (sgn : Bool) (N : NumText) (strtod : Str → Option Rat) (hs : NumSpec ⟨strtod, N.write⟩) (g : Grid Val)
    (hr : 0 < g.rows) (hc : 0 < g.cols) (hp : ∀ i < g.rows, ∀ j < g.cols, PlainCell sgn N strtod (g.cell i j))
    (ls : List Str) (hl : toStringLines N g = some ls) (hshort : ∀ l ∈ ls, l.length ≤ 2047) :
    let g' := fileTable sgn strtod (writeFile ls)
    g'.rows = g.rows ∧ (∀ i j, g'.cell i j = if i < g.rows ∧ j < g.cols then asRead (g.cell i j) else .blank) ∧
      g'.cols ≤ g.cols ∧ g.cols ≤ g'.cols + 1 ∧
      ((∃ i < g.rows, Splat.isEmpty (g.cell i (g.cols - 1)) = false) → g'.cols = g.cols) := by
  intro g'
  have hex : ∀ i j, ∃ t, (i < g.rows → j < g.cols → coerce N (toCell (g.cell i j)) = some t ∧ asCell sgn strtod t = asRead (g.cell i j) ∧
      (t = [] ↔ Splat.isEmpty (g.cell i j) = true)) ∧ Field t ∧ '\n' ∉ t ∧ Char.ofNat 0 ∉ t := by
    intro i j
    by_cases hi : i < g.rows ∧ j < g.cols
    · obtain ⟨t, h1, h2, h3, h4, h5, h6⟩ := plain_cell sgn N strtod hs _ (hp i hi.1 j hi.2)
      exact ⟨t, fun _ _ => ⟨h1, h5, h6⟩, h2, h3, h4⟩
    · exact ⟨[], fun a b => absurd ⟨a, b⟩ hi, ⟨rfl, by simp⟩, by simp, by simp⟩
  choose T hT using hex
  have hls : ls = (List.range g.rows).map (lineOf T g.cols) := by
    have : toStringLines N g = some ((List.range g.rows).map (lineOf T g.cols)) := by
      unfold toStringLines
      apply texts_mapM
      intro i hi
      rw [texts_mapM _ (T i) _ fun j hj => ((hT i j).1 (List.mem_range.1 hi) (List.mem_range.1 hj)).1]
      rw [Option.map_some, C18_join_spec, lineOf]
    rw [this] at hl
    exact (Option.some.inj hl).symm
  have hread : readFile (writeFile ls) = ls := by
    rw [C89_lines, List.takeWhile_eq_self_iff.2]
    · intro l h; simpa using hshort l h
    · intro l h
      rw [hls] at h
      obtain ⟨i, -, rfl⟩ := List.mem_map.1 h
      constructor
      · apply mem_intercalate (by decide)
        intro p hp'
        obtain ⟨j, -, rfl⟩ := List.mem_map.1 hp'
        exact (hT i j).2.2.1
      · apply mem_intercalate (by decide)
        intro p hp'
        obtain ⟨j, -, rfl⟩ := List.mem_map.1 hp'
        exact (hT i j).2.2.2
  have hsplit : ∀ i, splitLine sgn strtod (lineOf T g.cols i) = (withoutEmptyEnd ((List.range g.cols).map (T i))).map (asCell sgn strtod) := by
    intro i
    apply C89_fields
    intro p hp'
    obtain ⟨j, -, rfl⟩ := List.mem_map.1 hp'
    exact (hT i j).2.1
  have hdata : (readFile (writeFile ls)).map (splitLine sgn strtod) =
      (List.range g.rows).map fun i => (withoutEmptyEnd ((List.range g.cols).map (T i))).map (asCell sgn strtod) := by
    rw [hread, hls, List.map_map]
    exact List.map_congr_left fun i _ => hsplit i
  have hlen : ∀ i, (((List.range g.cols).map (T i)).length = g.cols) := by intro i; simp
  refine ⟨?_, ?_, ?_, ?_, ?_⟩
  · show ((readFile (writeFile ls)).map (splitLine sgn strtod)).length = g.rows
    rw [hdata]; simp
  · intro i j
    show (match ((readFile (writeFile ls)).map (splitLine sgn strtod))[i]? with
      | none => Splat.Cell.blank
      | some r => match r[j]? with
        | none => .blank
        | some c => c) = _
    rw [hdata, List.getElem?_map]
    by_cases hi : i < g.rows
    · rw [List.getElem?_range hi]
      simp only [Option.map_some, List.getElem?_map]
      rcases withoutEmptyEnd_get ((List.range g.cols).map (T i)) j with h | ⟨h1, h2⟩
      · rw [h, List.getElem?_map]
        by_cases hj : j < g.cols
        · rw [List.getElem?_range hj, if_pos ⟨hi, hj⟩]
          exact ((hT i j).1 hi hj).2.1
        · rw [List.getElem?_eq_none (by simpa using hj), if_neg (fun h => hj h.2)]
          rfl
      · rw [h1]
        have hj : j < g.cols := by
          by_contra hn
          rw [List.getElem?_eq_none (by simpa using hn)] at h2
          cases h2
        rw [List.getElem?_map, List.getElem?_range hj] at h2
        have h3 : T i j = [] := by simpa using h2
        have := ((hT i j).1 hi hj).2.1
        rw [h3] at this
        rw [if_pos ⟨hi, hj⟩, ← this]
        simp [asCell]
    · rw [List.getElem?_eq_none (by simpa using hi), if_neg (fun h => hi h.1)]
      rfl
  · show ((readFile (writeFile ls)).map (splitLine sgn strtod)).foldl (fun m r => max m r.length) 0 ≤ g.cols
    rw [hdata]
    apply lens_max_le
    intro r hr'
    obtain ⟨i, -, rfl⟩ := List.mem_map.1 hr'
    have := (withoutEmptyEnd_length ((List.range g.cols).map (T i))).1
    rw [hlen] at this
    simpa using this
  · show g.cols ≤ ((readFile (writeFile ls)).map (splitLine sgn strtod)).foldl (fun m r => max m r.length) 0 + 1
    rw [hdata]
    have h1 := lens_max_ge _ _ (List.mem_map.2 ⟨0, List.mem_range.2 hr, rfl⟩ :
      (withoutEmptyEnd ((List.range g.cols).map (T 0))).map (asCell sgn strtod) ∈ (List.range g.rows).map
        fun i => (withoutEmptyEnd ((List.range g.cols).map (T i))).map (asCell sgn strtod))
    have := (withoutEmptyEnd_length ((List.range g.cols).map (T 0))).2.1
    rw [hlen] at this
    rw [List.length_map] at h1
    omega
  · rintro ⟨i, hi, hne⟩
    have hle : ((readFile (writeFile ls)).map (splitLine sgn strtod)).foldl (fun m r => max m r.length) 0 ≤ g.cols := by
      rw [hdata]
      apply lens_max_le
      intro r hr'
      obtain ⟨i, -, rfl⟩ := List.mem_map.1 hr'
      have := (withoutEmptyEnd_length ((List.range g.cols).map (T i))).1
      rw [hlen] at this
      simpa using this
    show ((readFile (writeFile ls)).map (splitLine sgn strtod)).foldl (fun m r => max m r.length) 0 = g.cols
    apply le_antisymm hle
    rw [hdata]
    have h1 := lens_max_ge _ _ (List.mem_map.2 ⟨i, List.mem_range.2 hi, rfl⟩ :
      (withoutEmptyEnd ((List.range g.cols).map (T i))).map (asCell sgn strtod) ∈ (List.range g.rows).map
        fun i => (withoutEmptyEnd ((List.range g.cols).map (T i))).map (asCell sgn strtod))
    have h2 := (withoutEmptyEnd_length ((List.range g.cols).map (T i))).2.2 (by
      rw [List.getLast?_eq_getElem?, hlen, List.getElem?_map, List.getElem?_range (by omega)]
      simp only [Option.map_some, ne_eq, Option.some.injEq]
      intro h0
      have := ((hT i (g.cols - 1)).1 hi (by omega)).2.2.1 h0
      rw [this] at hne
      cases hne)
    rw [hlen] at h2
    rw [List.length_map] at h1
    omega

/-! ### Trees -/

mutual
/-- The tree with another contents of the cells. -/
def mapCells (f : Splat.Cell Val → Splat.Cell Val) : STree Val → STree Val
  | .leaf R C cells => .leaf R C fun i j => f (cells i j)
  | .node tag type kids => .node tag type (mapForest f kids)
/-- The same for the children. -/
def mapForest (f : Splat.Cell Val → Splat.Cell Val) : Forest Val → Forest Val
  | .nil => .nil
  | .cons n t rest => .cons n (mapCells f t) (mapForest f rest)
end

mutual
/-- Objects that survive a file: plain cells, no value with an empty last column, and names and types without
commas and line ends. -/
def PlainTree (sgn : Bool) (N : NumText) (strtod : Str → Option Rat) : STree Val → Prop
  | .leaf R C cells => (∀ i < R, ∀ j < C, PlainCell sgn N strtod (cells i j)) ∧ ∃ i < R, Splat.isEmpty (cells i (C - 1)) = false
  | .node tag type kids => (∀ c ∈ tag ++ type, c ≠ ',' ∧ c ≠ '"' ∧ c ≠ '\n' ∧ c ≠ Char.ofNat 0) ∧ PlainForest sgn N strtod kids
/-- The same for the children. -/
def PlainForest (sgn : Bool) (N : NumText) (strtod : Str → Option Rat) : Forest Val → Prop
  | .nil => True
  | .cons n t rest => PlainText sgn strtod n ∧ PlainTree sgn N strtod t ∧ PlainForest sgn N strtod rest
end

mutual
theorem mapCells_rows (f : Splat.Cell Val → Splat.Cell Val) : ∀ t, rowsOf (mapCells f t) = rowsOf t ∧ widthOf (mapCells f t) = widthOf t
  | .leaf R C cells => by simp [mapCells, rowsOf, widthOf]
  | .node tag type kids => by
    have := mapForest_rows f kids
    simp [mapCells, rowsOf, widthOf, this]
theorem mapForest_rows (f : Splat.Cell Val → Splat.Cell Val) : ∀ t, rowsOfF (mapForest f t) = rowsOfF t ∧ widthOfF (mapForest f t) = widthOfF t ∧
    kidNames (mapForest f t) = kidNames t ∧ (mapForest f t = .nil ↔ t = .nil)
  | .nil => by simp [mapForest, rowsOfF, widthOfF, kidNames]
  | .cons n t rest => by
    have h1 := mapCells_rows f t
    have h2 := mapForest_rows f rest
    simp [mapForest, rowsOfF, widthOfF, kidNames, h1, h2]
end

mutual
theorem mapCells_ok (sgn : Bool) (f : Splat.Cell Val → Splat.Cell Val) : ∀ t, TreeOK sgn t → TreeOK sgn (mapCells f t)
  | .leaf R C cells, h => by simpa [mapCells, TreeOK] using h
  | .node tag type kids, h => by
    simp only [TreeOK] at h
    have h2 := mapForest_rows f kids
    have h3 := mapForest_ok sgn f kids h.2.2.2.2.2
    simp only [mapCells, TreeOK, h2.2.2.1]
    exact ⟨h.1, fun hn => h.2.1 (h2.2.2.2.1 hn), h.2.2.1, h.2.2.2.1, h.2.2.2.2.1, h3⟩
theorem mapForest_ok (sgn : Bool) (f : Splat.Cell Val → Splat.Cell Val) : ∀ t, ForestOK sgn t → ForestOK sgn (mapForest f t)
  | .nil, _ => by simp [mapForest, ForestOK]
  | .cons n t rest, h => by
    simp only [ForestOK] at h
    simp only [mapForest, ForestOK]
    exact ⟨h.1, mapCells_ok sgn f t h.2.1, mapForest_ok sgn f rest h.2.2⟩
end

private theorem header_plain (sgn : Bool) (strtod : Str → Option Rat) (tag type : Str) (ht : tag = [] ∨ tag.take 1 = ['$'])
    (h : ∀ c ∈ tag ++ type, c ≠ ',' ∧ c ≠ '"' ∧ c ≠ '\n' ∧ c ≠ Char.ofNat 0) : PlainText sgn strtod (tag ++ '~' :: type) := by
  have hm : ∀ d : Char, d ≠ '~' → (∀ c ∈ tag ++ type, c ≠ d) → d ∉ tag ++ '~' :: type := by
    intro d h1 h2 hd
    simp only [List.mem_append, List.mem_cons] at hd
    rcases hd with hd | hd | hd
    · exact h2 d (by simp [hd]) rfl
    · exact h1 hd
    · exact h2 d (by simp [hd]) rfl
  have hq := hm '"' (by decide) fun c hc => (h c hc).2.1
  have hc := hm ',' (by decide) fun c hc => (h c hc).1
  obtain ⟨d, r, e, hd⟩ : ∃ d r, tag ++ '~' :: type = d :: r ∧ (d = '~' ∨ d = '$') := by
    rcases ht with rfl | ht
    · exact ⟨'~', type, rfl, Or.inl rfl⟩
    · cases tag with
      | nil => simp at ht
      | cons a tag =>
        simp only [List.take_succ_cons, List.take_zero, List.cons.injEq, and_true] at ht
        exact ⟨a, _, rfl, Or.inr ht⟩
  have heq : ∀ (x : Char) (w : Str), sortVal sgn d ≠ sortVal sgn x → eqS sgn (tag ++ '~' :: type) (x :: w) = false := by
    intro x w hx
    by_contra hb
    rw [Bool.not_eq_false, eqS_iff_map, e] at hb
    simp only [List.map_cons, List.cons.injEq] at hb
    exact hx hb.1
  refine ⟨⟨by rw [List.count_eq_zero.2 hq], fun a b hab => absurd (by rw [hab]; simp) hc⟩,
    hm '\n' (by decide) fun c hc => (h c hc).2.2.1, hm _ (by decide) fun c hc => (h c hc).2.2.2, ?_, ?_, ?_, ?_⟩
  · rintro ⟨h1, -⟩
    rw [e, List.head?_cons, Option.some.injEq] at h1
    rcases hd with rfl | rfl <;> exact absurd h1 (by decide)
  · apply heq
    rcases hd with rfl | rfl <;> cases sgn <;> decide +kernel
  · apply heq
    rcases hd with rfl | rfl <;> cases sgn <;> decide +kernel
  · intro ha
    have := List.all_eq_true.1 ha '~' (by simp)
    exact absurd this (by decide)

private theorem asRead_text {s : Str} (h0 : s ≠ []) : asRead (.str s) = .str s := by
  rw [asRead, if_neg h0]

mutual
theorem shows_map (sgn : Bool) (f : Splat.Cell Val → Splat.Cell Val) (hb : f .blank = .blank) (hf : ∀ s, s ≠ [] → f (.str s) = .str s)
    (g : Cells Val) : ∀ t r c, TreeOK sgn t → Shows g t r c → Shows (fun i j => f (g i j)) (mapCells f t) r c
  | .leaf R C cells, r, c, _, h => by
    simp only [Shows] at h
    simp only [Shows, mapCells]
    intro i hi j
    rw [h i hi j]
    split_ifs <;> simp [hb]
  | .node tag type kids, r, c, ht, h => by
    simp only [Shows] at h
    simp only [TreeOK] at ht
    simp only [Shows, mapCells]
    exact ⟨by rw [h.1, hf _ (by simp)], shows_mapF sgn f hb hf g kids r c ht.2.2.2.2.2 h.2⟩
theorem shows_mapF (sgn : Bool) (f : Splat.Cell Val → Splat.Cell Val) (hb : f .blank = .blank) (hf : ∀ s, s ≠ [] → f (.str s) = .str s)
    (g : Cells Val) : ∀ t r c, ForestOK sgn t → ShowsF g t r c → ShowsF (fun i j => f (g i j)) (mapForest f t) r c
  | .nil, _, _, _, _ => by simp [ShowsF, mapForest]
  | .cons n t rest, r, c, ht, h => by
    simp only [ShowsF] at h
    simp only [ForestOK] at ht
    simp only [ShowsF, mapForest, (mapCells_rows f t).1]
    refine ⟨by rw [h.1, hf _ ht.1], fun i h1 h2 => by rw [h.2.1 i h1 h2, hb], shows_map sgn f hb hf g t r _ ht.2.1 h.2.2.1,
      shows_mapF sgn f hb hf g rest _ c ht.2.2 h.2.2.2⟩
end

mutual
theorem writes_plain (sgn : Bool) (N : NumText) (strtod : Str → Option Rat) : ∀ t r c, TreeOK sgn t → PlainTree sgn N strtod t →
    ∀ w ∈ writes t r c, PlainCell sgn N strtod w.2.2
  | .leaf R C cells, r, c, h, hp => by
    simp only [TreeOK] at h
    have he : emptyLeaf R C = false := by
      simp only [emptyLeaf, beq_eq_false_iff_ne]
      exact Nat.mul_ne_zero (by omega) (by omega)
    simp only [PlainTree] at hp
    intro w hw
    simp only [writes, he, Bool.false_eq_true, if_false, List.mem_flatMap, List.mem_map, List.mem_range] at hw
    obtain ⟨i, hi, j, hj, rfl⟩ := hw
    exact hp.1 i hi j hj
  | .node tag type kids, r, c, h, hp => by
    simp only [TreeOK] at h
    simp only [PlainTree] at hp
    intro w hw
    simp only [writes, List.mem_cons] at hw
    rcases hw with rfl | hw
    · exact Or.inr (header_plain sgn strtod tag type h.2.2.2.1 hp.1)
    · exact writes_plainF sgn N strtod kids r c h.2.2.2.2.2 hp.2 w hw
theorem writes_plainF (sgn : Bool) (N : NumText) (strtod : Str → Option Rat) : ∀ t r c, ForestOK sgn t → PlainForest sgn N strtod t →
    ∀ w ∈ writesF t r c, PlainCell sgn N strtod w.2.2
  | .nil, _, _, _, _ => by simp [writesF]
  | .cons n t rest, r, c, h, hp => by
    simp only [ForestOK] at h
    simp only [PlainForest] at hp
    intro w hw
    simp only [writesF, List.mem_cons, List.mem_append] at hw
    rcases hw with rfl | hw | hw
    · exact Or.inr hp.1
    · exact writes_plain sgn N strtod t _ _ h.2.1 hp.2.1 w hw
    · exact writes_plainF sgn N strtod rest _ _ h.2.2 hp.2.2 w hw
end

theorem foldl_put_or (ws : List (Nat × Nat × Splat.Cell Val)) : ∀ (g : Cells Val) (i j : Nat), ws.foldl put g i j = g i j ∨
    ∃ w ∈ ws, ws.foldl put g i j = w.2.2 := by
  induction ws with
  | nil => intro g i j; exact Or.inl rfl
  | cons w ws ih =>
    intro g i j
    rw [List.foldl_cons]
    rcases ih (put g w) i j with h | ⟨x, hx, h⟩
    · rw [h, put]
      split_ifs
      · exact Or.inr ⟨w, by simp, rfl⟩
      · exact Or.inl rfl
    · exact Or.inr ⟨x, by simp [hx], h⟩

mutual
theorem last_column (sgn : Bool) (N : NumText) (strtod : Str → Option Rat) (g : Cells Val) : ∀ t r c, TreeOK sgn t → PlainTree sgn N strtod t →
    Shows g t r c → 0 < widthOf t ∧ ∃ i < rowsOf t, Splat.isEmpty (g (r + i) (c + widthOf t - 1)) = false
  | .leaf R C cells, r, c, h, hp, hs => by
    have hr := rows_pos sgn (.leaf R C cells) h
    simp only [TreeOK] at h
    have he : emptyLeaf R C = false := by
      simp only [emptyLeaf, beq_eq_false_iff_ne]
      exact Nat.mul_ne_zero (by omega) (by omega)
    simp only [PlainTree] at hp
    simp only [Shows] at hs
    simp only [widthOf, rowsOf, he, Bool.false_eq_true, if_false]
    obtain ⟨i, hi, hne⟩ := hp.2
    refine ⟨h.2, i, hi, ?_⟩
    rw [show c + C - 1 = c + (C - 1) by omega, hs i hi (C - 1), if_pos (by omega)]
    exact hne
  | .node tag type kids, r, c, h, hp, hs => by
    simp only [TreeOK] at h
    simp only [PlainTree] at hp
    simp only [Shows] at hs
    simp only [widthOf, rowsOf]
    obtain ⟨h1, i, hi, hne⟩ := last_columnF sgn N strtod g kids r c h.2.2.2.2.2 hp.2 hs.2 h.2.1
    refine ⟨by omega, i, hi, ?_⟩
    rw [show c + (2 + widthOfF kids) - 1 = c + 2 + widthOfF kids - 1 by omega]
    exact hne
theorem last_columnF (sgn : Bool) (N : NumText) (strtod : Str → Option Rat) (g : Cells Val) : ∀ t r c, ForestOK sgn t → PlainForest sgn N strtod t →
    ShowsF g t r c → t ≠ .nil → 0 < widthOfF t ∧ ∃ i < rowsOfF t, Splat.isEmpty (g (r + i) (c + 2 + widthOfF t - 1)) = false
  | .nil, _, _, _, _, _, hn => absurd rfl hn
  | .cons n t rest, r, c, h, hp, hs, _ => by
    simp only [ForestOK] at h
    simp only [PlainForest] at hp
    simp only [ShowsF] at hs
    simp only [widthOfF, rowsOfF]
    obtain ⟨h1, i, hi, hne⟩ := last_column sgn N strtod g t r (c + 2) h.2.1 hp.2.1 hs.2.2.1
    by_cases hw : widthOfF rest ≤ widthOf t
    · rw [max_eq_left hw]
      exact ⟨h1, i, by omega, hne⟩
    · rw [max_eq_right (by omega)]
      have hn : rest ≠ .nil := by
        rintro rfl
        simp [widthOfF] at hw
      obtain ⟨h1, i, hi, hne⟩ := last_columnF sgn N strtod g rest (r + rowsOf t) c h.2.2 hp.2.2 hs.2.2.2 hn
      refine ⟨h1, rowsOf t + i, by omega, ?_⟩
      rw [show r + (rowsOf t + i) = r + rowsOf t + i by omega]
      exact hne
end

/-- FULL CLAIM: an object written to a file is read from the file.
PROVED PART: objects with plain names and contents, whose values have no empty last column, and whose lines have
at most 2047 characters.  All types, tags, names and contents are there; dates are there as their texts, from
which the values are taken (`C89_values_partial`).  See the `violated` theorems for the rest. -/
theorem C89_roundtrip_partial (sgn : Bool) (N : NumText) (strtod : Str → Option Rat) (hs : NumSpec ⟨strtod, N.write⟩) (t : STree Val)
    (h : TreeOK sgn t) (hp : PlainTree sgn N strtod t)
    (hshort : ∀ g ls, splat t = some g → toStringLines N g = some ls → ∀ l ∈ ls, l.length ≤ 2047) :
    ∃ file, splatFile N t = some file ∧
      ReadsBack sgn (fileTable sgn strtod file) ⟨0, (fileTable sgn strtod file).rows, 0⟩ (mapCells asRead t) := by
  obtain ⟨g, hg, h1, h2⟩ := C25_splat_defined sgn t h
  have hcell : g.cell = (writes t 0 0).foldl put fun _ _ => .blank := by
    have hg' := hg
    rw [splat] at hg'
    split_ifs at hg'
    obtain rfl := Option.some.inj hg'
    rfl
  have hshow := writes_shows sgn t 0 0 (fun _ _ => .blank) h (fun _ _ _ _ _ => rfl)
  rw [← hcell] at hshow
  have hw := width_le sgn t h
  have hrows := rows_pos sgn t h
  obtain ⟨hw0, i0, hi0, hlast⟩ := last_column sgn N strtod g.cell t 0 0 h hp hshow
  have hplain : ∀ i < g.rows, ∀ j < g.cols, PlainCell sgn N strtod (g.cell i j) := by
    intro i _ j _
    rw [hcell]
    rcases foldl_put_or (writes t 0 0) (fun _ _ => .blank) i j with e | ⟨w, hw, e⟩
    · rw [e]; trivial
    · rw [e]; exact writes_plain sgn N strtod t 0 0 h hp w hw
  have hout : ∀ i j, ¬ (i < g.rows ∧ j < g.cols) → g.cell i j = .blank := by
    intro i j hij
    rw [hcell, foldl_put_other]
    intro w hw hh
    obtain ⟨a1, a2, a3, a4⟩ := writes_region sgn t 0 0 h w hw
    apply hij
    omega
  obtain ⟨ls, hls⟩ : ∃ ls, toStringLines N g = some ls := by
    have hex : ∀ i j, ∃ t, i < g.rows → j < g.cols → coerce N (toCell (g.cell i j)) = some t := by
      intro i j
      by_cases hi : i < g.rows ∧ j < g.cols
      · obtain ⟨t, h1, -⟩ := plain_cell sgn N strtod hs _ (hplain i hi.1 j hi.2)
        exact ⟨t, fun _ _ => h1⟩
      · exact ⟨[], fun a b => absurd ⟨a, b⟩ hi⟩
    choose T hT using hex
    refine ⟨(List.range g.rows).map (fun i => accumulate [','] false ((List.range g.cols).map (T i))), ?_⟩
    unfold toStringLines
    apply texts_mapM
    intro i hi
    rw [texts_mapM _ (T i) _ fun j hj => hT i j (List.mem_range.1 hi) (List.mem_range.1 hj)]
    rfl
  obtain ⟨q1, q2, q3, q4, q5⟩ := C89_table sgn N strtod hs g (by omega) (by omega) hplain ls hls (hshort g ls hg hls)
  refine ⟨writeFile ls, by rw [splatFile, hg, Option.bind_some, hls, Option.map_some], ?_⟩
  set g' := fileTable sgn strtod (writeFile ls) with hg'
  have hcell' : g'.cell = fun i j => asRead (g.cell i j) := by
    funext i j
    rw [q2 i j]
    split_ifs with hij
    · rfl
    · rw [hout i j hij]; rfl
  have hs' : Shows g'.cell (mapCells asRead t) 0 0 := by
    rw [hcell']
    exact shows_map sgn asRead rfl (fun s hs => asRead_text hs) g.cell t 0 0 h hshow
  have hcols : widthOf t ≤ g'.cols := by
    by_cases he : widthOf t = g.cols
    · rw [he, q5]
      refine ⟨i0, by omega, ?_⟩
      rw [show 0 + i0 = i0 by omega, show 0 + widthOf t - 1 = widthOf t - 1 by omega, he] at hlast
      exact hlast
    · omega
  have := shows_reads sgn g' (mapCells asRead t) 0 0 (mapCells_ok sgn asRead t h) hs'
    (by rw [(mapCells_rows asRead t).1]; omega) (by rw [(mapCells_rows asRead t).2]; omega)
  rw [(mapCells_rows asRead t).1] at this
  rw [q1, h1]
  simpa using this

/-- Integers survive files. -/
theorem C89_int_plain (sgn : Bool) (N : NumText) (strtod : Str → Option Rat) (hs : NumSpec ⟨strtod, N.write⟩) (n : Int)
    (hn : |n| < 2147483647) : PlainCell sgn N strtod (.val (.num n)) := by
  refine ⟨intText n, ?_, ?_, ?_, hs.int n hn⟩
  · simp [coerce, asInt_int n hn]
  · unfold intText
    split_ifs <;> simp
  · rw [List.all_eq_true]
    intro c hc
    rcases intText_chars n c hc with h | rfl
    · simp [numChar, h]
    · decide

example : |(-12 : Int)| < 2147483647 := by decide

/-- The values are taken from what is read: numbers, booleans and texts, and dates outside of the years in which
they cannot be written (C06), times to the second.  Missing: the dates from 2034-03-01 to 2100-02-28. -/
theorem C89_values_partial (N : NumText) :
    (∀ q, extractDouble N (asRead (.val (.num q))) = some q) ∧
    (∀ n : Int, |n| < 2147483647 → extractInt N (asRead (.val (.num n))) = some n) ∧
    (∀ b, extractBool (asRead (.val (.bool b))) = some b) ∧
    (∀ s, extractString (asRead (.str s)) = some s) ∧
    (∀ d : Date, d.Valid → (before (ymd d) (2034, 3, 1) ∨ ¬ before (ymd d) (2100, 3, 1)) →
      extractDate (asRead (.val (.date d))) = some d) ∧
    (∀ (d : Date) (h m s : Int), d.Valid → (before (ymd d) (2034, 3, 1) ∨ ¬ before (ymd d) (2100, 3, 1)) →
      0 ≤ h ∧ h < 24 → 0 ≤ m ∧ m < 60 → 0 ≤ s ∧ s < 60 →
      ∃ t, mkHMS d h m s = some t ∧ extractDateTime (asRead (.val (.dateTime t))) = some t) := by
  refine ⟨fun _ => rfl, ?_, fun _ => rfl, ?_, ?_, ?_⟩
  · intro n hn
    have ht : trunc (n : Rat) = n := by
      unfold trunc
      split_ifs <;> simp
    have := abs_lt.1 hn
    simp only [extractInt, asRead, extractDouble, Option.bind_some, ht]
    rw [if_pos (by simp; omega)]
  · intro s
    by_cases h : s = [] <;> simp [asRead, h, extractString]
  · intro d h hg
    exact C06_roundtrip_partial d h hg
  · intro d hh mm ss h hg h1 h2 h3
    obtain ⟨t, ht, txt, e1, -, -, -, e2⟩ := C20_dateTime_survives_partial intReader intReader_spec d h hg hh mm ss h1 h2 h3
    refine ⟨t, ht, ?_⟩
    obtain rfl : dateTimeText t = txt := Option.some.inj e1
    show dateTimeFromString (dateTimeText t) = some t
    unfold readCell at e2
    split_ifs at e2
    · rw [Option.map_eq_some_iff] at e2
      obtain ⟨_, _, e⟩ := e2
      cases e
    · rw [Option.map_eq_some_iff] at e2
      obtain ⟨_, _, e⟩ := e2
      cases e
    · rw [Option.map_eq_some_iff] at e2
      obtain ⟨x, hx, e⟩ := e2
      cases e
      exact hx
    · cases e2
    · cases e2

/-- An object with a number, a boolean, an empty cell and a text. -/
private def sample : STree Val :=
  .node [] ['T'] (.cons ['x'] (.leaf 1 2 fun _ j => if j = 0 then .val (.num 5) else .val (.bool true))
    (.cons ['n'] (.leaf 2 1 fun i _ => if i = 0 then .blank else .str ['a', ' ', 'b']) .nil))

private theorem plain_of (s : Str) (h : ',' ∉ s ∧ '"' ∉ s ∧ '\n' ∉ s ∧ Char.ofNat 0 ∉ s ∧ s.head? ≠ some '=' ∧
    eqS true s ['T', 'R', 'U', 'E'] = false ∧ eqS true s ['F', 'A', 'L', 'S', 'E'] = false ∧ s.all numChar = false) :
    PlainText true intReader.read s := by
  obtain ⟨h1, h2, h3, h4, h5, h6, h7, h8⟩ := h
  exact ⟨⟨by rw [List.count_eq_zero.2 h2], fun a b hab => absurd (by rw [hab]; simp) h1⟩, h3, h4, fun h => h5 h.1, h6, h7,
    fun h => by rw [h8] at h; cases h⟩

example : TreeOK true sample ∧ PlainTree true intReader intReader.read sample ∧ NumSpec ⟨intReader.read, intReader.write⟩ ∧
    ∀ g ls, splat sample = some g → toStringLines intReader g = some ls → ∀ l ∈ ls, l.length ≤ 2047 := by
  have e : (splat sample).bind (toStringLines intReader) = some ["~T,x,5,true,,".toList, ",n,,,,".toList, ",,a b,,,".toList] := by decide +kernel
  refine ⟨?_, ?_, intReader_spec, ?_⟩
  · simp only [sample, TreeOK, ForestOK, kidNames, List.pairwise_cons, List.Pairwise.nil]
    refine ⟨by decide, by simp, by decide, by decide, ⟨?_, by simp⟩, by decide, by omega, by decide, by omega, trivial⟩
    intro a ha
    simp only [List.mem_singleton] at ha
    subst ha; decide +kernel
  · simp only [sample, PlainTree, PlainForest]
    refine ⟨by decide, plain_of _ (by decide +kernel), ⟨?_, 0, by omega, rfl⟩, plain_of _ (by decide +kernel), ⟨?_, 1, by omega, rfl⟩, trivial⟩
    · intro i _ j _
      split_ifs
      · exact C89_int_plain true intReader intReader.read intReader_spec 5 (by decide)
      · trivial
    · intro i _ j _
      split_ifs
      · trivial
      · exact Or.inr (plain_of _ (by decide +kernel))
  · intro g ls hg hl
    rw [hg, Option.bind_some, hl, Option.some.injEq] at e
    subst e
    decide +kernel

/-! ### What does not survive -/

/-- A text that is an integer is read as a number and can no longer be taken as text. -/
theorem C89_digits_text_violated (sgn : Bool) (N : NumText) (strtod : Str → Option Rat) (hs : NumSpec ⟨strtod, N.write⟩) (n : Int)
    (hn : |n| < 2147483647) : asCell sgn strtod (intText n) = .val (.num n) ∧ extractString (asCell sgn strtod (intText n)) = none := by
  have h : asCell sgn strtod (intText n) = .val (.num n) := by
    obtain ⟨t, h1, -, -, -, h2, -⟩ := plain_cell sgn N strtod hs _ (C89_int_plain sgn N strtod hs n hn)
    have : coerce N (toCell (.val (.num (n : Rat)))) = some (intText n) := by simp [toCell, coerce, asInt_int n hn]
    rw [this] at h1
    rw [Option.some.inj h1, h2]
    rfl
  rw [h]
  exact ⟨rfl, rfl⟩

example : |(42 : Int)| < 2147483647 := by decide

/-- The texts `true` and `false` in any case are read as booleans. -/
theorem C89_bool_text_violated (sgn : Bool) (strtod : Str → Option Rat) : extractString (asCell sgn strtod ['T', 'r', 'u', 'e']) = none ∧
    extractString (asCell sgn strtod ['f', 'a', 'l', 's', 'e']) = none := by
  have e1 : eqS sgn ['T', 'r', 'u', 'e'] ['T', 'R', 'U', 'E'] = true := by cases sgn <;> decide +kernel
  have e2 : eqS sgn ['f', 'a', 'l', 's', 'e'] ['T', 'R', 'U', 'E'] = false := by cases sgn <;> decide +kernel
  have e3 : eqS sgn ['f', 'a', 'l', 's', 'e'] ['F', 'A', 'L', 'S', 'E'] = true := by cases sgn <;> decide +kernel
  constructor
  · rw [asCell, if_neg (by simp), if_neg (by simp), e1, if_pos rfl]; rfl
  · rw [asCell, if_neg (by simp), if_neg (by simp), e2, e3, if_neg (by simp), if_pos rfl]; rfl

/-- A text between `=` signs loses them. -/
theorem C89_equals_violated (sgn : Bool) (strtod : Str → Option Rat) (s : Str) : asCell sgn strtod ('=' :: (s ++ ['='])) = .str s := by
  rw [asCell, if_neg (by simp), if_pos ⟨rfl, by rw [← List.cons_append, List.getLast?_append]; rfl⟩]
  simp

/-- A text with a comma is read as two cells. -/
theorem C89_comma_violated (sgn : Bool) (strtod : Str → Option Rat) (a b : Str) (ha : Field a) (hb : Field b) (h0 : b ≠ []) :
    splitLine sgn strtod (a ++ ',' :: b) = [asCell sgn strtod a, asCell sgn strtod b] := by
  have := C89_fields sgn strtod [a, b] (by simp [ha, hb])
  simpa [List.intercalate, withoutEmptyEnd, h0] using this

example : Field ['a'] ∧ Field ['b'] ∧ ['b'] ≠ [] := by
  have : ∀ c : Char, c ≠ ',' → c ≠ '"' → Field [c] := by
    intro c h1 h2
    refine ⟨by simp [h2], fun a b h => ?_⟩
    rcases a with _ | ⟨x, a⟩
    · simp at h; exact absurd h.1 h1
    · simp at h
  exact ⟨this _ (by decide) (by decide), this _ (by decide) (by decide), by simp⟩

/-- A missing or empty file is read outside of its empty table, without a message. -/
theorem C89_missing_violated (sgn : Bool) (strtod : Str → Option Rat) : (fileTable sgn strtod []).rows = 0 ∧
    viewType (fileTable sgn strtod []) ⟨0, 0, 0⟩ = none := ⟨rfl, rfl⟩

/-- Fractions are written with six decimals (`std::to_string`): no two small numbers both survive, however the
texts are read. -/
theorem C89_small_numbers_violated (sgn : Bool) (N : NumText) (hN : ∀ q, N.write q = Debug.numText q) (strtod : Str → Option Rat)
    (p q : Rat) (hp : 0 < p ∧ p < 1 / 2000000) (hq : 0 < q ∧ q < 1 / 2000000) (hne : p ≠ q) :
    ¬ (PlainCell sgn N strtod (.val (.num p)) ∧ PlainCell sgn N strtod (.val (.num q))) := by
  have key : ∀ x : Rat, 0 < x → x < 1 / 2000000 → coerce N (.num x) = some (Debug.numText 0) := by
    intro x h0 h1
    have ht : trunc (x + 1 / 1000000000) = 0 := by
      unfold trunc
      rw [if_pos (by positivity), Int.floor_eq_iff]
      constructor
      · push_cast; positivity
      · push_cast; linarith
    have ha : asInt x = some 0 := by
      unfold asInt
      rw [abs_of_pos h0, if_pos (by linarith), if_pos h0, ht]
    simp only [coerce, ha, Option.map_some]
    rw [if_neg (by push_cast; exact h0.ne), hN, numText_small x h0.le h1]
  rintro ⟨⟨s, h1, -, -, h2⟩, ⟨t, h3, -, -, h4⟩⟩
  rw [key p hp.1 hp.2] at h1
  rw [key q hq.1 hq.2] at h3
  rw [← Option.some.inj h1] at h2
  rw [← Option.some.inj h3, h2] at h4
  exact hne (Option.some.inj h4)

example : (0 : Rat) < 1 / 10000000 ∧ (1 / 10000000 : Rat) < 1 / 2000000 ∧ (0 : Rat) < 1 / 5000000 ∧ (1 / 5000000 : Rat) < 1 / 2000000 := by
  norm_num

end Dal
