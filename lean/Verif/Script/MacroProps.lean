import Verif.Script.MacroModel
import Verif.Script.EventModel
import Mathlib.Data.List.Infix
import Mathlib.Tactic.Tauto

/-! # C115: macros and the placeholders of periods

Specification: a text reads like a name if the two are the same up to case (`Reads`). -/

namespace Dal
open Dal.Strings Dal.Script.Macro

/-- The same letters, up to case. -/
def Reads (name m : Str) : Prop := name.map Char.toLower = m.map Char.toLower

/-- The name is found in the text after `a`. -/
def FoundAfter (name t a : Str) : Prop := ∃ m b, t = a ++ (m ++ b) ∧ Reads name m

private theorem matches_iff : ∀ (n t : Str), matches? n t = true ↔ ∃ m b, t = m ++ b ∧ Reads n m := by
  intro n
  induction n with
  | nil =>
    intro t
    simp only [matches?, true_iff]
    exact ⟨[], t, rfl, rfl⟩
  | cons x n ih =>
    intro t
    cases t with
    | nil =>
      simp only [matches?, Bool.false_eq_true, false_iff]
      rintro ⟨m, b, h1, h2⟩
      have : m = [] := by
        cases m with
        | nil => rfl
        | cons y m => cases h1
      subst this
      cases h2
    | cons c t =>
      simp only [matches?, Bool.and_eq_true, decide_eq_true_eq, ih]
      constructor
      · rintro ⟨h1, m, b, rfl, h2⟩
        refine ⟨c :: m, b, rfl, ?_⟩
        rw [Reads, List.map_cons, List.map_cons, h1, h2]
      · rintro ⟨m, b, h1, h2⟩
        cases m with
        | nil => cases h2
        | cons y m =>
          rw [List.cons_append] at h1
          injection h1 with h1 h3
          subst h1
          rw [Reads, List.map_cons, List.map_cons] at h2
          injection h2 with h2 h4
          exact ⟨h2, m, b, h3, h4⟩

/-- A name that fits nowhere is not found. -/
theorem not_found {n t : Str} (h : ∀ s ∈ t.tails, matches? n s = false) (a : Str) : ¬ FoundAfter n t a := by
  rintro ⟨m, b, rfl, hr⟩
  have h1 := h (m ++ b) (by rw [List.mem_tails]; exact List.suffix_append a (m ++ b))
  rw [(matches_iff n (m ++ b)).2 ⟨m, b, rfl, hr⟩] at h1
  cases h1

private theorem reads_length {n m : Str} (h : Reads n m) : m.length = n.length := by
  have := congrArg List.length h
  simpa using this.symm

private theorem go_skip (n r : Str) : ∀ (m b : Str) (k : Nat), m.length = k → go n r k (m ++ b) = go n r 0 b := by
  intro m
  induction m with
  | nil => intro b k hk; rw [← hk]; rfl
  | cons c m ih =>
    intro b k hk
    rw [← hk]
    exact ih b _ rfl

private theorem go_none (n r : Str) : ∀ (a t : Str), (∀ a' : Str, a'.length < a.length → ¬ FoundAfter n (a ++ t) a') → go n r 0 (a ++ t) = a ++ go n r 0 t := by
  intro a
  induction a with
  | nil => intro t _; rfl
  | cons c a ih =>
    intro t h
    have h0 : ¬ matches? n (c :: (a ++ t)) = true := by
      intro hm
      obtain ⟨m, b, e, hr⟩ := (matches_iff _ _).1 hm
      exact h [] (by simp) ⟨m, b, e, hr⟩
    rw [List.cons_append, go, if_neg h0, ih t, List.cons_append]
    intro a' ha ⟨m, b, e, hr⟩
    exact h (c :: a') (by simpa using ha) ⟨m, b, by rw [List.cons_append, e, List.cons_append], hr⟩

/-- C115: a text in which the name is not found stays as it is. -/
theorem C115_absent (name new t : Str) (hn : name ≠ []) (h : ∀ a, ¬ FoundAfter name t a) : subst name new t = t := by
  rw [subst, if_neg hn]
  have := go_none name new t [] (fun a' _ => by rw [List.append_nil]; exact h a')
  rw [List.append_nil] at this
  rw [this, go, List.append_nil]

/-- C115: where the name is found for the first time it is replaced, what comes before stays, and the search goes on behind it.  With `C115_absent` this says what becomes of any text. -/
theorem C115_first (name new a m b : Str) (hn : name ≠ []) (hm : Reads name m) (hf : ∀ a' : Str, a'.length < a.length → ¬ FoundAfter name (a ++ (m ++ b)) a') :
    subst name new (a ++ (m ++ b)) = a ++ (new ++ subst name new b) := by
  rw [subst, if_neg hn, subst, if_neg hn, go_none name new a (m ++ b) hf]
  congr 1
  have hl := reads_length hm
  cases m with
  | nil => exact absurd (List.length_eq_zero_iff.1 hl.symm) hn
  | cons c m =>
    have h1 : matches? name (c :: (m ++ b)) = true := (matches_iff _ _).2 ⟨c :: m, b, rfl, hm⟩
    rw [List.cons_append, go, if_pos h1, go_skip name new m b _ (by rw [← hl]; simp)]

private theorem go_sep (n r : Str) (hn : n ≠ []) (c : Char) (hc : ∀ x ∈ n, x.toLower ≠ c.toLower) (b : Str) : ∀ (k : Nat) (a : Str), k ≤ a.length →
    go n r k (a ++ c :: b) = go n r k a ++ c :: go n r 0 b := by
  have hcut : ∀ a : Str, matches? n (a ++ c :: b) = matches? n a := by
    intro a
    revert a
    induction n with
    | nil => intro a; rfl
    | cons x n ih =>
      intro a
      cases a with
      | nil =>
        have := hc x (by simp)
        simp [matches?, this]
      | cons y a =>
        rw [List.cons_append, matches?, matches?]
        cases n with
        | nil => simp [matches?]
        | cons x' n => rw [ih (by simp) (fun z hz => hc z (by simp at hz ⊢; tauto)) a]
  intro k a
  induction a generalizing k with
  | nil =>
    intro hk
    have : k = 0 := by simpa using hk
    subst this
    have h0 : matches? n (c :: b) = false := by
      have := hcut []
      rw [List.nil_append] at this
      rw [this]
      cases n with
      | nil => exact absurd rfl hn
      | cons x n => rfl
    rw [List.nil_append, go, go, if_neg (by rw [h0]; simp)]
    rfl
  | cons y a ih =>
    intro hk
    cases k with
    | succ k =>
      rw [List.cons_append, go, go]
      exact ih k (by simpa using hk)
    | zero =>
      rw [List.cons_append, go, go, ← List.cons_append, hcut (y :: a)]
      by_cases hm : matches? n (y :: a) = true
      · rw [if_pos hm, if_pos hm, List.append_assoc, ih (n.length - 1) ?_]
        obtain ⟨m, d, e, hr⟩ := (matches_iff _ _).1 hm
        have h1 := reads_length hr
        have h2 := congrArg List.length e
        rw [List.length_cons, List.length_append] at h2
        omega
      · rw [if_neg hm, if_neg hm, ih 0 (by simp), List.cons_append]

/-- C115: letters that do not occur in the name — blanks, brackets, commas, ends of lines — cut the text into pieces that are treated one by one. -/
theorem C115_pieces (name new : Str) (hn : name ≠ []) (c : Char) (hc : ∀ x ∈ name, x.toLower ≠ c.toLower) (a b : Str) :
    subst name new (a ++ c :: b) = subst name new a ++ c :: subst name new b := by
  rw [subst, if_neg hn, subst, if_neg hn, subst, if_neg hn]
  exact go_sep name new hn c hc b 0 a (by simp)

/-- C115: a piece that is the name, in any case, becomes the replacement. -/
theorem C115_word (name new m : Str) (hn : name ≠ []) (hm : Reads name m) : subst name new m = new := by
  have := C115_first name new [] m [] hn hm (by simp)
  simpa [subst, hn, go] using this

/-- C115: a text without one of the letters of the name stays as it is. -/
theorem C115_letter (name new t : Str) {x : Char} (hx : x ∈ name) (ht : ∀ c ∈ t, c.toLower ≠ x.toLower) : subst name new t = t := by
  refine C115_absent name new t (fun h => by rw [h] at hx; cases hx) ?_
  rintro a ⟨m, b, rfl, hr⟩
  have h1 : x.toLower ∈ m.map Char.toLower := by
    rw [← (show name.map Char.toLower = m.map Char.toLower from hr)]
    exact List.mem_map_of_mem hx
  obtain ⟨c, hc, he⟩ := List.mem_map.1 h1
  exact ht c (by simp [hc]) he

section macros
open Script.Events
variable {E : Type} (L : Lib E) (hL : L.subst = subst)
include hL

/-- C115: with several macros: letters in none of the names cut the text into pieces that are treated one by one. -/
theorem C115_macros_pieces (macros : List (Str × Str)) (hn : ∀ m ∈ macros, m.1 ≠ []) (c : Char) (hc : ∀ m ∈ macros, ∀ x ∈ m.1, x.toLower ≠ c.toLower) (a b : Str) :
    replaceAll L macros (a ++ c :: b) = replaceAll L macros a ++ c :: replaceAll L macros b := by
  unfold replaceAll
  rw [hL]
  induction macros generalizing a b with
  | nil => rfl
  | cons m ms ih =>
    rw [List.foldl_cons, List.foldl_cons, List.foldl_cons, C115_pieces m.1 m.2 (hn m (by simp)) c (hc m (by simp)) a b]
    exact ih (fun m' h => hn m' (by simp [h])) (fun m' h => hc m' (by simp [h])) _ _

/-- C115: a text in which no macro is found stays as it is. -/
theorem C115_macros_absent (macros : List (Str × Str)) (hn : ∀ m ∈ macros, m.1 ≠ []) (t : Str) (h : ∀ m ∈ macros, ∀ a, ¬ FoundAfter m.1 t a) : replaceAll L macros t = t := by
  unfold replaceAll
  rw [hL]
  induction macros with
  | nil => rfl
  | cons m ms ih =>
    rw [List.foldl_cons, C115_absent m.1 m.2 t (hn m (by simp)) (h m (by simp))]
    exact ih (fun m' h => hn m' (by simp [h])) (fun m' h' => h m' (by simp [h']))

/-- C115: a piece that is the name of a macro becomes its text, provided no macro before it in the order of the map is found in the name and none behind it in the text. -/
theorem C115_macros_word (before behind : List (Str × Str)) (name new w : Str) (hn : ∀ m ∈ before ++ (name, new) :: behind, m.1 ≠ []) (hw : Reads name w)
    (hb : ∀ m ∈ before, ∀ a, ¬ FoundAfter m.1 w a) (ha : ∀ m ∈ behind, ∀ a, ¬ FoundAfter m.1 new a) : replaceAll L (before ++ (name, new) :: behind) w = new := by
  have h1 := C115_macros_absent L hL before (fun m h => hn m (by simp [h])) w hb
  have h2 := C115_macros_absent L hL behind (fun m h => hn m (by simp [h])) new ha
  unfold replaceAll at h1 h2 ⊢
  rw [List.foldl_append, h1, List.foldl_cons, hL, C115_word name new w (hn (name, new) (by simp)) hw, ← hL]
  exact h2

private theorem two_macros (sgn : Bool) (d : Nat) {a b p q t u : Str} (hp : L.isNumber p = false) (hq : L.isNumber q = false) (ca : ':' ∉ a) (cb : ':' ∉ b) {m : List (Str × Str)}
    (hne : mapFind sgn b [(a, p)] = none) (hm : mapInsert sgn b q [(a, p)] = m) (hu : m.foldl (fun x m => subst m.1 m.2 x) t = u) :
    (rows L sgn [.named a p, .named b q, .dated d t] {}).map (·.events) = some [(d, u)] := by
  subst hm
  have r1 : step L sgn {} (.named a p) = some { macros := [(a, p)] } := by simp [step, ca, hp, mapFind, mapInsert]
  have r2 : step L sgn { macros := [(a, p)] } (.named b q) = some { macros := mapInsert sgn b q [(a, p)] } := by
    rw [step, if_neg cb, hne]
    simp [mapFind, hq]
  rw [rows, r1]
  simp only [rows, r2]
  simp only [step, replaceAll, hL, hu, addEvent, Option.map_some]

/-- C115 (violated): macros may use each other only along the alphabet backwards.  The tables

    A | X + 1          B | X + 1
    B | A * 2          A | B * 2
    d | y = B          d | y = A

differ only in the names of the macros; the first leaves `A` in the event, the second does not. -/
theorem C115_order_violated (sgn : Bool) (d : Nat) (hnum : ∀ t ∈ ["X + 1".toList, "A * 2".toList, "B * 2".toList], L.isNumber t = false) :
    (rows L sgn [.named "A".toList "X + 1".toList, .named "B".toList "A * 2".toList, .dated d "y = B".toList] {}).map (·.events) = some [(d, "y = A * 2".toList)] ∧
    (rows L sgn [.named "B".toList "X + 1".toList, .named "A".toList "B * 2".toList, .dated d "y = A".toList] {}).map (·.events) = some [(d, "y = X + 1 * 2".toList)] := by
  have e1 : ltS sgn "A".toList "B".toList = true := by cases sgn <;> decide
  have e2 : ltS sgn "B".toList "A".toList = false := by cases sgn <;> decide
  have c1 : ':' ∉ "A".toList := by decide
  have c2 : ':' ∉ "B".toList := by decide
  have s1 : subst "B".toList "A * 2".toList (subst "A".toList "X + 1".toList "y = B".toList) = "y = A * 2".toList := by decide +kernel
  have s2 : subst "B".toList "X + 1".toList (subst "A".toList "B * 2".toList "y = A".toList) = "y = X + 1 * 2".toList := by decide +kernel
  refine ⟨two_macros L hL sgn d (hnum _ (by simp)) (hnum _ (by simp)) c1 c2 ?_ rfl ?_, two_macros L hL sgn d (hnum _ (by simp)) (hnum _ (by simp)) c2 c1 ?_ rfl ?_⟩
  · rw [mapFind, e1, e2]
    rfl
  · rw [mapInsert, e1, e2]
    exact s1
  · rw [mapFind, e1, e2]
    rfl
  · rw [mapInsert, e1]
    exact s2

end macros

/-- C115 (violated): a macro does not stand for whole words only: a macro `ki` spoils the variable `is_ki`, whatever it stands for; and `IF` or `THEN` would not survive a macro called
`I` or `e`. -/
theorem C115_inside_words_violated (new : Str) : subst "KI".toList new "is_ki = 1".toList = "is_".toList ++ new ++ " = 1".toList ∧
    subst "e".toList new "then".toList = "th".toList ++ new ++ "n".toList := by
  constructor <;> simp [subst, go, matches?]

/-- `C115_first` with a name found twice. -/
example : subst "ab".toList "abc".toList "x Ab ab".toList = "x ".toList ++ ("abc".toList ++ subst "ab".toList "abc".toList " ab".toList) :=
  C115_first _ _ "x ".toList "Ab".toList " ab".toList (by decide) rfl (by
    rintro a' h ⟨m, b, e, hr⟩
    have hl := congrArg List.length hr
    match a', m, h, e, hl with
    | [], [p, q], _, e, _ =>
      simp at e
      obtain ⟨rfl, rfl, -⟩ := e
      revert hr
      unfold Reads
      decide
    | [r], [p, q], _, e, _ =>
      simp at e
      obtain ⟨-, rfl, rfl, -⟩ := e
      revert hr
      unfold Reads
      decide)

/-- `C115_pieces` and `C115_macros_word` with two macros. -/
example : Script.Events.replaceAll (⟨subst, fun _ => false, fun _ => 0, fun _ => none, fun _ => [], fun _ _ => none⟩ : Script.Events.Lib Unit) [("fee".toList, "0.1".toList), ("top".toList, "9 - fee".toList)]
    "Fee * TOP".toList = "0.1 * 9 - fee".toList := by decide +kernel

/-- The hypotheses at work. -/
example : subst "PeriodEnd".toList "2025-03-01".toList "x = DCF(ACT365F, periodbegin, PERIODEND)".toList = "x = DCF(ACT365F, periodbegin, 2025-03-01)".toList := by decide +kernel

end Dal
