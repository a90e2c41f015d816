import Verif.Strings.StringProps
import Verif.Strings.DictionaryModel
import Verif.Time.DateTextProps

/-! # C20: dictionaries and their text form -/

namespace Dal
open Strings Dict DateText Date Spec

attribute [local irreducible] mk' year month day dayNum

/-- Dictionaries built by insertions. -/
inductive DictBuilt (sgn : Bool) : Dictionary → Prop
  | empty : DictBuilt sgn []
  | insert {d d'} (k v) : DictBuilt sgn d → Dict.insert sgn d k v = some d' → DictBuilt sgn d'

theorem DictBuilt.built {sgn : Bool} {d : Dictionary} (h : DictBuilt sgn d) : Built sgn d := by
  induction h with
  | empty => exact .empty
  | insert k v _ hi ih =>
    unfold Dict.insert at hi
    split_ifs at hi
    obtain rfl := Option.some.inj hi
    exact .insert _ _ ih

theorem Built.sorted {V : Type} {sgn : Bool} {m : List (Str × V)} (h : Built sgn m) :
    m.Pairwise fun a b => ltS sgn a.1 b.1 = true := by
  induction h with
  | empty => exact List.Pairwise.nil
  | insert k v _ ih => exact mapInsert_sorted sgn k v _ ih

theorem DictBuilt.keys {sgn : Bool} {d : Dictionary} (h : DictBuilt sgn d) :
    ∀ e ∈ d, condensed e.1 = e.1 := by
  induction h with
  | empty => simp
  | insert k v _ hi ih =>
    unfold Dict.insert at hi
    split_ifs at hi
    obtain rfl := Option.some.inj hi
    intro e he
    rcases mapInsert_keys sgn _ _ _ e he with rfl | he
    · exact C16_idempotent k
    · exact ih e he

theorem mapFind_congr {V : Type} (sgn : Bool) {k k' : Str} (h : eqS sgn k k' = true)
    (m : List (Str × V)) : mapFind sgn k m = mapFind sgn k' m := by
  have hr := (C15_eq_equivalence sgn).refl
  induction m with
  | nil => rfl
  | cons e m ih =>
    simp only [mapFind, ih, C15_lt_congr sgn h (hr e.1), C15_lt_congr sgn (hr e.1) h]

/-- Keys are matched by their condensed text (case, blanks, tabs and underscores ignored): after an
insertion the value is found under exactly the keys equivalent to the inserted one; other keys keep
their values. -/
theorem C20_lookup_after_insert (sgn : Bool) {d d' : Dictionary} (h : DictBuilt sgn d) (k : Str) (v : Cell)
    (hi : Dict.insert sgn d k v = some d') (k' : Str) (opt : Bool) :
    (eqS sgn (condensed k') (condensed k) = true → lookup sgn d' k' opt = some v ∧ has sgn d' k' = true) ∧
    (eqS sgn (condensed k') (condensed k) = false →
      lookup sgn d' k' opt = lookup sgn d k' opt ∧ has sgn d' k' = has sgn d k') := by
  unfold Dict.insert at hi
  split_ifs at hi with h0
  obtain rfl := Option.some.inj hi
  have hn : mapFind sgn (condensed k) d = none := by simpa using h0
  have hf := C15_map_find_insert sgn (condensed k) v h.built (condensed k')
  rw [hn] at hf
  constructor
  · intro he
    rw [he] at hf
    simp only [and_self, if_true] at hf
    simp [lookup, has, hf]
  · intro he
    rw [he] at hf
    simp only [Bool.false_eq_true, false_and, if_false] at hf
    simp [lookup, has, hf]

example : DictBuilt true [] ∧
    Dict.insert true [] "a b".toList (.bool true) = some [("AB".toList, .bool true)] :=
  ⟨.empty, by decide +kernel⟩

/-- Inserting a key equivalent to a present one is rejected. -/
theorem C20_duplicate_rejected (sgn : Bool) {d d' : Dictionary} (h : DictBuilt sgn d) (k k' : Str) (v v' : Cell)
    (hi : Dict.insert sgn d k v = some d') (he : eqS sgn (condensed k') (condensed k) = true) :
    Dict.insert sgn d' k' v' = none := by
  have := ((C20_lookup_after_insert sgn h k v hi k' false).1 he).2
  unfold Dict.insert
  unfold has at this
  rw [if_pos this]

example : Dict.insert true [("AB".toList, .bool true)] "a_B".toList .blank = none := by decide +kernel

/-! ### Text round trip -/

/-- The text of one entry. -/
def entryText (k t : Str) : Str := k ++ '=' :: t

theorem toTextLoop_eq (N : NumText) : ∀ (d : Dictionary) (ts : List Str) (acc : Str),
    d.length = ts.length → (∀ i (h : i < d.length) (h' : i < ts.length), coerce N d[i].2 = some ts[i]) →
    toTextLoop N d acc = some (accumulate [';'] false
      ((if acc = [] then [] else [acc]) ++ List.zipWith (fun e t => entryText e.1 t) d ts)) := by
  intro d
  induction d with
  | nil =>
    intro ts acc hl _
    obtain rfl : ts = [] := List.length_eq_zero_iff.1 hl.symm
    by_cases h : acc = []
    · simp [toTextLoop, h, accumulate]
    · simp [toTextLoop, h, accumulate]
  | cons e d ih =>
    intro ts acc hl hc
    obtain ⟨t, ts, rfl⟩ := List.exists_cons_of_length_eq_add_one hl.symm
    have h0 := hc 0 (by simp) (by simp)
    simp only [List.getElem_cons_zero] at h0
    simp only [toTextLoop, h0, Option.bind_some]
    rw [ih ts _ (by simpa using hl) (fun i h h' => by
      have := hc (i + 1) (by simpa using h) (by simpa using h')
      simpa using this)]
    rw [if_neg (by simp)]
    congr 1
    simp only [List.zipWith_cons_cons]
    by_cases h : acc = []
    · simp [h, entryText]
    · simp only [h, if_false, List.singleton_append]
      cases List.zipWith (fun e t => entryText e.1 t) d ts with
      | nil => simp [accumulate, joiner, entryText]
      | cons x xs => rw [acc_cons, acc_cons, acc_cons]; simp [entryText]

theorem mapInsert_last {V : Type} (sgn : Bool) (k : Str) (v : V) (m : List (Str × V))
    (h : ∀ e ∈ m, ltS sgn e.1 k = true) : mapInsert sgn k v m = m ++ [(k, v)] := by
  induction m with
  | nil => rfl
  | cons e m ih =>
    have h1 := h e (by simp)
    have h2 : ltS sgn k e.1 = false := by
      rcases C15_lt_total sgn k e.1 with h | h | h
      · rw [h.2.2] at h1; cases h1
      · exact h.1
      · exact h.1
    rw [mapInsert, h2, h1, if_neg (by simp), if_pos rfl, ih fun x hx => h x (by simp [hx])]
    rfl

theorem mapFind_none {V : Type} (sgn : Bool) (k : Str) (m : List (Str × V))
    (h : ∀ e ∈ m, ltS sgn e.1 k = true) : mapFind sgn k m = none := by
  induction m with
  | nil => rfl
  | cons e m ih =>
    rw [mapFind, if_neg (by simp [h e (by simp)])]
    exact ih fun x hx => h x (by simp [hx])

/-- A cell survives as an entry value: its text has no separator, is not empty, and alone reads back
as the same cell. -/
def Survives (N : NumText) (v : Cell) : Prop :=
  ∃ t, coerce N v = some t ∧ t ≠ [] ∧ ';' ∉ t ∧ '=' ∉ t ∧ readCell N t = some v

/-- Rendering a dictionary and parsing the text gives the same dictionary, when the keys have no
separators and every value survives on its own (see the theorems below for which cells do). -/
theorem C20_text_roundtrip (sgn : Bool) (N : NumText) {d : Dictionary} (h : DictBuilt sgn d)
    (hk : ∀ e ∈ d, e.1 ≠ [] ∧ ';' ∉ e.1 ∧ '=' ∉ e.1) (hv : ∀ e ∈ d, Survives N e.2) :
    ∃ s, toText N d = some s ∧ fromText sgn N s = some d := by
  obtain ⟨ts, hl, ht⟩ : ∃ ts : List Str, d.length = ts.length ∧
      ∀ i (h : i < d.length) (h' : i < ts.length), coerce N d[i].2 = some ts[i] ∧ ts[i] ≠ [] ∧
        ';' ∉ ts[i] ∧ '=' ∉ ts[i] ∧ readCell N ts[i] = some d[i].2 := by
    clear h hk
    induction d with
    | nil => exact ⟨[], rfl, by simp⟩
    | cons e d ih =>
      obtain ⟨ts, hl, ht⟩ := ih fun x hx => hv x (by simp [hx])
      obtain ⟨t, h1⟩ := hv e (by simp)
      refine ⟨t :: ts, by simp [hl], ?_⟩
      intro i h h'
      cases i with
      | zero => simpa using h1
      | succ i => simpa using ht i (by simpa using h) (by simpa using h')
  refine ⟨_, toTextLoop_eq N d ts [] hl (fun i a b => (ht i a b).1), ?_⟩
  rw [if_pos rfl, List.nil_append, fromText, C18_split_join_drop]
  · rw [List.filter_eq_self.2]
    · -- read the entries one by one
      have key : ∀ (d2 d1 : Dictionary) (ts : List Str), d2.length = ts.length →
          (∀ i (h : i < d2.length) (h' : i < ts.length), ts[i] ≠ [] ∧
            '=' ∉ ts[i] ∧ readCell N ts[i] = some d2[i].2) →
          (∀ e ∈ d2, condensed e.1 = e.1 ∧ e.1 ≠ [] ∧ '=' ∉ e.1) →
          (d1 ++ d2).Pairwise (fun a b => ltS sgn a.1 b.1 = true) →
          (List.zipWith (fun e t => entryText e.1 t) d2 ts).foldlM (readEntry sgn N) d1 =
            some (d1 ++ d2) := by
        intro d2
        induction d2 with
        | nil => intro d1 ts _ _ _ _; simp
        | cons e d2 ih =>
          intro d1 ts hl ht hk hs
          obtain ⟨t, ts, rfl⟩ := List.exists_cons_of_length_eq_add_one hl.symm
          obtain ⟨h1, h2, h3⟩ := ht 0 (by simp) (by simp)
          simp only [List.getElem_cons_zero] at h1 h2 h3
          obtain ⟨k1, k2, k3⟩ := hk e (by simp)
          have hlt : ∀ x ∈ d1, ltS sgn x.1 e.1 = true := by
            intro x hx
            exact (List.pairwise_append.1 hs).2.2 x hx e (by simp)
          have hre : readEntry sgn N d1 (entryText e.1 t) = some (d1 ++ [e]) := by
            unfold readEntry entryText
            rw [split_piece '=' true e.1 t k3, if_neg (by simp), split_last '=' true t h2, if_neg h1]
            simp only [k2, if_false, h3, Option.bind_some, Dict.insert, k1]
            rw [mapFind_none sgn e.1 d1 hlt, mapInsert_last sgn e.1 e.2 d1 hlt]
            simp
          rw [List.zipWith_cons_cons, List.foldlM_cons, hre]
          have := ih (d1 ++ [e]) ts (by simpa using hl) (fun i a b => by
            have := ht (i + 1) (by simpa using a) (by simpa using b)
            simpa using this) (fun x hx => hk x (by simp [hx])) (by simpa using hs)
          simpa using this
      have := key d [] ts hl (fun i a b => ⟨(ht i a b).2.1, (ht i a b).2.2.2.1, (ht i a b).2.2.2.2⟩)
        (fun e he => ⟨h.keys e he, (hk e he).1, (hk e he).2.2⟩) (by simpa using h.built.sorted)
      simpa using this
    · intro p hp
      obtain ⟨i, hi, rfl⟩ := List.mem_iff_getElem.1 hp
      simp [entryText]
  · intro p hp
    obtain ⟨i, hi, rfl⟩ := List.mem_iff_getElem.1 hp
    simp only [List.length_zipWith] at hi
    have hi1 : i < d.length := by omega
    have hi2 : i < ts.length := by omega
    have h1 := (ht i hi1 hi2).2.2.1
    have h2 := (hk d[i] (List.getElem_mem hi1)).2.1
    simp [entryText, h1, h2]

/-- What is assumed of the library's number text: integers print and read back, and `stod` does not
consume the whole of a date or date-time text. -/
structure NumSpec (N : NumText) : Prop where
  int : ∀ n : Int, |n| < 2147483647 → N.read (intText n) = some (n : Rat)
  rejects : ∀ t : Str, isDateString (t.takeWhile (· ≠ ' ')) = true → N.read t = none

/-- A reader of plain integers, to show the assumptions can be met. -/
def intReader : NumText where
  read s :=
    if s.head? = some '-' then
      if s.tail ≠ [] ∧ s.tail.all Char.isDigit then
        some ((-(Nat.ofDigitChars 10 s.tail 0 : Int) : Int) : Rat) else none
    else if s ≠ [] ∧ s.all Char.isDigit then some (((Nat.ofDigitChars 10 s 0 : Nat) : Int) : Rat)
    else none
  write _ := []

theorem digits_all (n : Nat) : ∀ x ∈ Nat.toDigits 10 n, x.isDigit = true :=
  fun _ h => Nat.isDigit_of_mem_toDigits (by omega) (by omega) h

theorem matchTriple_some {sep : Char} {s : Str} (h : (matchTriple sep s).isSome = true) :
    ∃ a b c, s = a ++ sep :: (b ++ sep :: c) ∧ a ≠ [] ∧ (∀ x ∈ a, x.isDigit = true) ∧
      (∀ x ∈ b, x.isDigit = true) ∧ (∀ x ∈ c, x.isDigit = true) := by
  unfold matchTriple at h
  simp only at h
  split_ifs at h with h1 h2 h3
  · simp at h
  · simp at h
  · rw [not_or, not_not] at h1 h2
    set r1 := s.dropWhile Char.isDigit with hr1
    set r2 := r1.tail.dropWhile Char.isDigit with hr2
    refine ⟨s.takeWhile Char.isDigit, r1.tail.takeWhile Char.isDigit, r2.tail, ?_, h1.1, ?_, ?_, ?_⟩
    · have e1 : s = s.takeWhile Char.isDigit ++ r1 := (List.takeWhile_append_dropWhile).symm
      have e2 : r1 = sep :: r1.tail := (List.cons_head?_tail h1.2).symm
      have e3 : r1.tail = r1.tail.takeWhile Char.isDigit ++ r2 := (List.takeWhile_append_dropWhile).symm
      have e4 : r2 = sep :: r2.tail := (List.cons_head?_tail h2.2).symm
      rw [← e4, ← e3, ← e2]; exact e1
    · intro x hx; exact List.mem_takeWhile_imp hx
    · intro x hx; exact List.mem_takeWhile_imp hx
    · intro x hx; exact List.all_eq_true.1 h3.2 x hx
  · simp at h

theorem isDateString_form {s : Str} (h : isDateString s = true) :
    ∃ sep a b c, sep.isDigit = false ∧ sep ≠ ' ' ∧ s = a ++ sep :: (b ++ sep :: c) ∧ a ≠ [] ∧
      (∀ x ∈ a, x.isDigit = true) ∧ (∀ x ∈ b, x.isDigit = true) ∧ (∀ x ∈ c, x.isDigit = true) := by
  unfold isDateString at h
  rw [Bool.or_eq_true] at h
  rcases h with h | h
  · obtain ⟨a, b, c, h⟩ := matchTriple_some h
    exact ⟨'/', a, b, c, rfl, by decide, h⟩
  · obtain ⟨a, b, c, h⟩ := matchTriple_some h
    exact ⟨'-', a, b, c, rfl, by decide, h⟩

theorem intReader_read (s : Str) : intReader.read s =
    if s.head? = some '-' then
      if s.tail ≠ [] ∧ s.tail.all Char.isDigit then
        some ((-(Nat.ofDigitChars 10 s.tail 0 : Int) : Int) : Rat) else none
    else if s ≠ [] ∧ s.all Char.isDigit then some (((Nat.ofDigitChars 10 s 0 : Nat) : Int) : Rat)
    else none := rfl

theorem intReader_spec : NumSpec intReader := by
  have hd : ∀ n : Nat, Nat.toDigits 10 n ≠ [] := by intro n; simp
  constructor
  · intro n _
    unfold intText
    by_cases hn : n < 0
    · rw [if_pos hn]
      rw [intReader_read, if_pos (by simp), if_pos ⟨hd _, List.all_eq_true.2 (digits_all _)⟩, List.tail_cons,
        Nat.ofDigitChars_toDigits (by omega) (by omega)]
      congr 1
      have : (n.natAbs : Int) = -n := by omega
      rw [this]; simp
    · rw [if_neg hn]
      have hne : (Nat.toDigits 10 n.natAbs).head? ≠ some '-' := by
        intro h
        have := digits_all n.natAbs '-' (List.mem_of_mem_head? h)
        simp at this
      rw [intReader_read, if_neg hne, if_pos ⟨hd _, List.all_eq_true.2 (digits_all _)⟩,
        Nat.ofDigitChars_toDigits (by omega) (by omega)]
      congr 1
      have : (n.natAbs : Int) = n := by omega
      rw [this]
  · intro t ht
    obtain ⟨sep, a, b, c, h1, h2, h3, h4, h5, _⟩ := isDateString_form ht
    obtain ⟨x, a', rfl⟩ := List.exists_cons_of_ne_nil h4
    have hx : x.isDigit = true := h5 x (by simp)
    have hsep : sep ∈ t := by
      have : sep ∈ t.takeWhile (· ≠ ' ') := by rw [h3]; simp
      exact (List.takeWhile_prefix _).subset this
    have hhead : ∃ u, t = x :: u := by
      cases t with
      | nil => simp at h3
      | cons y u =>
        rw [List.takeWhile_cons] at h3
        split_ifs at h3
        · simp only [List.cons_append, List.cons.injEq] at h3
          exact ⟨u, by rw [h3.1]⟩
        · simp at h3
    obtain ⟨u, rfl⟩ := hhead
    have hnm : x ≠ '-' := by rintro rfl; simp at hx
    rw [intReader_read, if_neg (by simpa using hnm), if_neg]
    rintro ⟨_, h⟩
    have := List.all_eq_true.1 h sep hsep
    rw [h1] at this; cases this

theorem asInt_int (n : Int) (hn : |n| < 2147483647) : asInt (n : Rat) = some n := by
  unfold asInt
  rw [if_pos (by rw [← Int.cast_abs]; exact_mod_cast hn)]
  congr 1
  unfold trunc
  have hc : ((n : Rat) > 0) ↔ n > 0 := by exact_mod_cast Iff.rfl
  by_cases h : n > 0
  · have h' := hc.2 h
    rw [if_pos h', if_pos (by linarith), Int.floor_eq_iff]
    constructor <;> linarith
  · have h' : ¬ (n : Rat) > 0 := fun x => h (hc.1 x)
    rw [if_neg h', if_neg (by linarith), Int.ceil_eq_iff]
    constructor <;> linarith

theorem intText_chars (n : Int) : ∀ x ∈ intText n, x.isDigit = true ∨ x = '-' := by
  intro x hx
  unfold intText at hx
  split_ifs at hx
  · rcases List.mem_cons.1 hx with h | h
    · exact Or.inr h
    · exact Or.inl (digits_all _ x h)
  · exact Or.inl (digits_all _ x hx)

/-- Whole numbers of less than 2147483647 in size survive. -/
theorem C20_int_survives (N : NumText) (hN : NumSpec N) (n : Int) (hn : |n| < 2147483647) :
    Survives N (.num n) := by
  refine ⟨intText n, ?_, ?_, ?_, ?_, ?_⟩
  · simp [coerce, asInt_int n hn]
  · unfold intText; split_ifs <;> simp
  · intro h; rcases intText_chars n _ h with h | h <;> simp at h
  · intro h; rcases intText_chars n _ h with h | h <;> simp at h
  · simp [readCell, hN.int n hn]

example : NumSpec intReader ∧ |(-12 : Int)| < 2147483647 := ⟨intReader_spec, by decide⟩

/-- Larger numbers cannot be rendered at all: the text conversion throws. -/
theorem C20_large_number_violated (N : NumText) (k : Str) (q : Rat) (hq : 2147483647 ≤ |q|) :
    toText N [(k, .num q)] = none := by
  simp [toText, toTextLoop, coerce, asInt, not_lt.2 hq]

example : (2147483647 : Rat) ≤ |3000000000| := by norm_num

theorem date_text_chars (d : Date) (h : d.Valid) : ∀ x ∈ toString' d, x.isDigit = true ∨ x = '-' := by
  obtain ⟨e, -⟩ := toString_eq d h
  rw [e]
  intro x hx
  simp only [List.mem_append, List.mem_cons] at hx
  rcases hx with h | h | h | h | h
  · exact Or.inl ((padded_digits _ _).2 x h)
  · exact Or.inr h
  · exact Or.inl ((padded_digits _ _).2 x h)
  · exact Or.inr h
  · exact Or.inl ((padded_digits _ _).2 x h)

theorem takeWhile_all {α : Type} {p : α → Bool} {l : List α} (h : ∀ x ∈ l, p x = true) :
    l.takeWhile p = l := by
  induction l with
  | nil => rfl
  | cons a l ih => rw [List.takeWhile_cons, if_pos (h a (by simp)), ih fun x hx => h x (by simp [hx])]

theorem date_takeWhile (d : Date) (h : d.Valid) : (toString' d).takeWhile (· ≠ ' ') = toString' d := by
  apply takeWhile_all
  intro x hx
  rcases date_text_chars d h x hx with h | h
  · have : x ≠ ' ' := by rintro rfl; simp at h
    simpa using this
  · subst h; decide

/-- Dates survive outside the years in which the date constructor is off by one (C01). -/
theorem C20_date_survives_partial (N : NumText) (hN : NumSpec N) (d : Date) (h : d.Valid)
    (hg : before (ymd d) (2034, 3, 1) ∨ ¬ before (ymd d) (2100, 3, 1)) : Survives N (.date d) := by
  obtain ⟨_, h2, h3⟩ := C06_text_reads_as_ctor d h
  have hr := hN.rejects (toString' d) (by rw [date_takeWhile d h]; exact h2)
  refine ⟨toString' d, rfl, ?_, ?_, ?_, ?_⟩
  · intro hn; rw [hn] at h3; simp at h3
  · intro hm; rcases date_text_chars d h _ hm with h | h <;> simp at h
  · intro hm; rcases date_text_chars d h _ hm with h | h <;> simp at h
  · rw [readCell, hr]
    simp [h2, C06_roundtrip_partial d h hg]

theorem fromText_one (sgn : Bool) (N : NumText) (txt : Str) (v : Cell) (h0 : txt ≠ []) (h1 : ';' ∉ txt)
    (h2 : '=' ∉ txt) (h3 : readCell N txt = some v) :
    fromText sgn N (entryText ['K'] txt) = some [(['K'], v)] := by
  have hsemi : ';' ∉ entryText ['K'] txt := by simp [entryText, h1]
  have hc : condensed ['K'] = ['K'] := by decide
  have hre : readEntry sgn N [] (entryText ['K'] txt) = some [(['K'], v)] := by
    unfold readEntry entryText
    rw [split_piece '=' true ['K'] _ (by decide), if_neg (by simp), split_last '=' true _ h2, if_neg h0]
    simp only [h3, Option.bind_some, Dict.insert, hc, mapFind, mapInsert]
    simp
  rw [fromText, split_last ';' false _ hsemi, if_neg (by simp [entryText]), List.foldlM_cons, hre]
  rfl

/-- In the remaining years a date value comes back a day early. -/
theorem C20_date_violated (sgn : Bool) (N : NumText) (hN : NumSpec N) (d : Date) (h : d.Valid)
    (h1 : ¬ before (ymd d) (2034, 3, 1)) (h2 : before (ymd d) (2100, 3, 1)) :
    ∃ x, fromText sgn N (entryText ['K'] (toString' d)) = some [(['K'], .date x)] ∧
      x.serial + 1 = d.serial := by
  obtain ⟨x, hx, hs⟩ := C06_violated d h h1 h2
  obtain ⟨_, g2, g3⟩ := C06_text_reads_as_ctor d h
  refine ⟨x, fromText_one sgn N _ _ ?_ ?_ ?_ ?_, hs⟩
  · intro hn; rw [hn] at g3; simp at g3
  · intro hm; rcases date_text_chars d h _ hm with h | h <;> simp at h
  · intro hm; rcases date_text_chars d h _ hm with h | h <;> simp at h
  · have hr := hN.rejects (toString' d) (by rw [date_takeWhile d h]; exact g2)
    rw [readCell, hr, g2, hx]; rfl

example : (mk' 2050 1 1).Valid ∧ ¬ before (ymd (mk' 2050 1 1)) (2034, 3, 1) ∧
    before (ymd (mk' 2050 1 1)) (2100, 3, 1) := by
  have : ymd (mk' 2050 1 1) = (2049, 12, 31) := by decide +kernel
  rw [this]; simp only [before]
  exact ⟨by decide +kernel, by omega, by omega⟩

theorem dateTime_text (D pa pb pc : Str) (d : Date) (a b c : Int)
    (hD : ∀ x ∈ D, x.isDigit = true ∨ x = '-') (hd : isDateString D = true) (hf : fromString D = some d)
    (ha : pa ≠ [] ∧ ∀ x ∈ pa, x.isDigit = true) (hb : pb ≠ [] ∧ ∀ x ∈ pb, x.isDigit = true)
    (hc : pc ≠ [] ∧ ∀ x ∈ pc, x.isDigit = true) (ta : stoiAny pa = some a) (tb : stoiAny pb = some b)
    (tc : stoiAny pc = some c) (h1 : 0 ≤ a ∧ a < 24) (h2 : 0 ≤ b ∧ b < 60) (h3 : 0 ≤ c ∧ c < 60) :
    ∀ txt, txt = D ++ ' ' :: (pa ++ ':' :: (pb ++ ':' :: pc)) →
    isDateString txt = false ∧ isDateTimeString txt = true ∧
      dateTimeFromString txt = mkHMS d a b c ∧ ';' ∉ txt ∧ '=' ∉ txt ∧
      txt.takeWhile (· ≠ ' ') = D := by
  intro txt htxt
  have hnd : ∀ (p : Str) (x : Char), (∀ x ∈ p, x.isDigit = true) → x.isDigit = false → x ∉ p := by
    intro p x hp hx hm
    rw [hp x hm] at hx; cases hx
  have hchars : ∀ x, x.isDigit = false → x ≠ '-' → x ≠ ' ' → x ≠ ':' → x ∉ txt := by
    intro x x1 x2 x3 x4 hm
    rw [htxt] at hm
    simp only [List.mem_append, List.mem_cons] at hm
    rcases hm with hm | hm | hm | hm | hm | hm | hm
    · rcases hD _ hm with h | h
      · rw [h] at x1; cases x1
      · exact x2 h
    · exact x3 hm
    · exact hnd pa _ ha.2 x1 hm
    · exact x4 hm
    · exact hnd pb _ hb.2 x1 hm
    · exact x4 hm
    · exact hnd pc _ hc.2 x1 hm
  obtain ⟨tw1, tw2⟩ : txt.takeWhile (· ≠ ' ') = D ∧
      txt.dropWhile (· ≠ ' ') = ' ' :: (pa ++ ':' :: (pb ++ ':' :: pc)) := by
    rw [htxt]
    apply takeWhile_sep
    · intro x hx
      rcases hD x hx with h | h
      · have : x ≠ ' ' := by rintro rfl; simp at h
        simpa using this
      · subst h; decide
    · decide
  obtain ⟨tc1, tc2⟩ : (pa ++ ':' :: (pb ++ ':' :: pc)).takeWhile (· ≠ ':') = pa ∧
      (pa ++ ':' :: (pb ++ ':' :: pc)).dropWhile (· ≠ ':') = ':' :: (pb ++ ':' :: pc) := by
    apply takeWhile_sep
    · intro x hx
      have : x ≠ ':' := by rintro rfl; exact hnd pa _ ha.2 rfl hx
      simpa using this
    · decide
  refine ⟨?_, ?_, ?_, hchars _ rfl (by decide) (by decide) (by decide),
    hchars _ rfl (by decide) (by decide) (by decide), tw1⟩
  · rw [← Bool.not_eq_true]
    intro hd
    obtain ⟨sep, a', b', c', s1, s2, s3, _, s4, s5, s6⟩ := isDateString_form hd
    have hsp : ' ' ∈ txt := by rw [htxt]; simp
    rw [s3] at hsp
    simp only [List.mem_append, List.mem_cons] at hsp
    rcases hsp with hm | hm | hm | hm | hm
    · have := s4 _ hm; simp at this
    · exact s2 hm.symm
    · have := s5 _ hm; simp at this
    · exact s2 hm.symm
    · have := s6 _ hm; simp at this
  · unfold isDateTimeString
    rw [tw1, tw2]
    simp only [hd, List.tail_cons, tc1, tc2]
    simp [ha.1]
  · have hsplit : split ':' true (pa ++ ':' :: (pb ++ ':' :: pc)) = [pa, pb, pc] := by
      rw [split_piece ':' true _ _ (hnd pa _ ha.2 rfl), if_neg (by simp),
        split_piece ':' true _ _ (hnd pb _ hb.2 rfl), if_neg (by simp),
        split_last ':' true _ (hnd pc _ hc.2 rfl), if_neg hc.1]
    have hm : [pa, pb, pc].mapM stoiAny = some [a, b, c] := by
      simp only [List.mapM_cons, List.mapM_nil, ta, tb, tc]; rfl
    unfold dateTimeFromString
    rw [tw1, tw2, hf]
    simp only [Option.bind_some, List.tail_cons, hsplit, hm]
    rw [if_neg (by simp), if_pos (by omega)]

theorem join_two (D T : Str) (hD : D ≠ []) (hT : T ≠ []) : accumulate [' '] true [D, T] = D ++ ' ' :: T := by
  simp [accumulate, joiner, hD, hT]

theorem readCell_dateTime (N : NumText) (txt : Str) (t : DateTime) (h0 : N.read txt = none)
    (h1 : isDateString txt = false) (h2 : isDateTimeString txt = true)
    (h3 : dateTimeFromString txt = some t) : readCell N txt = some (.dateTime t) := by
  simp [readCell, h0, h1, h2, h3]

theorem stoiAny_table : ∀ k : Fin 60, stoiAny (padded '0' 2 k.1) = some (k.1 : Int) := by
  decide +kernel

/-- The text of a date-time to the second and how it is read. -/
theorem dateTime_text_reads (d : Date) (h : d.Valid)
    (hg : before (ymd d) (2034, 3, 1) ∨ ¬ before (ymd d) (2100, 3, 1))
    (hh mm ss : Int) (h1 : 0 ≤ hh ∧ hh < 24) (h2 : 0 ≤ mm ∧ mm < 60) (h3 : 0 ≤ ss ∧ ss < 60) :
    ∃ t, mkHMS d hh mm ss = some t ∧
      dateTimeText t = toString' d ++ ' ' :: (padded '0' 2 hh.toNat ++ ':' :: (padded '0' 2 mm.toNat ++ ':' :: padded '0' 2 ss.toNat)) ∧
      isDateString (dateTimeText t) = false ∧ isDateTimeString (dateTimeText t) = true ∧ dateTimeFromString (dateTimeText t) = some t ∧
      ';' ∉ dateTimeText t ∧ '=' ∉ dateTimeText t ∧ (dateTimeText t).takeWhile (· ≠ ' ') = toString' d := by
  obtain ⟨t, ht, htd, _, hf⟩ := C07_hms_roundtrip d hh mm ss h1 h2 h3
  refine ⟨t, ht, ?_⟩
  obtain ⟨a, ea⟩ := Int.eq_ofNat_of_zero_le h1.1
  obtain ⟨b, eb⟩ := Int.eq_ofNat_of_zero_le h2.1
  obtain ⟨c, ec⟩ := Int.eq_ofNat_of_zero_le h3.1
  have ta : stoiAny (padded '0' 2 a) = some hh := by
    have : a < 60 := by omega
    rw [ea]; exact stoiAny_table ⟨a, this⟩
  have tb : stoiAny (padded '0' 2 b) = some mm := by
    have : b < 60 := by omega
    rw [eb]; exact stoiAny_table ⟨b, this⟩
  have tc : stoiAny (padded '0' 2 c) = some ss := by
    have : c < 60 := by omega
    rw [ec]; exact stoiAny_table ⟨c, this⟩
  have hts : timeString t = padded '0' 2 a ++ ':' :: (padded '0' 2 b ++ ':' :: padded '0' 2 c) := by
    unfold timeString
    simp only [hf, ea, eb, ec, Int.toNat_natCast, Int.ofNat_eq_natCast]
  obtain ⟨_, g2, g3⟩ := C06_text_reads_as_ctor d h
  have hne : toString' d ≠ [] := by intro hn; rw [hn] at g3; simp at g3
  have htext : dateTimeText t =
      toString' d ++ ' ' :: (padded '0' 2 a ++ ':' :: (padded '0' 2 b ++ ':' :: padded '0' 2 c)) := by
    unfold dateTimeText
    rw [hts, htd]
    exact join_two _ _ hne (List.append_ne_nil_of_left_ne_nil (padded_digits 2 a).1 _)
  obtain ⟨q1, q2, q3, q4, q5, q6⟩ := dateTime_text _ _ _ _ d hh mm ss (date_text_chars d h) g2
    (C06_roundtrip_partial d h hg) (padded_digits 2 a) (padded_digits 2 b) (padded_digits 2 c) ta tb tc
    h1 h2 h3 _ htext
  have na : hh.toNat = a := by omega
  have nb : mm.toNat = b := by omega
  have nc : ss.toNat = c := by omega
  rw [na, nb, nc]
  exact ⟨htext, q1, q2, q3.trans ht, q4, q5, q6⟩

/-- A date-time on a whole second survives (same restriction on the date). -/
theorem C20_dateTime_survives_partial (N : NumText) (hN : NumSpec N) (d : Date) (h : d.Valid)
    (hg : before (ymd d) (2034, 3, 1) ∨ ¬ before (ymd d) (2100, 3, 1))
    (hh mm ss : Int) (h1 : 0 ≤ hh ∧ hh < 24) (h2 : 0 ≤ mm ∧ mm < 60) (h3 : 0 ≤ ss ∧ ss < 60) :
    ∃ t, mkHMS d hh mm ss = some t ∧ Survives N (.dateTime t) := by
  obtain ⟨t, ht, htext, q1, q2, q3, q4, q5, q6⟩ := dateTime_text_reads d h hg hh mm ss h1 h2 h3
  obtain ⟨_, g2, _⟩ := C06_text_reads_as_ctor d h
  have hr := hN.rejects (dateTimeText t) (by rw [q6]; exact g2)
  refine ⟨t, ht, dateTimeText t, rfl, ?_, q4, q5, ?_⟩
  · rw [htext]; exact List.append_ne_nil_of_right_ne_nil _ (List.cons_ne_nil _ _)
  · exact readCell_dateTime N _ t hr q1 q2 q3

/-- A string survives exactly when it is not empty, has no separators, and is not the text of a
number, a date or a date-time. -/
theorem C20_string_survives_iff (N : NumText) (s : Str) :
    Survives N (.str s) ↔ s ≠ [] ∧ ';' ∉ s ∧ '=' ∉ s ∧ N.read s = none ∧ isDateString s = false ∧
      isDateTimeString s = false := by
  constructor
  · rintro ⟨t, h1, h2, h3, h4, h5⟩
    simp only [coerce, Option.some.injEq] at h1
    subst h1
    refine ⟨h2, h3, h4, ?_⟩
    unfold readCell at h5
    split_ifs at h5 with a b c
    · cases h : N.read s <;> simp [h] at h5
    · cases h : fromString s <;> simp [h] at h5
    · cases h : dateTimeFromString s <;> simp [h] at h5
    · exact ⟨by simpa using a, by simpa using b, by simpa using c⟩
  · rintro ⟨h1, h2, h3, h4, h5, h6⟩
    exact ⟨s, rfl, h1, h2, h3, by simp [readCell, h4, h5, h6, h1]⟩

example : Survives intReader (.str "hello world".toList) :=
  (C20_string_survives_iff _ _).2 (by decide +kernel)

/-- Booleans do not survive: they come back as strings, for every reader that rejects the words. -/
theorem C20_bool_violated (N : NumText) (b : Bool) : ¬ Survives N (.bool b) := by
  rintro ⟨t, _, _, _, _, h⟩
  unfold readCell at h
  split_ifs at h
  · cases h' : N.read t <;> simp [h'] at h
  · cases h' : fromString t <;> simp [h'] at h
  · cases h' : dateTimeFromString t <;> simp [h'] at h
  · simp at h

/-- A blank cell makes the rendered text unreadable. -/
theorem C20_blank_violated (sgn : Bool) (N : NumText) (k : Str) (hk : ';' ∉ k ∧ '=' ∉ k) :
    toText N [(k, .blank)] = some (entryText k []) ∧ fromText sgn N (entryText k []) = none := by
  constructor
  · simp [toText, toTextLoop, coerce, entryText]
  · have hs : ';' ∉ entryText k [] := by simp [entryText, hk.1]
    rw [fromText, split_last ';' false _ hs, if_neg (by simp [entryText])]
    simp only [List.foldlM_cons, readEntry, entryText]
    rw [split_piece '=' true k [] hk.2, if_neg (by simp), split_nil]
    simp

example : ';' ∉ "KEY".toList ∧ '=' ∉ "KEY".toList := by decide

/-- A whole dictionary with a number, a string and a date meets the hypotheses of
`C20_text_roundtrip`. -/
example : ∃ d, DictBuilt true d ∧ d.length = 2 ∧ (∀ e ∈ d, e.1 ≠ [] ∧ ';' ∉ e.1 ∧ '=' ∉ e.1) ∧
    (∀ e ∈ d, Survives intReader e.2) ∧
    toText intReader d = some "NAME=abc;SIZE=42".toList := by
  refine ⟨[("NAME".toList, .str "abc".toList), ("SIZE".toList, .num (42 : Int))], ?_, rfl, ?_, ?_, ?_⟩
  · refine .insert "Size".toList (.num (42 : Int))
      (.insert "name".toList (.str "abc".toList) .empty rfl) (by decide +kernel)
  · simp
  · intro e he
    simp only [List.mem_cons, List.not_mem_nil, or_false] at he
    rcases he with rfl | rfl
    · exact (C20_string_survives_iff _ _).2 (by decide +kernel)
    · exact C20_int_survives _ intReader_spec 42 (by decide)
  · decide +kernel

end Dal
