import Verif.Storage.JsonDocLemmas
import Verif.Strings.DictionaryProps

/-! # C90: objects as JSON texts -/

namespace Dal
open Json Archive JsonDoc DateText Date Spec Dict

attribute [local irreducible] mk' year month day dayOfWeek dayNum monthLen addDays toString'

/-! ### Specification: the values a JSON text can hold -/

/-- At most six decimals. -/
def SixDecimals (q : Rat) : Prop := ∃ n : Int, q = (n : Rat) / 1000000

/-- Dates that can be read (C06). -/
def ReadableDate (d : Date) : Prop := d.Valid ∧ (before (ymd d) (2034, 3, 1) ∨ ¬before (ymd d) (2100, 3, 1))

/-- Times to the second on such dates. -/
def ReadableTime (t : DateTime) : Prop := ∃ d h m s, ReadableDate d ∧ (0 ≤ h ∧ h < 24) ∧ (0 ≤ m ∧ m < 60) ∧ (0 ≤ s ∧ s < 60) ∧ mkHMS d h m s = some t

/-- Cells: no empty ones, and no texts of the form of dates or times. -/
def CellFits : Dict.Cell → Prop
  | .blank => False
  | .num q => SixDecimals q
  | .bool _ => True
  | .str s => (∀ c ∈ s, plain c) ∧ datePattern s = false ∧ dateTimePattern s = false
  | .date d => ReadableDate d
  | .dateTime t => ReadableTime t

/-- Matrices with columns and of sizes that are integers. -/
def MatFits {V : Type} (P : V → Prop) (m : Mat V) : Prop :=
  0 < m.cols ∧ m.cols ≤ 2147483647 ∧ m.rows.length ≤ 2147483647 ∧ ∀ r ∈ m.rows, r.length = m.cols ∧ ∀ v ∈ r, P v

/-- The values by kind: no truth values, and no vectors of integers but empty ones. -/
def JsonFits : Kind → Atom → Prop
  | .text, .text s => ∀ c ∈ s, plain c
  | .number, .number q => SixDecimals q
  | .texts, .texts l => ∀ s ∈ l, ∀ c ∈ s, plain c
  | .numbers, .numbers l => ∀ q ∈ l, SixDecimals q
  | .ints, .ints l => l = []
  | .dates, .dates l => ∀ d ∈ l, ReadableDate d
  | .dateTimes, .dateTimes l => ∀ t ∈ l, ReadableTime t
  | .cells, .cells l => ∀ c ∈ l, CellFits c
  | .matrix, .matrix m => MatFits SixDecimals m
  | .cellMatrix, .cellMatrix m => MatFits CellFits m
  | _, _ => False

/-- A value or a handle. -/
def JsonItem (S : Addr → Prop) : Option Kind → Item Atom → Prop
  | some k, .atom a => JsonFits k a
  | none, .ref r => S r
  | _, _ => False

/-- The value of a member. -/
def JsonValue (S : Addr → Prop) (m : Member Kind) : Value Atom → Prop
  | .one x => (m.mode = .required ∧ JsonItem S m.kind x) ∨ (m.mode = .optional ∧ (x = dfltItem default m.kind ∨ JsonItem S m.kind x))
  | .many xs => (m.mode = .multiple ∨ m.mode = .nonempty ∧ xs ≠ []) ∧ ∀ x ∈ xs, JsonItem S m.kind x

/-- Objects, closed under handles and without cycles, of known classes and with such values. -/
def JsonHeap (classes : Archive.Str → Option (List (Member Kind))) (heap : Addr → Obj Atom) (S : Addr → Prop) (rank : Addr → Nat) : Prop :=
  ∀ a, S a → (heap a).type ≠ [] ∧ (∃ ms, classes (heap a).type = some ms ∧ Unambiguous ms ∧ List.Forall₂ (JsonValue S) ms (heap a).vals) ∧
    ∀ v ∈ (heap a).vals, ∀ r ∈ refsOf v, rank r < rank a

/-! ### Single values -/

private theorem read_six {q : Rat} (h : SixDecimals q) : ((millionths q : Int) : Rat) / 1000000 = q := by
  have := (C26_number_survives_iff q).2 h
  rw [parse_of_reads (reads_double q), Option.bind_some] at this
  exact Option.some.inj this

private theorem digit_plain {c : Char} (hc : c.isDigit = true) : plain c := by
  refine ⟨?_, ?_, ?_⟩
  · rintro rfl; exact absurd hc (by decide)
  · rintro rfl; exact absurd hc (by decide)
  · simp only [Char.isDigit, Bool.and_eq_true, decide_eq_true_eq, UInt32.le_iff_toNat_le] at hc
    have h1 := hc.1
    have h2 : c.toNat = c.val.toNat := rfl
    rw [h2]
    have h3 : ('0' : Char).val.toNat = 48 := rfl
    omega

private theorem two_digits {l : List Char} (h : l.length = 2) (hd : ∀ c ∈ l, c.isDigit = true) : ∃ a b, l = [a, b] ∧ a.isDigit = true ∧ b.isDigit = true := by
  obtain ⟨a, b, rfl⟩ := List.length_eq_two.1 h
  exact ⟨a, b, rfl, hd a (by simp), hd b (by simp)⟩

private theorem padded_two {n : Nat} (h : n < 100) : (padded '0' 2 n).length = 2 := by
  have key : ∀ n : Fin 100, (padded '0' 2 n).length = 2 := by decide +kernel
  exact key ⟨n, h⟩

private theorem date_form (d : Date) (h : d.Valid) : ∃ a b c e f g i j, toString' d = [a, b, c, e, '-', f, g, '-', i, j] ∧ a.isDigit = true ∧ b.isDigit = true ∧ c.isDigit = true ∧
    e.isDigit = true ∧ f.isDigit = true ∧ g.isDigit = true ∧ i.isDigit = true ∧ j.isDigit = true := by
  obtain ⟨e, -, -, -, -, -, -, l1, l2, l3⟩ := toString_eq d h
  have d1 := (padded_digits 4 (year d).toNat).2
  have d2 := (padded_digits 2 (month d).toNat).2
  have d3 := (padded_digits 2 (day d).toNat).2
  rw [e]
  generalize padded '0' 4 (year d).toNat = y at *
  generalize padded '0' 2 (month d).toNat = m at *
  generalize padded '0' 2 (day d).toNat = dd at *
  obtain ⟨f, g, rfl, hf, hg⟩ := two_digits l2 d2
  obtain ⟨i, j, rfl, hi, hj⟩ := two_digits l3 d3
  match y, l1, d1 with
  | [a, b, c, x], _, d1 => exact ⟨a, b, c, x, f, g, i, j, rfl, d1 a (by simp), d1 b (by simp), d1 c (by simp), d1 x (by simp), hf, hg, hi, hj⟩

private theorem date_pattern (d : Date) (h : d.Valid) : datePattern (toString' d) = true := by
  obtain ⟨a, b, c, e, f, g, i, j, he, h1, h2, h3, h4, h5, h6, h7, h8⟩ := date_form d h
  rw [he]
  simp [datePattern, h1, h2, h3, h4, h5, h6, h7, h8]

private theorem time_text {t : DateTime} (h : ReadableTime t) : (∀ c ∈ dateTimeText t, plain c) ∧ datePattern (dateTimeText t) = false ∧ dateTimePattern (dateTimeText t) = true ∧
    dateTimeFromString (dateTimeText t) = some t := by
  obtain ⟨d, hh, mm, ss, hd, h1, h2, h3, ht⟩ := h
  obtain ⟨t', ht', htext, -, -, hr, -⟩ := dateTime_text_reads d hd.1 hd.2 hh mm ss h1 h2 h3
  rw [ht] at ht'
  cases ht'
  obtain ⟨a, b, c, e, f, g, i, j, he, x1, x2, x3, x4, x5, x6, x7, x8⟩ := date_form d hd.1
  obtain ⟨p, q, e1, p1, q1⟩ := two_digits (padded_two (n := hh.toNat) (by omega)) (padded_digits 2 hh.toNat).2
  obtain ⟨r, s, e2, r1, s1⟩ := two_digits (padded_two (n := mm.toNat) (by omega)) (padded_digits 2 mm.toNat).2
  obtain ⟨u, v, e3, u1, v1⟩ := two_digits (padded_two (n := ss.toNat) (by omega)) (padded_digits 2 ss.toNat).2
  rw [he, e1, e2, e3] at htext
  refine ⟨?_, ?_, ?_, hr⟩
  · have hs : plain ' ' := by unfold plain; decide
    have hcol : plain ':' := by unfold plain; decide
    have hdash : plain '-' := by unfold plain; decide
    rw [htext]
    intro z hz
    simp only [List.cons_append, List.nil_append, List.mem_cons, List.not_mem_nil, or_false] at hz
    rcases hz with rfl | rfl | rfl | rfl | rfl | rfl | rfl | rfl | rfl | rfl | rfl | rfl | rfl | rfl | rfl | rfl | rfl | rfl | rfl <;> first | assumption | (apply digit_plain; assumption)
  · rw [htext]; rfl
  · rw [htext]; simp [dateTimePattern, datePattern, x1, x2, x3, x4, x5, x6, x7, x8, p1, q1, r1, s1, u1, v1]

private theorem cell_reads (c : Dict.Cell) (h : CellFits c) : ∃ v, ReadsAs (JsonDoc.writeCell c) v ∧ JsonDoc.eCell v = some c := by
  cases c with
  | blank => exact h.elim
  | num q => exact ⟨_, reads_double q, by rw [JsonDoc.eCell, read_six h]⟩
  | bool b => exact ⟨_, reads_bool b, rfl⟩
  | str s => exact ⟨_, reads_str s h.1, by rw [JsonDoc.eCell, h.2.1, h.2.2]; rfl⟩
  | date d =>
    refine ⟨_, reads_date d h.1, ?_⟩
    rw [JsonDoc.eCell, date_pattern d h.1, if_pos rfl, C06_roundtrip_partial d h.1 h.2]
    rfl
  | dateTime t =>
    obtain ⟨h1, h2, h3, h4⟩ := time_text h
    refine ⟨_, reads_str _ h1, ?_⟩
    rw [JsonDoc.eCell, h2, h3, h4]
    rfl

private theorem arr_reads {V : Type} (w : V → List Char) (e : JVal → Option V) (l : List V) (h : ∀ v ∈ l, ∃ j, ReadsAs (w v) j ∧ e j = some v) :
    ∃ j, ReadsText (writeArr w l) j ∧ asVector e j = some l := by
  classical
  have h' : ∀ v, ∃ j, v ∈ l → ReadsAs (w v) j ∧ e j = some v := fun v => by
    by_cases hv : v ∈ l
    · obtain ⟨j, hj⟩ := h v hv
      exact ⟨j, fun _ => hj⟩
    · exact ⟨.null, fun hh => absurd hh hv⟩
  choose val hval using h'
  refine ⟨_, reads_arr w val l fun v hv => (hval v hv).1, ?_⟩
  rw [asVector, mapM_map val e id l fun v hv => (hval v hv).2, List.map_id]

private theorem mat_reads {V : Type} (w : V → List Char) (e : JVal → Option V) (m : Mat V) (P : V → Prop) (hm : MatFits P m) (h : ∀ v, P v → ∃ j, ReadsAs (w v) j ∧ e j = some v) :
    ∃ j, ReadsText (writeMat w m.cols m.rows) j ∧ eMat e j = some m := by
  classical
  obtain ⟨h1, h2, h3, h4⟩ := hm
  have h' : ∀ v, ∃ j, P v → ReadsAs (w v) j ∧ e j = some v := fun v => by
    by_cases hv : P v
    · obtain ⟨j, hj⟩ := h v hv
      exact ⟨j, fun _ => hj⟩
    · exact ⟨.null, fun hh => absurd hh hv⟩
  choose val hval using h'
  refine ⟨_, reads_mat w val m.cols h2 m.rows h3 fun r hr v hv => (hval v ((h4 r hr).2 v hv)).1, ?_⟩
  have := asMatrix_of val e id m.cols h1 m.rows (fun r hr => (h4 r hr).1) (fun v hv => by
    obtain ⟨r, hr, hvr⟩ := List.mem_flatten.1 hv
    exact (hval v ((h4 r hr).2 v hvr)).2) (.obj [("rows".toList, .int m.rows.length), ("cols".toList, .int m.cols), ("vals".toList, .arr (m.rows.flatten.map val))]) rfl rfl
  rw [eMat, this]
  simp

private theorem atom_reads (k : Kind) (a : Atom) (h : JsonFits k a) : ∃ j, ReadsText (writeAtom a) j ∧ readAtom k j = some a := by
  have six : ∀ q, SixDecimals q → ∃ j, ReadsAs (writeDouble q) j ∧ eDouble j = some q := fun q hq => ⟨_, reads_double q, by rw [eDouble, read_six hq]⟩
  have lift : ∀ {V : Type} {r : JVal → Option V} {f : V → Atom} {txt : List Char} {x : V}, (∃ j, ReadsText txt j ∧ r j = some x) → ∃ j, ReadsText txt j ∧ (r j).map f = some (f x) := by
    rintro V r f txt x ⟨j, h1, h2⟩
    exact ⟨j, h1, by rw [h2]; rfl⟩
  cases k <;> cases a <;> first | exact h.elim | skip
  · exact lift ⟨_, (reads_str _ h).text, rfl⟩
  · obtain ⟨j, h1, h2⟩ := six _ h
    exact lift ⟨j, h1.text, h2⟩
  · exact lift (arr_reads writeStr eString _ fun s hs => ⟨_, reads_str s (h s hs), rfl⟩)
  · exact lift (arr_reads writeDouble eDouble _ fun q hq => six q (h q hq))
  · rename_i l
    obtain rfl : l = [] := h
    exact lift (arr_reads writeInt eInt [] (by simp))
  · exact lift (arr_reads writeDate eDate _ fun d hd => ⟨_, reads_date d (h d hd).1, by rw [eDate_str]; exact C06_roundtrip_partial d (h d hd).1 (h d hd).2⟩)
  · exact lift (arr_reads writeDateTime eDateTime _ fun t ht => ⟨_, reads_str _ (time_text (h t ht)).1, (time_text (h t ht)).2.2.2⟩)
  · exact lift (arr_reads JsonDoc.writeCell JsonDoc.eCell _ fun c hc => cell_reads c (h c hc))
  · exact lift (mat_reads writeDouble eDouble _ SixDecimals h six)
  · exact lift (mat_reads JsonDoc.writeCell JsonDoc.eCell _ CellFits h cell_reads)

/-- C90, values: what a text can hold is read as it was written. -/
theorem C90_values (k : Kind) (a : Atom) (h : JsonFits k a) : (parse (writeAtom a)).bind (readAtom k) = some a := by
  obtain ⟨j, h1, h2⟩ := atom_reads k a h
  rw [h1.parse, Option.bind_some, h2]

/-! ### Whole documents -/

private theorem kids_append : ∀ k k' : List (List Char × Node (List Char)), WritableKids k → WritableKids k' → WritableKids (k ++ k')
  | [], _, _, h => h
  | (s, t) :: k, k', h, h' => by
    rw [WritableKids] at h
    rw [List.cons_append, WritableKids]
    exact ⟨h.1, h.2.1, kids_append k k' h.2.2 h'⟩

/-- Tags are numbers. -/
private def TagsOk (T : Tags) : Prop := ∀ p ∈ T, (∀ c ∈ p.2, plain c) ∧ p.2 ≠ []

private theorem digits_plain (n : Nat) : (∀ c ∈ digits n, plain c) ∧ digits n ≠ [] :=
  ⟨fun _ hc => digit_plain (Nat.isDigit_of_mem_toDigits (by omega) (by omega) hc), Nat.toDigits_ne_nil⟩

private theorem lookup_mem {T : Tags} {a : Addr} {t : Archive.Str} (h : T.lookup a = some t) : (a, t) ∈ T := by
  induction T with
  | nil => cases h
  | cons p T ih =>
    rw [List.lookup_cons] at h
    split at h
    · rename_i hb
      have : a = p.1 := by simpa using hb
      cases h
      rw [this]
      exact List.mem_cons_self
    · exact List.mem_cons_of_mem _ (ih h)

section
variable {S : Addr → Prop} {W : Addr → Tags → Option (Node (List Char) × Tags)}

/-- Objects that handles lead to are written well. -/
private def WritesWell (S : Addr → Prop) (W : Addr → Tags → Option (Node (List Char) × Tags)) : Prop :=
  ∀ r T p, S r → TagsOk T → W r T = some p → Writable p.1 ∧ TagsOk p.2

private theorem put_ok (hW : WritesWell S W) (kind : Option Kind) (name : Archive.Str) (hn : (∀ c ∈ name, plain c) ∧ name ≠ tagLabel ∧ name ≠ typeLabel) (it : Item Atom) (hi : JsonItem S kind it)
    (T : Tags) (hT : TagsOk T) (p : (Archive.Str × Node (List Char)) × Tags) (h : put (fun _ x => writeAtom x) W kind name it T = some p) : WritableKids [p.1] ∧ TagsOk p.2 := by
  cases kind with
  | some k =>
    cases it with
    | atom a =>
      obtain ⟨j, hj, -⟩ := atom_reads k a hi
      simp only [put, Option.bind_some, Option.some.injEq] at h
      subst h
      refine ⟨?_, hT⟩
      rw [WritableKids, Writable]
      exact ⟨hn, ⟨j, hj⟩, by rw [WritableKids]; trivial⟩
    | null => exact hi.elim
    | ref r => exact hi.elim
  | none =>
    cases it with
    | atom a => exact hi.elim
    | null => exact hi.elim
    | ref r =>
      simp only [put, Option.bind_eq_some_iff] at h
      obtain ⟨q, h1, h2⟩ := h
      simp only [Option.some.injEq] at h2
      subst h2
      obtain ⟨w1, w2⟩ := hW r T q hi hT h1
      refine ⟨?_, w2⟩
      rw [WritableKids]
      exact ⟨hn, w1, by rw [WritableKids]; trivial⟩

private theorem putMany_ok (hW : WritesWell S W) (kind : Option Kind) (name : Archive.Str) (hn : (∀ c ∈ name, plain c) ∧ ∃ c r, name = c :: r ∧ c.isAlpha = true) :
    ∀ (its : List (Item Atom)) (i : Nat) (T : Tags), (∀ it ∈ its, JsonItem S kind it) → TagsOk T → ∀ p, putMany (fun _ x => writeAtom x) W kind name i its T = some p →
      WritableKids p.1 ∧ TagsOk p.2 := by
  intro its
  induction its with
  | nil =>
    intro i T _ hT p h
    simp only [putMany, Option.some.injEq] at h
    subst h
    exact ⟨by rw [WritableKids]; trivial, hT⟩
  | cons it its ih =>
    intro i T hi hT p h
    simp only [putMany, Option.bind_eq_some_iff] at h
    obtain ⟨q, h1, r, h2, h3⟩ := h
    simp only [Option.some.injEq] at h3
    subst h3
    have hname : ∀ c ∈ name ++ digits i, plain c := by
      intro c hc
      rcases List.mem_append.1 hc with h | h
      · exact hn.1 c h
      · exact (digits_plain i).1 c h
    obtain ⟨a1, a2⟩ := put_ok hW kind (name ++ digits i) ⟨hname, not_label hn.2 _⟩ it (hi it (by simp)) T hT q h1
    obtain ⟨b1, b2⟩ := ih (i + 1) q.2 (fun x hx => hi x (by simp [hx])) a2 r h2
    exact ⟨kids_append [q.1] r.1 a1 b1, b2⟩

private theorem putMember_ok (hW : WritesWell S W) (m : Member Kind) (hn : (∀ c ∈ m.name, plain c) ∧ ∃ c r, m.name = c :: r ∧ c.isAlpha = true) (v : Value Atom) (hv : JsonValue S m v)
    (T : Tags) (hT : TagsOk T) (p : List (Archive.Str × Node (List Char)) × Tags) (h : putMember (fun _ x => writeAtom x) default W m v T = some p) : WritableKids p.1 ∧ TagsOk p.2 := by
  have hl := not_label hn.2 []
  rw [List.append_nil] at hl
  have one : ∀ it, JsonItem S m.kind it → ((put (fun _ x => writeAtom x) W m.kind m.name it T).bind fun p => some ([p.1], p.2)) = some p → WritableKids p.1 ∧ TagsOk p.2 := by
    intro it hi h
    simp only [Option.bind_eq_some_iff] at h
    obtain ⟨q, h1, h2⟩ := h
    simp only [Option.some.injEq] at h2
    subst h2
    exact put_ok hW m.kind m.name ⟨hn.1, hl⟩ it hi T hT q h1
  cases v with
  | one it =>
    rcases hv with ⟨hm, hi⟩ | ⟨hm, hi⟩
    · simp only [putMember, hm] at h
      exact one it hi h
    · simp only [putMember, hm] at h
      by_cases hd : it = dfltItem default m.kind
      · rw [if_pos hd] at h
        simp only [Option.some.injEq] at h
        subst h
        exact ⟨by rw [WritableKids]; trivial, hT⟩
      · rw [if_neg hd] at h
        rcases hi with hi | hi
        · exact absurd hi hd
        · exact one it hi h
  | many its =>
    rcases hv with ⟨hm | ⟨hm, -⟩, hi⟩
    · simp only [putMember, hm] at h
      exact putMany_ok hW m.kind m.name hn its 0 T hi hT p h
    · simp only [putMember, hm] at h
      exact putMany_ok hW m.kind m.name hn its 0 T hi hT p h

private theorem putMembers_ok (hW : WritesWell S W) : ∀ (ms : List (Member Kind)) (vs : List (Value Atom)), List.Forall₂ (JsonValue S) ms vs →
    (∀ m ∈ ms, (∀ c ∈ m.name, plain c) ∧ ∃ c r, m.name = c :: r ∧ c.isAlpha = true) → ∀ T, TagsOk T → ∀ p, putMembers (fun _ x => writeAtom x) default W ms vs T = some p →
      WritableKids p.1 ∧ TagsOk p.2 := by
  intro ms vs h
  induction h with
  | nil =>
    intro _ T hT p h
    simp only [putMembers, Option.some.injEq] at h
    subst h
    exact ⟨by rw [WritableKids]; trivial, hT⟩
  | cons hv _ ih =>
    intro hn T hT p h
    simp only [putMembers, Option.bind_eq_some_iff] at h
    obtain ⟨q, h1, r, h2, h3⟩ := h
    simp only [Option.some.injEq] at h3
    subst h3
    obtain ⟨a1, a2⟩ := putMember_ok hW _ (hn _ (by simp)) _ hv T hT q h1
    obtain ⟨b1, b2⟩ := ih (fun m hm => hn m (by simp [hm])) q.2 a2 r h2
    exact ⟨kids_append _ _ a1 b1, b2⟩
end

variable {classes : Archive.Str → Option (List (Member Kind))} {heap : Addr → Obj Atom} {S : Addr → Prop} {rank : Addr → Nat}

private theorem storable_ok (hc : GoodNames classes) (hg : JsonHeap classes heap S rank) : ∀ n, WritesWell S (setStorable (fun _ x => writeAtom x) default classes heap n) := by
  intro n
  induction n with
  | zero => intro r T p _ _ h; cases h
  | succ n ih =>
    intro r T p hr hT h
    rw [setStorable] at h
    cases hl : T.lookup r with
    | some tag =>
      simp only [hl, Option.some.injEq] at h
      subst h
      have := hT _ (lookup_mem hl)
      refine ⟨?_, hT⟩
      rw [Writable]
      exact ⟨this.1, by simp, Or.inl this.2, by rw [WritableKids]; trivial⟩
    | none =>
      simp only [hl, Option.bind_eq_some_iff] at h
      obtain ⟨ms, h1, q, h2, h3⟩ := h
      simp only [Option.some.injEq] at h3
      subst h3
      obtain ⟨htype, ⟨ms', hms, -, hf⟩, -⟩ := hg r hr
      rw [h1] at hms
      cases hms
      have hd := digits_plain (1 + T.length)
      obtain ⟨a1, a2⟩ := putMembers_ok ih ms _ hf (hc _ _ h1).2 _ (by
        intro p hp
        rcases List.mem_append.1 hp with h | h
        · exact hT p h
        · rw [List.mem_singleton.1 h]; exact hd) q h2
      refine ⟨?_, a2⟩
      rw [Writable]
      exact ⟨hd.1, (hc _ _ h1).1, Or.inl hd.2, a1⟩

private theorem goodHeap (hg : JsonHeap classes heap S rank) : GoodHeap (fun _ x => writeAtom x) decText default classes heap S rank := by
  have item : ∀ kind it, JsonItem S kind it → ItemFits (fun _ x => writeAtom x) decText S kind it := by
    intro kind it h
    cases kind <;> cases it <;> first | exact h | exact C90_values _ _ h
  intro a ha
  obtain ⟨h1, ⟨ms, h2, h3, h4⟩, h5⟩ := hg a ha
  refine ⟨h1, ⟨ms, h2, h3, h4.imp ?_⟩, h5⟩
  intro m v hv
  cases v with
  | one it =>
    rcases hv with ⟨hm, hi⟩ | ⟨hm, hi | hi⟩
    · exact Or.inl ⟨hm, item _ _ hi⟩
    · exact Or.inr ⟨hm, Or.inl hi⟩
    · exact Or.inr ⟨hm, Or.inr (item _ _ hi)⟩
  | many its => exact ⟨hv.1, fun it hit => item _ _ (hv.2 it hit)⟩

/-- C90, objects: an object written to a JSON text with everything it refers to, and read from the text, gives the same objects with the same sharing. Missing: the values that the
format does not keep. -/
theorem C90_roundtrip_partial (hc : GoodNames classes) (hg : JsonHeap classes heap S rank) (root : Addr) (hroot : S root) (n : Nat) (hn : rank root < n) :
    ∃ txt root' built phi, writeString classes heap n root = some txt ∧ readString classes (n + 1) txt = some (root', built) ∧
      phi root = some root' ∧ (∀ a b y, phi a = some y → phi b = some y → a = b) ∧ (∀ y, y < built.heap.length → ∃ a, phi a = some y) ∧
      ∀ a y, phi a = some y → ∃ o, built.heap[y]? = some o ∧ o.type = (heap a).type ∧ List.Forall₂ (ValueLike phi) (heap a).vals o.vals := by
  obtain ⟨doc, root', built, phi, h1, h2, h3⟩ := C88_roundtrip_partial classes (goodHeap hg) root hroot n hn
  have hw : Writable doc := by
    have h := h1
    rw [archive] at h
    simp only [Option.bind_eq_some_iff] at h
    obtain ⟨ms, k1, q, k2, k3⟩ := h
    simp only [Option.some.injEq] at k3
    subst k3
    obtain ⟨htype, ⟨ms', hms, -, hf⟩, -⟩ := hg root hroot
    rw [k1] at hms
    cases hms
    have := putMembers_ok (storable_ok hc hg n) ms _ hf (hc _ _ k1).2 [] (by intro p hp; cases hp) q k2
    rw [Writable]
    exact ⟨by simp, (hc _ _ k1).1, Or.inr htype, this.1⟩
  refine ⟨writeNode doc, root', built, phi, by rw [writeString, h1]; rfl, ?_, h3⟩
  rw [readString, (reads_node doc hw).parse, Option.bind_some]
  exact extract_sim classes hc (n + 1) doc _ _ hw h2

/-- The classes of the library. -/
def libraryClasses : Archive.Str → Option (List (Member Kind)) := fun t => library.lookup t

private theorem library_mem {t : Archive.Str} {ms : List (Member Kind)} (h : libraryClasses t = some ms) : (t, ms) ∈ library := by
  unfold libraryClasses at h
  generalize library = l at h
  induction l with
  | nil => cases h
  | cons p l ih =>
    rw [List.lookup_cons] at h
    split at h
    · rename_i hb
      have : t = p.1 := by simpa using hb
      cases h
      rw [this]
      exact List.mem_cons_self
    · exact List.mem_cons_of_mem _ (ih h)

/-- C90, the library: its classes have names that are written and read without change. -/
theorem C90_library : GoodNames libraryClasses := by
  have key : ∀ p ∈ library, (∀ c ∈ p.1, c ≠ '"' ∧ c ≠ '\\' ∧ 32 ≤ c.toNat) ∧ ∀ m ∈ p.2, (∀ c ∈ m.name, c ≠ '"' ∧ c ≠ '\\' ∧ 32 ≤ c.toNat) ∧
      (match m.name with | [] => false | c :: _ => c.isAlpha) = true := by decide +kernel
  intro type ms h
  obtain ⟨h1, h2⟩ := key _ (library_mem h)
  refine ⟨h1, fun m hm => ⟨(h2 m hm).1, ?_⟩⟩
  have := (h2 m hm).2
  split at this
  · cases this
  · rename_i c r e; exact ⟨c, r, e, this⟩

/-! ### Objects that cannot be read -/

private theorem bool_lost (v : JVal) (b : Bool) (h : parse (writeAtom (.boolean b)) = some v) : readAtom .boolean v = none := by
  have := C88_bool_violated.1 b
  rw [show storeBool writeDouble b = writeAtom (.boolean b) from rfl, h, Option.bind_some] at this
  rw [readAtom, this]; rfl

private theorem doc_atom {e : List Char} {v : JVal} (h : ReadsText e v) : docOf (.atom e) = v := by rw [docOf, h.parse]

private theorem bool_reads (b : Bool) : ∃ j, ReadsText (writeAtom (.boolean b)) j := ⟨_, (reads_double _).text⟩

private theorem members_lost (x : JVal → Archive.Built Atom → Option (Addr × Archive.Built Atom)) (j v : JVal) (m : Member Kind) (k : Kind) (hm : m.mode = .required) (hk : m.kind = some k)
    (hv : member m.name j = some v) (hr : readAtom k v = none) : ∀ (ms : List (Member Kind)) (b : Archive.Built Atom), m ∈ ms → JsonDoc.getMembers x j ms b = none := by
  intro ms
  induction ms with
  | nil => intro b h; cases h
  | cons m' ms ih =>
    intro b h
    rw [JsonDoc.getMembers]
    rcases List.mem_cons.1 h with rfl | h
    · have : JsonDoc.getMember x j m b = none := by
        simp only [JsonDoc.getMember, hm, hv, hk, JsonDoc.getItem, hr, Option.bind_some, Option.bind_none]
      rw [this]; rfl
    · cases JsonDoc.getMember x j m' b with
      | none => rfl
      | some p => simp only [Option.bind_some, ih p.2 h, Option.bind_none]

/-- An object with a required member whose text cannot be read is lost. -/
private theorem object_lost {type : Archive.Str} {ms : List (Member Kind)} (hms : classes type = some ms) (hc : GoodNames classes) (ht : type ≠ [])
    (kids : List (Archive.Str × Node (List Char))) (hw : WritableKids kids) (m : Member Kind) (k : Kind) (hmem : m ∈ ms) (hm : m.mode = .required) (hk : m.kind = some k) (e : List Char)
    (hl : kids.lookup m.name = some (.atom e)) (v : JVal) (he : ReadsText e v) (hr : readAtom k v = none) (n : Nat) :
    readString classes n (writeNode (.obj [] type kids)) = none := by
  have hW : Writable (.obj [] type kids) := by
    rw [Writable]; exact ⟨by simp, (hc _ _ hms).1, Or.inr ht, hw⟩
  rw [readString, (reads_node _ hW).parse, Option.bind_some]
  cases n with
  | zero => rfl
  | succ n =>
    obtain ⟨v1, v2⟩ := view_doc [] type kids hw
    have nl := not_label ((hc _ _ hms).2 m hmem).2 []
    rw [List.append_nil] at nl
    have := members_lost (JsonDoc.extract classes n) (docOf (.obj [] type kids)) v m k hm hk (by rw [member_doc _ _ _ _ nl.1 nl.2, hl, Option.map_some, doc_atom he]) hr ms Archive.Built.empty hmem
    rw [JsonDoc.extract]
    simp only [v1, v2, Option.bind_some, show (Archive.Built.empty : Archive.Built Atom).known [] = none from rfl, if_neg ht, hms]
    rw [this, Option.bind_none]

private theorem rsg_lost (type n1 n2 n3 n4 : Archive.Str) (hms : classes type = some [⟨n1, .optional, some .text⟩, ⟨n2, .required, some .number⟩, ⟨n3, .required, some .number⟩, ⟨n4, .required, some .boolean⟩])
    (hc : GoodNames classes) (ht : type ≠ []) (h1 : n4 ≠ n1) (h2 : n4 ≠ n2) (h3 : n4 ≠ n3)
    (heap : Addr → Obj Atom) (a : Addr) (name : Archive.Str) (hname : ∀ c ∈ name, plain c) (x y : Rat) (b : Bool)
    (ho : heap a = ⟨type, [.one (.atom (.text name)), .one (.atom (.number x)), .one (.atom (.number y)), .one (.atom (.boolean b))]⟩) (n : Nat) :
    ∃ txt, writeString classes heap n a = some txt ∧ ∀ k, readString classes k txt = none := by
  obtain ⟨jb, hb⟩ := bool_reads b
  have hx : ReadsText (writeAtom (.number x)) _ := (reads_double x).text
  have hy : ReadsText (writeAtom (.number y)) _ := (reads_double y).text
  have hs : ReadsText (writeAtom (.text name)) _ := (reads_str name hname).text
  have good : ∀ m ∈ [(⟨n1, .optional, some .text⟩ : Member Kind), ⟨n2, .required, some .number⟩, ⟨n3, .required, some .number⟩, ⟨n4, .required, some .boolean⟩],
      (∀ c ∈ m.name, plain c) ∧ m.name ≠ tagLabel ∧ m.name ≠ typeLabel := by
    intro m hm
    have := (hc _ _ hms).2 m hm
    have nl := not_label this.2 []
    rw [List.append_nil] at nl
    exact ⟨this.1, nl⟩
  have e1 : (n4 == n1) = false := by simpa using h1
  have e2 : (n4 == n2) = false := by simpa using h2
  have e3 : (n4 == n3) = false := by simpa using h3
  obtain ⟨kids, hk, hw, hl⟩ : ∃ kids, archive (fun _ x => writeAtom x) JsonDoc.default classes heap n a = some (.obj [] type kids) ∧ WritableKids kids ∧
      kids.lookup n4 = some (.atom (writeAtom (.boolean b))) := by
    have tail : WritableKids [(n2, .atom (writeAtom (.number x))), (n3, .atom (writeAtom (.number y))), (n4, .atom (writeAtom (.boolean b)))] := by
      simp only [WritableKids, Writable]
      exact ⟨good ⟨n2, .required, some .number⟩ (by simp), ⟨_, hx⟩, good ⟨n3, .required, some .number⟩ (by simp), ⟨_, hy⟩, good ⟨n4, .required, some .boolean⟩ (by simp), ⟨_, hb⟩, trivial⟩
    have look : List.lookup n4 [(n2, Node.atom (writeAtom (.number x))), (n3, .atom (writeAtom (.number y))), (n4, .atom (writeAtom (.boolean b)))] =
        some (.atom (writeAtom (.boolean b))) := by
      simp only [List.lookup_cons, e2, e3, beq_self_eq_true]
    by_cases he : name = []
    · refine ⟨_, ?_, tail, look⟩
      subst he
      simp only [archive, ho, hms, Option.bind_some, putMembers, putMember, put, dfltItem, JsonDoc.default, if_true, List.nil_append, List.cons_append]
    · refine ⟨(n1, .atom (writeAtom (.text name))) :: _, ?_, ?_, (by rw [List.lookup_cons, e1]; exact look)⟩
      · have : ¬(Item.atom (Atom.text name) = Item.atom (Atom.text [])) := by
          intro h; injection h with h; injection h with h; exact he h
        simp only [archive, ho, hms, Option.bind_some, putMembers, putMember, put, dfltItem, JsonDoc.default, if_neg this, List.nil_append, List.cons_append]
      · rw [WritableKids, Writable]
        exact ⟨good ⟨n1, .optional, some .text⟩ (by simp), ⟨_, hs⟩, tail⟩
  exact ⟨writeNode (.obj [] type kids), by rw [writeString, hk]; rfl,
    fun k => object_lost hms hc ht kids hw ⟨n4, .required, some .boolean⟩ .boolean (by simp) rfl rfl _ hl jb hb (bool_lost jb b hb.parse) k⟩

/-- C90, generators: no object of the two classes of random generators can be read from the text written for it. -/
theorem C90_generators_violated (heap : Addr → Obj Atom) (a : Addr) (name : Archive.Str) (hname : ∀ c ∈ name, plain c) (x y : Rat) (b : Bool) (type : Archive.Str)
    (htype : type = "PseudoRSG_v1".toList ∨ type = "SobolRSG_v1".toList)
    (ho : heap a = ⟨type, [.one (.atom (.text name)), .one (.atom (.number x)), .one (.atom (.number y)), .one (.atom (.boolean b))]⟩) (n : Nat) :
    ∃ txt, writeString libraryClasses heap n a = some txt ∧ ∀ k, readString libraryClasses k txt = none := by
  rcases htype with rfl | rfl
  · exact rsg_lost _ "name".toList "seed".toList "n_dim".toList "precise".toList rfl C90_library (by decide) (by decide) (by decide) (by decide) heap a name hname x y b ho n
  · exact rsg_lost _ "name".toList "i_path".toList "n_dim".toList "precise".toList rfl C90_library (by decide) (by decide) (by decide) (by decide) heap a name hname x y b ho n

private def generator : Addr → Obj Atom := fun _ =>
  ⟨"SobolRSG_v1".toList, [.one (.atom (.text "rsg".toList)), .one (.atom (.number 0)), .one (.atom (.number 5)), .one (.atom (.boolean false))]⟩

example : writeString libraryClasses generator 3 0 =
    some "{\n\"~type\": \"SobolRSG_v1\",\n\"name\": \"rsg\",\n\"i_path\": 0.000000,\n\"n_dim\": 5.000000,\n\"precise\": 0.000000}".toList := by decide +kernel

private theorem ints_lost (n : Int) (l : List Int) : ∃ j, ReadsText (writeAtom (.ints (n :: l))) j ∧ readAtom .ints j = none := by
  refine ⟨_, reads_arr writeInt (fun v => JVal.dbl (((millionths (v : Rat) : Int) : Rat) / 1000000)) (n :: l) (fun v _ => reads_double v), ?_⟩
  simp [readAtom, asVector, eInt]

private theorem report_lost (type n1 n2 n3 n4 n5 n6 : Archive.Str) (hms : classes type = some [⟨n1, .optional, some .text⟩, ⟨n2, .required, some .texts⟩, ⟨n3, .required, some .ints⟩,
      ⟨n4, .required, some .numbers⟩, ⟨n5, .nonempty, some .texts⟩, ⟨n6, .nonempty, some .cellMatrix⟩])
    (hc : GoodNames classes) (ht : type ≠ []) (h1 : n3 ≠ n1) (h2 : n3 ≠ n2) (heap : Addr → Obj Atom) (a : Addr) (name : Archive.Str) (hname : ∀ c ∈ name, plain c)
    (axes : List Archive.Str) (haxes : ∀ s ∈ axes, ∀ c ∈ s, plain c) (size : Int) (sizes : List Int) (vals : List Rat) (hvals : ∀ q ∈ vals, SixDecimals q)
    (labels : List (List Archive.Str)) (hlabels : ∀ l ∈ labels, ∀ s ∈ l, ∀ c ∈ s, plain c) (headers : List (Mat Dict.Cell)) (hheaders : ∀ m ∈ headers, MatFits CellFits m)
    (ho : heap a = ⟨type, [.one (.atom (.text name)), .one (.atom (.texts axes)), .one (.atom (.ints (size :: sizes))), .one (.atom (.numbers vals)),
      .many (labels.map fun l => .atom (.texts l)), .many (headers.map fun m => .atom (.cellMatrix m))]⟩) (n : Nat) (txt : List Char)
    (hw : writeString classes heap n a = some txt) (k : Nat) : readString classes k txt = none := by
  have good' : ∀ m ∈ [(⟨n1, .optional, some .text⟩ : Member Kind), ⟨n2, .required, some .texts⟩, ⟨n3, .required, some .ints⟩, ⟨n4, .required, some .numbers⟩, ⟨n5, .nonempty, some .texts⟩,
      ⟨n6, .nonempty, some .cellMatrix⟩], (∀ c ∈ m.name, plain c) ∧ ∃ c r, m.name = c :: r ∧ c.isAlpha = true := (hc _ _ hms).2
  have good : ∀ m ∈ [(⟨n1, .optional, some .text⟩ : Member Kind), ⟨n2, .required, some .texts⟩, ⟨n3, .required, some .ints⟩, ⟨n4, .required, some .numbers⟩, ⟨n5, .nonempty, some .texts⟩,
      ⟨n6, .nonempty, some .cellMatrix⟩], (∀ c ∈ m.name, plain c) ∧ m.name ≠ tagLabel ∧ m.name ≠ typeLabel := by
    intro m hm
    have := good' m hm
    have nl := not_label this.2 []
    rw [List.append_nil] at nl
    exact ⟨this.1, nl⟩
  obtain ⟨j3, r3, l3⟩ := ints_lost size sizes
  obtain ⟨j1, r1, -⟩ := atom_reads .text (.text name) hname
  obtain ⟨j2, r2, -⟩ := atom_reads .texts (.texts axes) haxes
  obtain ⟨j4, r4, -⟩ := atom_reads .numbers (.numbers vals) hvals
  have e1 : (n3 == n1) = false := by simpa using h1
  have e2 : (n3 == n2) = false := by simpa using h2
  have hW : WritesWell (fun _ => False) (setStorable (fun _ x => writeAtom x) JsonDoc.default classes heap n) := fun r T p h => h.elim
  cases hA : putMany (fun _ x => writeAtom x) (setStorable (fun _ x => writeAtom x) JsonDoc.default classes heap n) (some Kind.texts) n5 0 (labels.map fun l => Item.atom (Atom.texts l)) [] with
  | none =>
    by_cases hne : Item.atom (Atom.text name) = dfltItem JsonDoc.default (some Kind.text)
    · simp only [writeString, archive, ho, hms, Option.bind_some, putMembers, putMember, put, hA, Option.bind_none, Option.map_none, if_pos hne, reduceCtorEq] at hw
    · simp only [writeString, archive, ho, hms, Option.bind_some, putMembers, putMember, put, hA, Option.bind_none, Option.map_none, if_neg hne, reduceCtorEq] at hw
  | some qA => _
  cases hB : putMany (fun _ x => writeAtom x) (setStorable (fun _ x => writeAtom x) JsonDoc.default classes heap n) (some Kind.cellMatrix) n6 0 (headers.map fun m => Item.atom (Atom.cellMatrix m)) qA.2 with
  | none =>
    by_cases hne : Item.atom (Atom.text name) = dfltItem JsonDoc.default (some Kind.text)
    · simp only [writeString, archive, ho, hms, Option.bind_some, putMembers, putMember, put, hA, hB, Option.bind_none, Option.map_none, if_pos hne, reduceCtorEq] at hw
    · simp only [writeString, archive, ho, hms, Option.bind_some, putMembers, putMember, put, hA, hB, Option.bind_none, Option.map_none, if_neg hne, reduceCtorEq] at hw
  | some qB => _
  obtain ⟨kA, tA⟩ := putMany_ok hW (some Kind.texts) n5 (good' ⟨n5, .nonempty, some .texts⟩ (by simp)) _ 0 [] (by
    intro it hit
    obtain ⟨l, hl, rfl⟩ := List.mem_map.1 hit
    exact hlabels l hl) (by intro p hp; cases hp) qA hA
  obtain ⟨kB, -⟩ := putMany_ok hW (some Kind.cellMatrix) n6 (good' ⟨n6, .nonempty, some .cellMatrix⟩ (by simp)) _ 0 qA.2 (by
    intro it hit
    obtain ⟨l, hl, rfl⟩ := List.mem_map.1 hit
    exact hheaders l hl) tA qB hB
  have tail : WritableKids ((n2, .atom (writeAtom (.texts axes))) :: (n3, .atom (writeAtom (.ints (size :: sizes)))) :: (n4, .atom (writeAtom (.numbers vals))) :: (qA.1 ++ qB.1)) := by
    simp only [WritableKids, Writable]
    exact ⟨good ⟨n2, .required, some .texts⟩ (by simp), ⟨_, r2⟩, good ⟨n3, .required, some .ints⟩ (by simp), ⟨_, r3⟩, good ⟨n4, .required, some .numbers⟩ (by simp), ⟨_, r4⟩, kids_append _ _ kA kB⟩
  have look : List.lookup n3 ((n2, Node.atom (writeAtom (.texts axes))) :: (n3, .atom (writeAtom (.ints (size :: sizes)))) :: (n4, .atom (writeAtom (.numbers vals))) :: (qA.1 ++ qB.1)) =
      some (.atom (writeAtom (.ints (size :: sizes)))) := by
    simp only [List.lookup_cons, e2, beq_self_eq_true]
  by_cases he : name = []
  · subst he
    simp only [writeString, archive, ho, hms, Option.bind_some, putMembers, putMember, put, dfltItem, JsonDoc.default, if_true, List.nil_append, List.cons_append, hA, hB, List.append_nil,
      Option.map_some, Option.some.injEq] at hw
    subst hw
    exact object_lost hms hc ht _ tail ⟨n3, .required, some .ints⟩ .ints (by simp) rfl rfl _ look j3 r3 l3 k
  · have hne : ¬(Item.atom (Atom.text name) = Item.atom (Atom.text [])) := by
      intro h; injection h with h; injection h with h; exact he h
    simp only [writeString, archive, ho, hms, Option.bind_some, putMembers, putMember, put, dfltItem, JsonDoc.default, if_neg hne, List.nil_append, List.cons_append, hA, hB, List.append_nil,
      Option.map_some, Option.some.injEq] at hw
    subst hw
    refine object_lost hms hc ht _ ?_ ⟨n3, .required, some .ints⟩ .ints (by simp) rfl rfl _ ?_ j3 r3 l3 k
    · rw [WritableKids, Writable]
      exact ⟨good ⟨n1, .optional, some .text⟩ (by simp), ⟨_, r1⟩, tail⟩
    · rw [List.lookup_cons, e1]; exact look

/-- C90, reports: no report with an axis can be read from the text written for it. -/
theorem C90_reports_violated (heap : Addr → Obj Atom) (a : Addr) (name : Archive.Str) (hname : ∀ c ∈ name, plain c)
    (axes : List Archive.Str) (haxes : ∀ s ∈ axes, ∀ c ∈ s, plain c) (size : Int) (sizes : List Int) (vals : List Rat) (hvals : ∀ q ∈ vals, SixDecimals q)
    (labels : List (List Archive.Str)) (hlabels : ∀ l ∈ labels, ∀ s ∈ l, ∀ c ∈ s, plain c) (headers : List (Mat Dict.Cell)) (hheaders : ∀ m ∈ headers, MatFits CellFits m)
    (ho : heap a = ⟨"Report_v1".toList, [.one (.atom (.text name)), .one (.atom (.texts axes)), .one (.atom (.ints (size :: sizes))), .one (.atom (.numbers vals)),
      .many (labels.map fun l => .atom (.texts l)), .many (headers.map fun m => .atom (.cellMatrix m))]⟩) (n : Nat) (txt : List Char)
    (hw : writeString libraryClasses heap n a = some txt) (k : Nat) : readString libraryClasses k txt = none :=
  report_lost _ "name".toList "axis_names".toList "sizes".toList "vals".toList "header_labels".toList "header_values".toList rfl C90_library (by decide) (by decide) (by decide)
    heap a name hname axes haxes size sizes vals hvals labels hlabels headers hheaders ho n txt hw k

private def report : Addr → Obj Atom := fun _ =>
  ⟨"Report_v1".toList, [.one (.atom (.text [])), .one (.atom (.texts ["time".toList])), .one (.atom (.ints [2])), .one (.atom (.numbers [1, 5 / 2])),
    .many [.atom (.texts ["t".toList])], .many [.atom (.cellMatrix ⟨1, [[.num 0], [.num 1]]⟩)]]⟩

example : ∃ txt, writeString libraryClasses report 3 0 = some txt ∧ ∀ k, readString libraryClasses k txt = none := by
  have h : (writeString libraryClasses report 3 0).isSome = true := by decide +kernel
  obtain ⟨txt, ht⟩ := Option.isSome_iff_exists.1 h
  refine ⟨txt, ht, C90_reports_violated report 0 [] (by simp) ["time".toList] ?_ 2 [] [1, 5 / 2] ?_ [["t".toList]] ?_ [⟨1, [[.num 0], [.num 1]]⟩] ?_ rfl 3 txt ht⟩
  · have : ∀ s ∈ ["time".toList], ∀ c ∈ s, c ≠ '"' ∧ c ≠ '\\' ∧ 32 ≤ c.toNat := by decide +kernel
    exact this
  · intro q hq
    rcases List.mem_pair.1 hq with rfl | rfl
    · exact ⟨1000000, by norm_num⟩
    · exact ⟨2500000, by norm_num⟩
  · have : ∀ l ∈ [["t".toList]], ∀ s ∈ l, ∀ c ∈ s, c ≠ '"' ∧ c ≠ '\\' ∧ 32 ≤ c.toNat := by decide +kernel
    exact this
  · intro m hm
    rw [List.mem_singleton.1 hm]
    refine ⟨by decide, by decide, by decide, ?_⟩
    intro r hr
    rcases List.mem_pair.1 hr with rfl | rfl
    · refine ⟨rfl, fun v hv => ?_⟩
      rw [List.mem_singleton.1 hv]
      exact ⟨0, by norm_num⟩
    · refine ⟨rfl, fun v hv => ?_⟩
      rw [List.mem_singleton.1 hv]
      exact ⟨1000000, by norm_num⟩

/-! ### A bag with the same model twice -/

private def bagHeap : Addr → Obj Atom := fun a =>
  if a = 0 then ⟨"Bag".toList, [.one (.atom (.text "pair".toList)), .many [.ref 1, .ref 1], .one (.atom (.texts ["a".toList, "b".toList]))]⟩
  else ⟨"BSModelData_v1".toList, [.one (.atom (.text [])), .one (.atom (.number 100)), .one (.atom (.number (1 / 5))), .one (.atom (.number 0)), .one (.atom (.number 0))]⟩

private theorem library_unambiguous {t : Archive.Str} {ms : List (Member Kind)} (h : libraryClasses t = some ms) : Unambiguous ms := (C88_library.2 _ (library_mem h)).2

private theorem bag_json : JsonHeap libraryClasses bagHeap (fun a => a < 2) (fun a => 1 - a) := by
  intro a ha
  have h2 : ∀ n : Nat, n < 2 → n = 0 ∨ n = 1 := fun n h => by omega
  rcases h2 a ha with rfl | rfl
  · refine ⟨by decide, ⟨_, rfl, library_unambiguous (t := "Bag".toList) rfl, ?_⟩, by decide⟩
    refine .cons (Or.inr ⟨rfl, Or.inr ?_⟩) (.cons ⟨Or.inl rfl, ?_⟩ (.cons (Or.inr ⟨rfl, Or.inr ?_⟩) .nil))
    · have : ∀ c ∈ "pair".toList, c ≠ '"' ∧ c ≠ '\\' ∧ 32 ≤ c.toNat := by decide +kernel
      exact this
    · intro x hx
      rcases List.mem_pair.1 hx with rfl | rfl <;> exact (by decide : (1 : Nat) < 2)
    · have : ∀ s ∈ ["a".toList, "b".toList], ∀ c ∈ s, c ≠ '"' ∧ c ≠ '\\' ∧ 32 ≤ c.toNat := by decide +kernel
      exact this
  · refine ⟨by decide, ⟨_, rfl, library_unambiguous (t := "BSModelData_v1".toList) rfl, ?_⟩, by decide⟩
    refine .cons (Or.inr ⟨rfl, Or.inl rfl⟩) (.cons (Or.inl ⟨rfl, ⟨100000000, by norm_num⟩⟩) (.cons (Or.inl ⟨rfl, ⟨200000, by norm_num⟩⟩)
      (.cons (Or.inl ⟨rfl, ⟨0, by norm_num⟩⟩) (.cons (Or.inl ⟨rfl, ⟨0, by norm_num⟩⟩) .nil))))

example : ∃ txt root' built phi, writeString libraryClasses bagHeap 5 0 = some txt ∧ readString libraryClasses 6 txt = some (root', built) ∧ phi 0 = some root' ∧
    (∀ a b y, phi a = some y → phi b = some y → a = b) ∧ (∀ y, y < built.heap.length → ∃ a, phi a = some y) ∧
    ∀ a y, phi a = some y → ∃ o, built.heap[y]? = some o ∧ o.type = (bagHeap a).type ∧ List.Forall₂ (ValueLike phi) (bagHeap a).vals o.vals :=
  C90_roundtrip_partial C90_library bag_json 0 (by decide : (0 : Nat) < 2) 5 (by decide)

/-- The bag holds the one model twice, before and after. -/
example : ((writeString libraryClasses bagHeap 5 0).bind (readString libraryClasses 6)).map (fun p => (p.1, p.2.heap)) =
    some (1, [bagHeap 1, ⟨"Bag".toList, [.one (.atom (.text "pair".toList)), .many [.ref 0, .ref 0], .one (.atom (.texts ["a".toList, "b".toList]))]⟩]) := by decide +kernel

/-! ### Texts that are read as something else -/

private def blackScholes (name : Archive.Str) (spot : Rat) : Addr → Obj Atom := fun _ =>
  ⟨"BSModelData_v1".toList, [.one (.atom (.text name)), .one (.atom (.number spot)), .one (.atom (.number (1 / 5))), .one (.atom (.number 0)), .one (.atom (.number 0))]⟩

/-- C90, names: a quote in a name ends it. The text can be unreadable, or the text of a different object. -/
theorem C90_names_violated :
    ((writeString libraryClasses (blackScholes "5\" index".toList 100) 3 0).bind (readString libraryClasses 4)).isSome = false ∧
    ((writeString libraryClasses (blackScholes "x\", \"spot\": 7.0, \"y\": \"".toList 100) 3 0).bind (readString libraryClasses 4)).map (fun p => p.2.heap) =
      some [blackScholes "x".toList 7 0] := by decide +kernel

example : ((writeString libraryClasses (blackScholes "x".toList 100) 3 0).bind (readString libraryClasses 4)).map (fun p => p.2.heap) = some [blackScholes "x".toList 100 0] := by decide +kernel

end Dal
