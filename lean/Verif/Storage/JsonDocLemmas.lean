import Verif.Storage.JsonDocModel
import Verif.Storage.JsonProps
import Verif.Storage.ArchiveProps

/-! # Texts of whole documents -/

namespace Dal
open Json Archive JsonDoc

/-! ### Texts that are read as values -/

/-- The text is read as this value, whatever follows, in steps that its length bounds. -/
def ReadsText (txt : List Char) (v : JVal) : Prop :=
  (∃ c r, txt = c :: r ∧ isWs c = false ∧ c ≠ ']') ∧
  ∀ fuel rest, txt.length < fuel → Follow rest → parseValue fuel (txt ++ rest) = some (v, rest)

theorem ReadsAs.text {txt : List Char} {v : JVal} (h : ReadsAs txt v) : ReadsText txt v := by
  refine ⟨h.1, fun fuel rest hf hr => ?_⟩
  obtain ⟨f, rfl⟩ : ∃ f, fuel = f + 1 := ⟨fuel - 1, by omega⟩
  exact h.2 f rest hr

theorem ReadsText.parse {txt : List Char} {v : JVal} (h : ReadsText txt v) : Json.parse txt = some v := by
  obtain ⟨⟨c, r, hc, hw, _⟩, h2⟩ := h
  have := h2 (txt.length + 1) [] (by omega) (by intro c hc; simp at hc)
  rw [List.append_nil] at this
  unfold Json.parse
  have hws : ws txt = txt := by rw [hc]; exact ws_cons hw
  rw [hws, this]
  simp [ws]

theorem reads_arr {V : Type} (w : V → List Char) (val : V → JVal) (vs : List V) (h : ∀ v ∈ vs, ReadsAs (w v) (val v)) :
    ReadsText (writeArr w vs) (.arr (vs.map val)) := by
  refine ⟨⟨'[', _, rfl, by decide, by decide⟩, fun fuel rest hf _ => ?_⟩
  have hne : ∀ v ∈ vs, w v ≠ [] := by
    intro v hv
    obtain ⟨⟨c, r, hc, -⟩, -⟩ := h v hv
    rw [hc]; simp
  have hl := writeSep_length w [','] true vs hne
  unfold writeArr at hf ⊢
  simp only [List.length_cons, List.length_append, List.length_nil] at hf
  obtain ⟨f, rfl⟩ : ∃ f, fuel = f + 1 := ⟨fuel - 1, by omega⟩
  have := parse_array w val [','] (Or.inl rfl) vs h f (by omega) rest
  rw [← this]
  simp

/-! ### Texts of objects -/

/-- The members after the first, with the end of the object. -/
def tailText : List (List Char × List Char) → List Char
  | [] => ['}']
  | (n, t) :: r => ',' :: '\n' :: '"' :: (n ++ '"' :: ':' :: ' ' :: (t ++ tailText r))

/-- The members, with the end of the object. -/
def memText : List (List Char × List Char) → List Char
  | [] => ['}']
  | (n, t) :: r => '"' :: (n ++ '"' :: ':' :: ' ' :: (t ++ tailText r))

/-- Members with texts that are read as these values. -/
def ReadMembers : List (List Char × List Char) → List (List Char × JVal) → Prop :=
  List.Forall₂ fun p q => p.1 = q.1 ∧ (∀ c ∈ p.1, plain c) ∧ ReadsText p.2 q.2

theorem parse_members : ∀ (r : List (List Char × List Char)) (vs : List (List Char × JVal)), ReadMembers r vs → ∀ (n t : List Char) (v : JVal), (∀ c ∈ n, plain c) → ReadsText t v →
    ∀ (fuel : Nat) (rest : List Char), (memText ((n, t) :: r)).length < fuel → parseMembers fuel (memText ((n, t) :: r) ++ rest) = some ((n, v) :: vs, rest) := by
  intro r vs h
  induction h with
  | nil =>
    intro n t v hn ht fuel rest hf
    simp only [memText, tailText, List.length_cons, List.length_append, List.length_nil] at hf
    obtain ⟨f, rfl⟩ : ∃ f, fuel = f + 2 := ⟨fuel - 2, by omega⟩
    obtain ⟨c, s, hc, hw, -⟩ := ht.1
    have := (parseMembers_step f n t rest v hn '}' (by decide) (ht.2 _ _ (by omega) (follow_sep _ (by simp))) ⟨c, s, hc, hw⟩).2 rfl
    rw [← this]
    simp [memText, tailText]
  | cons hp hr ih =>
    rename_i p q r vs
    intro n t v hn ht fuel rest hf
    obtain ⟨pn, pt⟩ := p
    obtain ⟨qn, qv⟩ := q
    obtain ⟨e, hpl, hpt⟩ := hp
    dsimp only at e hpl hpt
    subst e
    simp only [memText, tailText, List.length_cons, List.length_append] at hf
    obtain ⟨f, rfl⟩ : ∃ f, fuel = f + 2 := ⟨fuel - 2, by omega⟩
    obtain ⟨c, s, hc, hw, -⟩ := ht.1
    have h1 := (parseMembers_step f n t ('\n' :: (memText ((pn, pt) :: r) ++ rest)) v hn ',' (by decide) (ht.2 _ _ (by omega) (follow_sep _ (by simp))) ⟨c, s, hc, hw⟩).1 rfl
    have h2 := ih pn pt qv hpl hpt (f + 1) rest (by simp only [memText, List.length_cons, List.length_append]; omega)
    have h3 : parseMembers (f + 1) ('\n' :: (memText ((pn, pt) :: r) ++ rest)) = parseMembers (f + 1) (memText ((pn, pt) :: r) ++ rest) := by
      rw [memText, List.cons_append]
      exact parseMembers_nl f _
    rw [h3, h2] at h1
    have e : memText ((n, t) :: (pn, pt) :: r) ++ rest = '"' :: (n ++ '"' :: ':' :: ' ' :: (t ++ ',' :: '\n' :: (memText ((pn, pt) :: r) ++ rest))) := by
      simp [memText, tailText]
    rw [e, h1]
    rfl

/-- An object with a character of white space after the brace. -/
theorem reads_object (sp : Char) (hsp : sp = ' ' ∨ sp = '\n') (ms : List (List Char × List Char)) (vs : List (List Char × JVal)) (h : ReadMembers ms vs) (hne : ms ≠ []) :
    ReadsText ('{' :: sp :: memText ms) (.obj vs) := by
  refine ⟨⟨'{', _, rfl, by decide, by decide⟩, fun fuel rest hf _ => ?_⟩
  cases h with
  | nil => exact absurd rfl hne
  | cons hp hr =>
    rename_i p q ms vs
    obtain ⟨n, t⟩ := p
    obtain ⟨n', v⟩ := q
    obtain ⟨e, hpl, hpt⟩ := hp
    dsimp only at e hpl hpt
    subst e
    simp only [List.length_cons] at hf
    obtain ⟨f, rfl⟩ : ∃ f, fuel = f + 1 := ⟨fuel - 1, by omega⟩
    have h2 := parse_members ms vs hr n t v hpl hpt f rest (by omega)
    have hobj : parseValue (f + 1) ('{' :: sp :: memText ((n, t) :: ms) ++ rest) = (parseMembers f (memText ((n, t) :: ms) ++ rest)).map fun x => (.obj x.1, x.2) := by
      rw [memText, List.cons_append, List.cons_append, List.cons_append, parseValue.eq_def]
      simp only
      rcases hsp with rfl | rfl
      · rw [(ws_skip _).1]; rfl
      · rw [(ws_skip _).2]; rfl
    rw [hobj, h2]
    rfl

theorem reads_mat {V : Type} (w : V → List Char) (val : V → JVal) (cols : Nat) (hc : cols ≤ 2147483647) (rows : List (List V)) (hr : rows.length ≤ 2147483647)
    (h : ∀ r ∈ rows, ∀ v ∈ r, ReadsAs (w v) (val v)) :
    ReadsText (writeMat w cols rows) (.obj [("rows".toList, .int rows.length), ("cols".toList, .int cols), ("vals".toList, .arr (rows.flatten.map val))]) := by
  have harr : ReadsText ('[' :: (writeSep [',', ' '] w true rows.flatten ++ [']'])) (.arr (rows.flatten.map val)) := by
    have h' : ∀ v ∈ rows.flatten, ReadsAs (w v) (val v) := fun v hv => by
      obtain ⟨r, hr, hvr⟩ := List.mem_flatten.1 hv
      exact h r hr v hvr
    refine ⟨⟨'[', _, rfl, by decide, by decide⟩, fun fuel rest hf _ => ?_⟩
    have hne : ∀ v ∈ rows.flatten, w v ≠ [] := by
      intro v hv
      obtain ⟨⟨c, r, hc, -⟩, -⟩ := h' v hv
      rw [hc]; simp
    have hl := writeSep_length w [',', ' '] true rows.flatten hne
    simp only [List.length_cons, List.length_append, List.length_nil] at hf
    obtain ⟨f, rfl⟩ : ∃ f, fuel = f + 1 := ⟨fuel - 1, by omega⟩
    have := parse_array w val [',', ' '] (Or.inr rfl) rows.flatten h' f (by omega) rest
    rw [← this]
    simp
  have := reads_object ' ' (Or.inl rfl) [("rows".toList, Nat.toDigits 10 rows.length), ("cols".toList, Nat.toDigits 10 cols), ("vals".toList, '[' :: (writeSep [',', ' '] w true rows.flatten ++ [']']))]
    [("rows".toList, .int rows.length), ("cols".toList, .int cols), ("vals".toList, .arr (rows.flatten.map val))]
    (.cons ⟨rfl, plain_names.1, (reads_nat _ hr).text⟩ (.cons ⟨rfl, plain_names.2.1, (reads_nat _ hc).text⟩ (.cons ⟨rfl, plain_names.2.2, harr⟩ .nil))) (by simp)
  have e : writeMat w cols rows = '{' :: ' ' :: memText [("rows".toList, Nat.toDigits 10 rows.length), ("cols".toList, Nat.toDigits 10 cols), ("vals".toList, '[' :: (writeSep [',', ' '] w true rows.flatten ++ [']']))] := by
    rw [writeMat_text]
    simp [memText, tailText]
  rw [e]
  exact this

/-! ### Texts of documents -/

mutual
/-- What the document should be. -/
def docOf : Node (List Char) → JVal
  | .atom e => match Json.parse e with
    | some v => v
    | none => .null
  | .obj tag type kids =>
    .obj ((if tag = [] then [] else [(tagLabel, .str tag)]) ++ ((if type = [] then [] else [(typeLabel, .str type)]) ++ docKids kids))
def docKids : List (List Char × Node (List Char)) → List (List Char × JVal)
  | [] => []
  | (name, t) :: rest => (name, docOf t) :: docKids rest
end

mutual
/-- Every value can be read, and names, types and tags are plain texts. -/
def Writable : Node (List Char) → Prop
  | .atom e => ∃ v, ReadsText e v
  | .obj tag type kids => (∀ c ∈ tag, plain c) ∧ (∀ c ∈ type, plain c) ∧ (tag ≠ [] ∨ type ≠ []) ∧ WritableKids kids
def WritableKids : List (List Char × Node (List Char)) → Prop
  | [] => True
  | (name, t) :: rest => ((∀ c ∈ name, plain c) ∧ name ≠ tagLabel ∧ name ≠ typeLabel) ∧ Writable t ∧ WritableKids rest
end

/-- The texts of children. -/
def kidTexts : List (List Char × Node (List Char)) → List (List Char × List Char)
  | [] => []
  | (name, t) :: rest => (name, writeNode t) :: kidTexts rest

theorem writeKids_text : ∀ kids, writeKids false kids ++ ['}'] = tailText (kidTexts kids) := by
  intro kids
  induction kids with
  | nil => rw [writeKids, kidTexts, tailText]; rfl
  | cons p kids ih =>
    obtain ⟨name, t⟩ := p
    rw [writeKids, kidTexts, tailText, ← ih, label, prep, if_neg (by decide)]
    simp

theorem labels_plain : (∀ c ∈ tagLabel, plain c) ∧ (∀ c ∈ typeLabel, plain c) := by
  unfold plain tagLabel typeLabel; decide +kernel

mutual
/-- The text of a document is read as the document. -/
theorem reads_node : ∀ node, Writable node → ReadsText (writeNode node) (docOf node)
  | .atom e, h => by
    rw [Writable] at h
    obtain ⟨v, hv⟩ := h
    rw [writeNode, docOf, hv.parse]
    exact hv
  | .obj tag type kids, h => by
    rw [Writable] at h
    obtain ⟨h1, h2, h3, h4⟩ := h
    have hk := reads_kids kids h4
    have htag : ReadsText (writeStr tag) (.str tag) := (reads_str tag h1).text
    have htype : ReadsText (writeStr type) (.str type) := (reads_str type h2).text
    rw [docOf, writeNode]
    by_cases ht : tag = []
    · have hty : type ≠ [] := by
        rcases h3 with h | h
        · exact absurd ht h
        · exact h
      have := reads_object '\n' (Or.inr rfl) ((typeLabel, writeStr type) :: kidTexts kids) ((typeLabel, .str type) :: docKids kids) (.cons ⟨rfl, labels_plain.2, htype⟩ hk) (by simp)
      rw [memText, ← writeKids_text] at this
      simpa [ht, hty, label, prep] using this
    · by_cases hty : type = []
      · have := reads_object '\n' (Or.inr rfl) ((tagLabel, writeStr tag) :: kidTexts kids) ((tagLabel, .str tag) :: docKids kids) (.cons ⟨rfl, labels_plain.1, htag⟩ hk) (by simp)
        rw [memText, ← writeKids_text] at this
        simpa [ht, hty, label, prep] using this
      · have := reads_object '\n' (Or.inr rfl) ((tagLabel, writeStr tag) :: (typeLabel, writeStr type) :: kidTexts kids) ((tagLabel, .str tag) :: (typeLabel, .str type) :: docKids kids)
          (.cons ⟨rfl, labels_plain.1, htag⟩ (.cons ⟨rfl, labels_plain.2, htype⟩ hk)) (by simp)
        rw [memText, tailText, ← writeKids_text] at this
        simpa [ht, hty, label, prep] using this
theorem reads_kids : ∀ kids, WritableKids kids → ReadMembers (kidTexts kids) (docKids kids)
  | [], _ => by rw [kidTexts, docKids]; exact .nil
  | (name, t) :: rest, h => by
    rw [WritableKids] at h
    rw [kidTexts, docKids]
    exact .cons ⟨rfl, h.1.1, reads_node t h.2.1⟩ (reads_kids rest h.2.2)
end

/-! ### Reading the document like the store -/

/-- Values of members as read from their texts. -/
def decText (k : Kind) (e : List Char) : Option Atom := (Json.parse e).bind (readAtom k)

/-- Names of members begin with a letter and are plain, as are the types. -/
def GoodNames (classes : Archive.Str → Option (List (Member Kind))) : Prop :=
  ∀ type ms, classes type = some ms → (∀ c ∈ type, plain c) ∧ ∀ m ∈ ms, (∀ c ∈ m.name, plain c) ∧ ∃ c r, m.name = c :: r ∧ c.isAlpha = true

theorem not_label {name : List Char} (h : ∃ c r, name = c :: r ∧ c.isAlpha = true) (s : List Char) : name ++ s ≠ tagLabel ∧ name ++ s ≠ typeLabel := by
  obtain ⟨c, r, rfl, hc⟩ := h
  constructor
  · intro e
    obtain rfl : c = '$' := (List.cons.inj (e : c :: (r ++ s) = '$' :: ['t', 'a', 'g'])).1
    revert hc; decide
  · intro e
    obtain rfl : c = '~' := (List.cons.inj (e : c :: (r ++ s) = '~' :: ['t', 'y', 'p', 'e'])).1
    revert hc; decide

theorem find_kids (name : List Char) : ∀ kids, ((docKids kids).find? fun m => m.1 == name).map Prod.snd = (kids.lookup name).map docOf
  | [] => by rw [docKids]; rfl
  | (s, t) :: rest => by
    rw [docKids, List.find?_cons, List.lookup_cons]
    by_cases h : s = name
    · subst h; simp
    · have h1 : (s == name) = false := by simpa using h
      have h2 : (name == s) = false := by simpa using fun e => h e.symm
      simp only [h1, h2]
      exact find_kids name rest

theorem member_doc (tag type : List Char) (kids : List (List Char × Node (List Char))) (name : List Char) (h1 : name ≠ tagLabel) (h2 : name ≠ typeLabel) :
    member name (docOf (.obj tag type kids)) = (kids.lookup name).map docOf := by
  have e1 : (tagLabel == name) = false := by simpa using fun e => h1 e.symm
  have e2 : (typeLabel == name) = false := by simpa using fun e => h2 e.symm
  rw [docOf, member, ← find_kids]
  congr 1
  by_cases ht : tag = [] <;> by_cases hty : type = [] <;> simp [ht, hty, e1, e2]

theorem lookup_label (name : List Char) : ∀ kids, WritableKids kids → name = tagLabel ∨ name = typeLabel → kids.lookup name = none
  | [], _, _ => rfl
  | (s, t) :: rest, h, hn => by
    rw [WritableKids] at h
    have : (name == s) = false := by
      rcases hn with rfl | rfl
      · simpa using fun e => h.1.2.1 e.symm
      · simpa using fun e => h.1.2.2 e.symm
    rw [List.lookup_cons, this]
    exact lookup_label name rest h.2.2 hn

theorem view_doc (tag type : List Char) (kids : List (List Char × Node (List Char))) (h : WritableKids kids) :
    viewText tagLabel (docOf (.obj tag type kids)) = some tag ∧ viewText typeLabel (docOf (.obj tag type kids)) = some type := by
  have e1 : (typeLabel == tagLabel) = false := by decide
  have e2 : (tagLabel == typeLabel) = false := by decide
  have k1 := find_kids tagLabel kids
  have k2 := find_kids typeLabel kids
  rw [lookup_label _ _ h (Or.inl rfl)] at k1
  rw [lookup_label _ _ h (Or.inr rfl)] at k2
  simp only [Option.map_none, Option.map_eq_none_iff] at k1 k2
  rw [docOf]
  simp only [viewText, member]
  constructor
  · by_cases ht : tag = [] <;> by_cases hty : type = [] <;> simp only [ht, hty, if_true, if_false, List.nil_append, List.cons_append, List.find?_cons, e1, e2, k1, k2, beq_self_eq_true,
      Option.map_none, Option.map_some, eString]
  · by_cases ht : tag = [] <;> by_cases hty : type = [] <;> simp only [ht, hty, if_true, if_false, List.nil_append, List.cons_append, List.find?_cons, e1, e2, k1, k2, beq_self_eq_true,
      Option.map_none, Option.map_some, eString]

theorem kids_length : ∀ kids, (docKids kids).length = kids.length
  | [] => by rw [docKids]; rfl
  | (_, _) :: rest => by rw [docKids, List.length_cons, List.length_cons, kids_length rest]

theorem kids_writable (name : List Char) (t : Node (List Char)) : ∀ kids, WritableKids kids → kids.lookup name = some t → Writable t
  | [], _, h => by cases h
  | (s, u) :: rest, h, hl => by
    rw [WritableKids] at h
    rw [List.lookup_cons] at hl
    split at hl
    · cases hl; exact h.2.1
    · exact kids_writable name t rest h.2.2 hl

section
variable {X : Node (List Char) → Built Atom → Option (Addr × Built Atom)} {XJ : JVal → Built Atom → Option (Addr × Built Atom)}

theorem getItem_sim (hX : ∀ node b r, Writable node → X node b = some r → XJ (docOf node) b = some r) (kind : Option Kind) (node : Node (List Char)) (b : Built Atom) (r : Item Atom × Built Atom)
    (hw : Writable node) (h : Archive.getItem decText X kind node b = some r) : JsonDoc.getItem XJ kind (docOf node) b = some r := by
  cases kind with
  | none =>
    simp only [Archive.getItem, Option.bind_eq_some_iff] at h
    obtain ⟨p, h1, h2⟩ := h
    simp only [JsonDoc.getItem, hX node b p hw h1, Option.bind_some]
    exact h2
  | some k =>
    cases node with
    | obj => simp [Archive.getItem] at h
    | atom e =>
      rw [Writable] at hw
      obtain ⟨v, hv⟩ := hw
      simp only [Archive.getItem, decText, hv.parse, Option.bind_some] at h
      rw [docOf, hv.parse]
      exact h

theorem getMany_sim (hX : ∀ node b r, Writable node → X node b = some r → XJ (docOf node) b = some r) (kind : Option Kind) (tag type : List Char) (kids : List (List Char × Node (List Char)))
    (hw : WritableKids kids) (name : List Char) (hn : ∃ c r, name = c :: r ∧ c.isAlpha = true) : ∀ (fuel fuel' i : Nat) (b : Built Atom) (r : List (Item Atom) × Built Atom), fuel ≤ fuel' →
    Archive.getMany decText X kind (fun s => kids.lookup s) name fuel i b = some r → JsonDoc.getMany XJ kind (docOf (.obj tag type kids)) name fuel' i b = some r := by
  intro fuel
  induction fuel with
  | zero => intro _ _ _ _ _ h; simp [Archive.getMany] at h
  | succ fuel ih =>
    intro fuel' i b r hf h
    obtain ⟨f, rfl⟩ : ∃ f, fuel' = f + 1 := ⟨fuel' - 1, by omega⟩
    rw [Archive.getMany] at h
    rw [JsonDoc.getMany, member_doc _ _ _ _ (not_label hn _).1 (not_label hn _).2]
    cases hl : kids.lookup (name ++ digits i) with
    | none => simp only [hl] at h; exact h
    | some node =>
      simp only [hl, Option.bind_eq_some_iff] at h
      obtain ⟨p, h1, q, h2, h3⟩ := h
      simp only [Option.map_some, getItem_sim hX kind node b p (kids_writable _ _ _ hw hl) h1, Option.bind_some, ih f (i + 1) p.2 q (by omega) h2]
      exact h3

theorem getMember_sim (hX : ∀ node b r, Writable node → X node b = some r → XJ (docOf node) b = some r) (tag type : List Char) (kids : List (List Char × Node (List Char)))
    (hw : WritableKids kids) (m : Member Kind) (hn : ∃ c r, m.name = c :: r ∧ c.isAlpha = true) (b : Built Atom) (r : Value Atom × Built Atom)
    (h : Archive.getMember decText default X (fun s => kids.lookup s) (kids.length + 1) m b = some r) : JsonDoc.getMember XJ (docOf (.obj tag type kids)) m b = some r := by
  have hcount : kids.length ≤ memberCount (docOf (.obj tag type kids)) := by
    rw [docOf]
    simp only [memberCount, List.length_append, kids_length]
    omega
  have hnl := not_label hn []
  rw [List.append_nil] at hnl
  have hmem := member_doc tag type kids m.name hnl.1 hnl.2
  rw [Archive.getMember] at h
  rw [JsonDoc.getMember]
  cases hm : m.mode with
  | required =>
    simp only [hm, Option.bind_eq_some_iff] at h ⊢
    obtain ⟨node, h1, p, h2, h3⟩ := h
    exact ⟨docOf node, by rw [hmem, h1]; rfl, p, getItem_sim hX m.kind node b p (kids_writable _ _ _ hw h1) h2, h3⟩
  | optional =>
    simp only [hm] at h ⊢
    rw [hmem]
    cases hl : kids.lookup m.name with
    | none => simp only [hl] at h; exact h
    | some node =>
      simp only [hl, Option.bind_eq_some_iff] at h
      obtain ⟨p, h1, h2⟩ := h
      simp only [Option.map_some, getItem_sim hX m.kind node b p (kids_writable _ _ _ hw hl) h1, Option.bind_some]
      exact h2
  | multiple =>
    simp only [hm, Option.bind_eq_some_iff] at h ⊢
    obtain ⟨p, h1, h2⟩ := h
    exact ⟨p, getMany_sim hX m.kind tag type kids hw m.name hn _ _ _ _ _ (by omega) h1, h2⟩
  | nonempty =>
    simp only [hm, Option.bind_eq_some_iff] at h ⊢
    obtain ⟨p, h1, h2⟩ := h
    exact ⟨p, getMany_sim hX m.kind tag type kids hw m.name hn _ _ _ _ _ (by omega) h1, h2⟩

theorem getMembers_sim (hX : ∀ node b r, Writable node → X node b = some r → XJ (docOf node) b = some r) (tag type : List Char) (kids : List (List Char × Node (List Char)))
    (hw : WritableKids kids) : ∀ (ms : List (Member Kind)), (∀ m ∈ ms, ∃ c r, m.name = c :: r ∧ c.isAlpha = true) → ∀ (b : Built Atom) (r : List (Value Atom) × Built Atom),
    Archive.getMembers decText default X (fun s => kids.lookup s) (kids.length + 1) ms b = some r → JsonDoc.getMembers XJ (docOf (.obj tag type kids)) ms b = some r := by
  intro ms
  induction ms with
  | nil => intro _ b r h; exact h
  | cons m ms ih =>
    intro hn b r h
    simp only [Archive.getMembers, Option.bind_eq_some_iff] at h
    obtain ⟨p, h1, q, h2, h3⟩ := h
    simp only [JsonDoc.getMembers, getMember_sim hX tag type kids hw m (hn m (by simp)) b p h1, Option.bind_some, ih (fun m hm => hn m (by simp [hm])) p.2 q h2]
    exact h3
end

/-- Reading the document is reading the store. -/
theorem extract_sim (classes : Archive.Str → Option (List (Member Kind))) (hc : GoodNames classes) : ∀ (n : Nat) (node : Node (List Char)) (b : Built Atom) (r : Addr × Built Atom), Writable node →
    Archive.extract decText default classes n node b = some r → JsonDoc.extract classes n (docOf node) b = some r := by
  intro n
  induction n with
  | zero => intro _ _ _ _ h; simp [Archive.extract] at h
  | succ n ih =>
    intro node b r hw h
    cases node with
    | atom e => simp [Archive.extract] at h
    | obj tag type kids =>
      rw [Writable] at hw
      rw [Archive.extract] at h
      rw [JsonDoc.extract, (view_doc tag type kids hw.2.2.2).1, (view_doc tag type kids hw.2.2.2).2, Option.bind_some]
      cases hk : b.known tag with
      | some a => simp only [hk] at h ⊢; exact h
      | none =>
        simp only [hk, Option.bind_some] at h ⊢
        by_cases ht : type = []
        · rw [if_pos ht] at h; cases h
        · rw [if_neg ht] at h ⊢
          simp only [Option.bind_eq_some_iff] at h ⊢
          obtain ⟨ms, h1, p, h2, h3⟩ := h
          exact ⟨ms, h1, p, getMembers_sim (fun node b r => ih node b r) tag type kids hw.2.2.2 ms (fun m hm => ((hc type ms h1).2 m hm).2) b p h2, h3⟩

end Dal
