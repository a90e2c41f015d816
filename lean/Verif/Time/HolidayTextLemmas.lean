import Verif.Time.HolidayTextModel
import Verif.Time.HolidaysLemmas
import Verif.Strings.StringProps

/-! # Lemmas on calendars named by text -/

namespace Dal.HolText
open Dal Dal.Strings Dal.Hol

variable {sgn : Bool}

/-- `w` is a word of the text: non-empty, free of the separator, and bounded by separators or the ends. -/
def Word {α : Type} (sep : α) (src w : List α) : Prop :=
  w ≠ [] ∧ sep ∉ w ∧ ∃ pre post, src = pre ++ w ++ post ∧ (pre = [] ∨ ∃ p, pre = p ++ [sep]) ∧
    (post = [] ∨ ∃ p, post = sep :: p)

theorem sep_split_unique {α : Type} {sep : α} {p q r t : List α} (hp : sep ∉ p)
    (h : q ++ sep :: t = p ++ sep :: r) :
    (q = p ∧ t = r) ∨ ∃ q', q = p ++ sep :: q' ∧ r = q' ++ sep :: t := by
  rcases List.append_eq_append_iff.1 h with ⟨a, ha, hb⟩ | ⟨a, ha, hb⟩
  · cases a with
    | nil => left; simp only [List.append_nil] at ha; simp only [List.nil_append, List.cons.injEq, true_and] at hb
             exact ⟨ha.symm, hb⟩
    | cons x a =>
      simp only [List.cons_append, List.cons.injEq] at hb
      exact absurd (by rw [ha, hb.1]; simp) hp
  · cases a with
    | nil => left; simp only [List.append_nil] at ha; simp only [List.nil_append, List.cons.injEq, true_and] at hb
             exact ⟨ha, hb.symm⟩
    | cons x a =>
      simp only [List.cons_append, List.cons.injEq] at hb
      right; exact ⟨a, by rw [ha, hb.1], hb.2⟩

theorem word_cons {α : Type} {sep : α} {p r w : List α} (hp : sep ∉ p) :
    Word sep (p ++ sep :: r) w ↔ (p ≠ [] ∧ w = p) ∨ Word sep r w := by
  constructor
  · rintro ⟨hne, hs, pre, post, e, h1, h2⟩
    rcases h1 with rfl | ⟨q, rfl⟩
    · rcases h2 with rfl | ⟨t, rfl⟩
      · exfalso; apply hs
        simp only [List.nil_append, List.append_nil] at e
        rw [← e]; simp
      · simp only [List.nil_append] at e
        rcases sep_split_unique hp e.symm with ⟨rfl, rfl⟩ | ⟨q', rfl, _⟩
        · exact .inl ⟨hne, rfl⟩
        · exact absurd (by simp) hs
    · have e' : q ++ sep :: (w ++ post) = p ++ sep :: r := by rw [e]; simp
      rcases sep_split_unique hp e' with ⟨rfl, rfl⟩ | ⟨q', rfl, rfl⟩
      · exact .inr ⟨hne, hs, [], post, by simp, .inl rfl, h2⟩
      · exact .inr ⟨hne, hs, q' ++ [sep], post, by simp, .inr ⟨q', rfl⟩, h2⟩
  · rintro (⟨h, rfl⟩ | ⟨hne, hs, pre, post, rfl, h1, h2⟩)
    · exact ⟨h, hp, [], sep :: r, by simp, .inl rfl, .inr ⟨r, rfl⟩⟩
    · refine ⟨hne, hs, p ++ sep :: pre, post, by simp, .inr ?_, h2⟩
      rcases h1 with rfl | ⟨q, rfl⟩
      · exact ⟨p, rfl⟩
      · exact ⟨p ++ sep :: q, by simp⟩

theorem word_last {α : Type} {sep : α} {p w : List α} (hp : sep ∉ p) :
    Word sep p w ↔ p ≠ [] ∧ w = p := by
  constructor
  · rintro ⟨hne, hs, pre, post, e, h1, h2⟩
    rcases h1 with rfl | ⟨q, rfl⟩
    · rcases h2 with rfl | ⟨t, rfl⟩
      · simp only [List.nil_append, List.append_nil] at e
        subst e; exact ⟨hne, rfl⟩
      · exact absurd (by rw [e]; simp) hp
    · exact absurd (by rw [e]; simp) hp
  · rintro ⟨h, rfl⟩
    exact ⟨h, hp, [], [], by simp, .inl rfl, .inl rfl⟩

/-- The pieces of a split that drops empty ones are the words. -/
theorem mem_split {α : Type} [DecidableEq α] (sep : α) (src w : List α) :
    w ∈ split sep false src ↔ Word sep src w := by
  induction hn : src.length using Nat.strong_induction_on generalizing src with
  | _ n ih =>
    by_cases hs : sep ∈ src
    · obtain ⟨p, r, hp, rfl⟩ : ∃ p r, sep ∉ p ∧ src = p ++ sep :: r := by
        obtain ⟨p, r, h1, h2⟩ := List.eq_append_cons_of_mem hs
        exact ⟨p, r, h2, h1⟩
      have hlen : r.length < n := by rw [← hn]; simp; omega
      rw [split_piece sep false p r hp, word_cons hp, ← ih r.length hlen r rfl]
      by_cases h : p = [] <;> simp [h]
    · rw [split_last _ _ _ hs, word_last hs]
      by_cases h : src = [] <;> simp [h]

/-! ### Names in order, without repetition -/

theorem dedup_mem (l : List Str) : ∀ x ∈ dedup sgn l, x ∈ l := by
  induction hn : l.length using Nat.strong_induction_on generalizing l with
  | _ n ih =>
    match l, hn with
    | [], _ => simp [dedup]
    | [y], _ => simp [dedup]
    | y :: z :: r, hn =>
      rw [dedup]
      split
      · intro x hx
        have := ih (y :: r).length (by simp at hn ⊢; omega) _ rfl x hx
        simp only [List.mem_cons] at this ⊢; tauto
      · intro x hx
        rcases List.mem_cons.1 hx with rfl | hx
        · simp
        · exact List.mem_cons_of_mem _ (ih (z :: r).length (by simp at hn ⊢; omega) _ rfl x hx)

theorem dedup_cover (l : List Str) : ∀ x ∈ l, ∃ y ∈ dedup sgn l, eqS sgn y x = true := by
  have refl : ∀ x, eqS sgn x x = true := fun x => (C15_eq_equivalence sgn).refl x
  induction hn : l.length using Nat.strong_induction_on generalizing l with
  | _ n ih =>
    match l, hn with
    | [], _ => simp
    | [y], _ => intro x hx; exact ⟨y, by simp [dedup], by rw [List.mem_singleton.1 hx]; exact refl _⟩
    | y :: z :: r, hn =>
      rw [dedup]
      split
      · rename_i h
        have I := ih (y :: r).length (by simp at hn ⊢; omega) _ rfl
        intro x hx
        rcases List.mem_cons.1 hx with rfl | hx
        · exact I x (by simp)
        · rcases List.mem_cons.1 hx with rfl | hx
          · obtain ⟨t, ht, he⟩ := I y (by simp)
            exact ⟨t, ht, (C15_eq_equivalence sgn).trans he h⟩
          · exact I x (by simp [hx])
      · have I := ih (z :: r).length (by simp at hn ⊢; omega) _ rfl
        intro x hx
        rcases List.mem_cons.1 hx with rfl | hx
        · exact ⟨x, by simp, refl x⟩
        · obtain ⟨t, ht, he⟩ := I x hx
          exact ⟨t, by simp [ht], he⟩

theorem dedup_sorted (l : List Str) (h : l.Pairwise fun a b => ltS sgn b a = false) :
    (dedup sgn l).Pairwise fun a b => ltS sgn a b = true := by
  induction hn : l.length using Nat.strong_induction_on generalizing l with
  | _ n ih =>
    match l, hn, h with
    | [], _, _ => simp [dedup]
    | [y], _, _ => simp [dedup]
    | y :: z :: r, hn, h =>
      obtain ⟨h1, h2⟩ := List.pairwise_cons.1 h
      obtain ⟨h3, h4⟩ := List.pairwise_cons.1 h2
      rw [dedup]
      split
      · exact ih (y :: r).length (by simp at hn ⊢; omega) _
          (List.pairwise_cons.2 ⟨fun x hx => h1 x (by simp [hx]), h4⟩) rfl
      · rename_i hne
        refine List.pairwise_cons.2 ⟨fun x hx => ?_, ih (z :: r).length (by simp at hn ⊢; omega) _ h2 rfl⟩
        have hyz : ltS sgn y z = true := by
          rcases C15_lt_total sgn y z with t | t | t
          · exact t.1
          · exact absurd t.2.1 hne
          · have := h1 z (by simp); rw [t.2.2] at this; cases this
        have hx' := dedup_mem _ x hx
        rcases List.mem_cons.1 hx' with rfl | hx'
        · exact hyz
        · rcases C15_lt_total sgn z x with t | t | t
          · exact C15_lt_trans sgn hyz t.1
          · rw [← C15_lt_congr sgn ((C15_eq_equivalence sgn).refl y) t.2.1]; exact hyz
          · have := h3 x hx'; rw [t.2.2] at this; cases this

/-! ### Names of lists of centres -/

/-- Centres of the registry in strict order of names that are words. -/
structure Canon (sgn : Bool) (reg cs : List TCenter) : Prop where
  sub : ∀ c ∈ cs, c ∈ reg
  names : ∀ c ∈ cs, c.name ≠ [] ∧ ' ' ∉ c.name
  sorted : cs.Pairwise fun a b => ltS sgn a.name b.name = true

theorem sortVal_space (c : Char) : sortVal sgn c = 32 ↔ c = ' ' := by
  constructor
  · intro h
    unfold sortVal at h
    rw [ciOrder_eq] at h
    dsimp only at h
    have : c.toNat = 32 := by
      split_ifs at h <;> omega
    exact Char.toNat_inj.1 (by rw [this]; rfl)
  · rintro rfl; cases sgn <;> decide +kernel

theorem map_intercalate {α β : Type} (f : α → β) (sep : List α) (ps : List (List α)) :
    (sep.intercalate ps).map f = (sep.map f).intercalate (ps.map (List.map f)) := by
  induction ps with
  | nil => rfl
  | cons p ps ih =>
    cases ps with
    | nil => simp [List.intercalate]
    | cons q ps =>
      simp only [List.intercalate, List.intersperse_cons_cons, List.flatten_cons, List.map_append,
        List.map_cons] at ih ⊢
      rw [ih]

theorem nameOf_canon {reg cs : List TCenter} (h : Canon sgn reg cs) :
    nameOf cs = [' '].intercalate (cs.map TCenter.name) := by
  unfold nameOf
  rw [C18_join_skip, List.filter_eq_self.2]
  intro p hp
  obtain ⟨c, hc, rfl⟩ := List.mem_map.1 hp
  simp [(h.names c hc).1]

theorem split_nameOf {reg cs : List TCenter} (h : Canon sgn reg cs) :
    split ' ' false (nameOf cs) = cs.map TCenter.name := by
  rw [nameOf_canon h, ← C18_join_spec, C18_split_join_drop, List.filter_eq_self.2]
  · intro p hp
    obtain ⟨c, hc, rfl⟩ := List.mem_map.1 hp
    simp [(h.names c hc).1]
  · intro p hp
    obtain ⟨c, hc, rfl⟩ := List.mem_map.1 hp
    exact (h.names c hc).2

theorem split_key {reg cs : List TCenter} (h : Canon sgn reg cs) :
    split (32 : Int) false ((nameOf cs).map (sortVal sgn)) =
      cs.map fun c => c.name.map (sortVal sgn) := by
  have h32 : [' '].map (sortVal sgn) = [32] := by
    simp only [List.map_cons, List.map_nil, List.cons.injEq, and_true]; exact (sortVal_space _).2 rfl
  rw [nameOf_canon h, map_intercalate, h32, ← C18_join_spec, C18_split_join_drop, List.filter_eq_self.2,
    List.map_map]
  · rfl
  · intro p hp
    simp only [List.map_map, List.mem_map, Function.comp] at hp
    obtain ⟨c, hc, rfl⟩ := hp
    simp [(h.names c hc).1]
  · intro p hp
    simp only [List.map_map, List.mem_map, Function.comp] at hp
    obtain ⟨c, hc, rfl⟩ := hp
    intro hm
    obtain ⟨x, hx, he⟩ := List.mem_map.1 hm
    rw [sortVal_space] at he
    subst he
    exact (h.names c hc).2 hx

/-- The names of the registry are different up to case. -/
def Distinct (sgn : Bool) (reg : List TCenter) : Prop :=
  reg.Pairwise fun a b => eqS sgn a.name b.name = false

theorem distinct_eq {reg : List TCenter} (hd : Distinct sgn reg) {a b : TCenter} (ha : a ∈ reg)
    (hb : b ∈ reg) (h : eqS sgn a.name b.name = true) : a = b := by
  induction reg with
  | nil => cases ha
  | cons x reg ih =>
    obtain ⟨h1, h2⟩ := List.pairwise_cons.1 hd
    have sym := (C15_eq_equivalence sgn).symm h
    rcases List.mem_cons.1 ha with ha' | ha'
    · rcases List.mem_cons.1 hb with hb' | hb'
      · rw [ha', hb']
      · rw [ha', h1 b hb'] at h; cases h
    · rcases List.mem_cons.1 hb with hb' | hb'
      · rw [hb', h1 a ha'] at sym; cases sym
      · exact ih h2 ha' hb'

theorem canon_eq {reg cs cs' : List TCenter} (hd : Distinct sgn reg) (h : Canon sgn reg cs)
    (h' : Canon sgn reg cs') (e : eqS sgn (nameOf cs) (nameOf cs') = true) : cs = cs' := by
  rw [eqS_iff_map] at e
  have k : cs.map (fun c => c.name.map (sortVal sgn)) = cs'.map (fun c => c.name.map (sortVal sgn)) := by
    rw [← split_key h, ← split_key h', e]
  have hs := h.sub
  have hs' := h'.sub
  clear h h' e
  induction cs generalizing cs' with
  | nil =>
    cases cs' with
    | nil => rfl
    | cons x t => simp at k
  | cons x cs ih =>
    cases cs' with
    | nil => simp at k
    | cons y cs' =>
      simp only [List.map_cons, List.cons.injEq] at k
      rw [distinct_eq hd (hs x (by simp)) (hs' y (by simp)) ((eqS_iff_map sgn _ _).2 k.1),
        ih k.2 (fun c hc => hs c (by simp [hc])) (fun c hc => hs' c (by simp [hc]))]

theorem canon_mono {reg reg' cs : List TCenter} (hr : ∀ c ∈ reg, c ∈ reg') (h : Canon sgn reg cs) :
    Canon sgn reg' cs := ⟨fun c hc => hr c (h.sub c hc), h.names, h.sorted⟩

/-- Canonical lists with the same members are equal. -/
theorem canon_ext {reg cs cs' : List TCenter} (h : Canon sgn reg cs)
    (h' : Canon sgn reg cs') (e : ∀ c, c ∈ cs ↔ c ∈ cs') : cs = cs' := by
  have irr : ∀ x : Str, ltS sgn x x = true → False := by
    intro x hx
    rcases C15_lt_total sgn x x with t | t | t
    · rw [t.1] at t; simp at t
    · rw [t.1] at hx; cases hx
    · rw [t.1] at hx; cases hx
  have asym : ∀ x y : Str, ltS sgn x y = true → ltS sgn y x = true → False :=
    fun x y a b => irr x (C15_lt_trans sgn a b)
  have hs := h.sorted
  have hs' := h'.sorted
  clear h h'
  induction cs generalizing cs' with
  | nil =>
    cases cs' with
    | nil => rfl
    | cons x t => exact absurd ((e x).2 (by simp)) (by simp)
  | cons x cs ih =>
    cases cs' with
    | nil => exact absurd ((e x).1 (by simp)) (by simp)
    | cons y cs' =>
      obtain ⟨a1, a2⟩ := List.pairwise_cons.1 hs
      obtain ⟨b1, b2⟩ := List.pairwise_cons.1 hs'
      have hxy : x = y := by
        rcases List.mem_cons.1 ((e x).1 (by simp)) with h | h
        · exact h
        · rcases List.mem_cons.1 ((e y).2 (by simp)) with h' | h'
          · exact h'.symm
          · exact (asym _ _ (b1 x h) (a1 y h')).elim
      subst hxy
      rw [ih (fun c => ?_) a2 b2]
      constructor
      · intro hc
        rcases List.mem_cons.1 ((e c).1 (by simp [hc])) with rfl | h
        · exact (irr _ (a1 c hc)).elim
        · exact h
      · intro hc
        rcases List.mem_cons.1 ((e c).2 (by simp [hc])) with rfl | h
        · exact (irr _ (b1 c hc)).elim
        · exact h

/-! ### The invariant -/

/-- A combination holds the merged lists of the centres it is named after. -/
structure Merged (c : TCenter) (cs : List TCenter) : Prop where
  name : c.name = nameOf cs
  good : Good c.holidays c.workWeekends
  hol : ∀ d, d ∈ c.holidays ↔ ∃ x ∈ cs, d ∈ x.holidays
  ww : ∀ d, d ∈ c.workWeekends ↔ ∃ x ∈ cs, d ∈ x.workWeekends

/-- A calendar is its centres, or one combination of them. -/
structure Rep (sgn : Bool) (reg h cs : List TCenter) : Prop where
  canon : Canon sgn reg cs
  form : h = cs ∨ ∃ c, h = [c] ∧ Merged c cs

structure Inv (sgn : Bool) (st : St) : Prop where
  acc : ∀ c ∈ st.reg, Good c.holidays c.workWeekends
  dist : Distinct sgn st.reg
  combos : ∀ e ∈ st.combos, ∃ cs, Canon sgn st.reg cs ∧ e.1 = nameOf cs ∧ Merged e.2 cs
  objs : ∀ h ∈ st.objs, ∃ cs, Rep sgn st.reg h cs

theorem mapFind_mem {V : Type} {k : Str} {v : V} {m : List (Str × V)} (h : mapFind sgn k m = some v) :
    ∃ k', (k', v) ∈ m ∧ eqS sgn k k' = true := by
  induction m with
  | nil => cases h
  | cons e m ih =>
    obtain ⟨k', v'⟩ := e
    rw [mapFind] at h
    split at h
    · rename_i hk
      rw [mapFind_iff (V := V)] at hk
      cases h
      exact ⟨k', by simp, hk⟩
    · obtain ⟨k'', h1, h2⟩ := ih h
      exact ⟨k'', by simp [h1], h2⟩

theorem mapInsert_mem {V : Type} {k : Str} {v : V} {m : List (Str × V)} {e : Str × V}
    (h : e ∈ mapInsert sgn k v m) : e = (k, v) ∨ e ∈ m := by
  induction m with
  | nil => simpa [mapInsert] using h
  | cons x m ih =>
    obtain ⟨k', v'⟩ := x
    rw [mapInsert] at h
    split at h
    · simpa using h
    · split at h
      · rcases List.mem_cons.1 h with rfl | h
        · simp
        · rcases ih h with h | h
          · exact .inl h
          · exact .inr (by simp [h])
      · exact .inr h

theorem rep_name {reg h cs : List TCenter} (r : Rep sgn reg h cs) : nameOf h = nameOf cs := by
  rcases r.form with rfl | ⟨c, rfl, m⟩
  · rfl
  · rw [← m.name]; rfl

theorem rep_good {reg h cs : List TCenter} (acc : ∀ c ∈ reg, Good c.holidays c.workWeekends)
    (r : Rep sgn reg h cs) : ∀ c ∈ h, Good c.holidays c.workWeekends := by
  rcases r.form with rfl | ⟨c, rfl, m⟩
  · exact fun c hc => acc c (r.canon.sub c hc)
  · intro x hx; rw [List.mem_singleton.1 hx]; exact m.good

theorem rep_mem_hol {reg h cs : List TCenter} (r : Rep sgn reg h cs) (d : Nat) :
    (∃ x ∈ h, d ∈ x.holidays) ↔ ∃ x ∈ cs, d ∈ x.holidays := by
  rcases r.form with rfl | ⟨c, rfl, m⟩
  · rfl
  · rw [← m.hol]; simp

theorem rep_mem_ww {reg h cs : List TCenter} (r : Rep sgn reg h cs) (d : Nat) :
    (∃ x ∈ h, d ∈ x.workWeekends) ↔ ∃ x ∈ cs, d ∈ x.workWeekends := by
  rcases r.form with rfl | ⟨c, rfl, m⟩
  · rfl
  · rw [← m.ww]; simp

theorem toHol_good {h : List TCenter} (g : ∀ c ∈ h, Good c.holidays c.workWeekends) :
    GoodHols (h.map TCenter.toHol) := by
  intro c hc
  obtain ⟨x, hx, rfl⟩ := List.mem_map.1 hc
  exact g x hx

theorem isHolidayT_iff {h : List TCenter} (g : ∀ c ∈ h, Good c.holidays c.workWeekends) (d : Nat) :
    HolText.isHoliday h d = true ↔ ∃ x ∈ h, d ∈ x.holidays := by
  unfold HolText.isHoliday
  rw [isHoliday_iff (toHol_good g)]
  simp [TCenter.toHol]

theorem isWorkWeekendsT_iff {h : List TCenter} (g : ∀ c ∈ h, Good c.holidays c.workWeekends) (d : Nat) :
    HolText.isWorkWeekends h d = true ↔ ∃ x ∈ h, d ∈ x.workWeekends := by
  unfold HolText.isWorkWeekends
  rw [isWorkWeekends_iff (toHol_good g)]
  simp [TCenter.toHol]

theorem merged_flat {reg h cs : List TCenter} (acc : ∀ c ∈ reg, Good c.holidays c.workWeekends)
    (r : Rep sgn reg h cs) : Merged ⟨nameOf h, unique (h.flatMap TCenter.holidays),
      unique (h.flatMap TCenter.workWeekends)⟩ cs := by
  have g := rep_good acc r
  refine ⟨rep_name r, ⟨unique_sorted _, unique_sorted _, ?_, ?_⟩, ?_, ?_⟩
  · intro d hd
    simp only [mem_unique, List.mem_flatMap] at hd
    obtain ⟨c, hc, hm⟩ := hd
    exact (g c hc).hw d hm
  · intro d hd
    simp only [mem_unique, List.mem_flatMap] at hd
    obtain ⟨c, hc, hm⟩ := hd
    exact (g c hc).ww d hm
  · intro d; rw [← rep_mem_hol r]; simp only [mem_unique, List.mem_flatMap]
  · intro d; rw [← rep_mem_ww r]; simp only [mem_unique, List.mem_flatMap]

/-- What the counter keeps is a combination of the centres of the calendar. -/
theorem countCtor_merged {st : St} (I : Inv sgn st) {h cs : List TCenter} (r : Rep sgn st.reg h cs) :
    Merged (countCtor sgn st h).2 cs := by
  unfold countCtor
  split
  · rename_i c hc
    obtain ⟨k, hk, he⟩ := mapFind_mem hc
    obtain ⟨cs', h1, h2, h3⟩ := I.combos _ hk
    rw [rep_name r] at he
    simp only at h2 h3
    rw [h2] at he
    rw [canon_eq I.dist r.canon h1 he]
    exact h3
  · exact merged_flat I.acc r

theorem ofCenter_iff {reg : List TCenter} (hd : Distinct sgn reg) (w : Str) (c : TCenter) :
    ofCenter sgn reg w = some c ↔ c ∈ reg ∧ eqS sgn c.name w = true := by
  unfold ofCenter
  constructor
  · intro h
    exact ⟨List.mem_of_find?_eq_some h, by simpa using List.find?_some h⟩
  · rintro ⟨hm, he⟩
    cases hf : reg.find? (fun c => eqS sgn c.name w) with
    | none => exact absurd he (by simpa using List.find?_eq_none.1 hf c hm)
    | some x =>
      have hx := List.mem_of_find?_eq_some hf
      have hy := List.find?_some hf
      rw [distinct_eq hd hx hm ((C15_eq_equivalence sgn).trans hy ((C15_eq_equivalence sgn).symm he))]

theorem eqS_word {a b : Str} (h : eqS sgn a b = true) (hb : b ≠ [] ∧ ' ' ∉ b) : a ≠ [] ∧ ' ' ∉ a := by
  rw [eqS_iff_map] at h
  refine ⟨?_, ?_⟩
  · rintro rfl
    simp only [List.map_nil] at h
    exact hb.1 (List.map_eq_nil_iff.1 h.symm)
  · intro hm
    have : (32 : Int) ∈ a.map (sortVal sgn) := List.mem_map.2 ⟨' ', hm, (sortVal_space _).2 rfl⟩
    rw [h] at this
    obtain ⟨x, hx, he⟩ := List.mem_map.1 this
    rw [sortVal_space] at he
    subst he
    exact hb.2 hx

theorem mapM_forall₂ {α β : Type} {f : α → Option β} {l : List α} {l' : List β}
    (h : l.mapM f = some l') : List.Forall₂ (fun a b => f a = some b) l l' := by
  induction l generalizing l' with
  | nil => simp at h; subst h; exact .nil
  | cons a l ih =>
    rw [List.mapM_cons] at h
    cases ha : f a with
    | none => rw [ha] at h; cases h
    | some b =>
      cases hl : l.mapM f with
      | none => rw [ha, hl] at h; cases h
      | some t =>
        rw [ha, hl] at h
        cases h
        exact .cons ha (ih hl)

theorem mapM_isSome {α β : Type} {f : α → Option β} {l : List α} (h : ∀ a ∈ l, ∃ b, f a = some b) :
    ∃ l', l.mapM f = some l' := by
  induction l with
  | nil => exact ⟨[], by simp⟩
  | cons a l ih =>
    obtain ⟨b, hb⟩ := h a (by simp)
    obtain ⟨t, ht⟩ := ih fun x hx => h x (by simp [hx])
    exact ⟨b :: t, by rw [List.mapM_cons, hb, ht]; rfl⟩

theorem forall₂_left {α β : Type} {R : α → β → Prop} {l : List α} {l' : List β} (h : List.Forall₂ R l l') :
    ∀ a ∈ l, ∃ b ∈ l', R a b := by
  induction h with
  | nil => simp
  | cons h _ ih =>
    intro x hx
    rcases List.mem_cons.1 hx with rfl | hx
    · exact ⟨_, by simp, h⟩
    · obtain ⟨b, hb, hr⟩ := ih x hx; exact ⟨b, by simp [hb], hr⟩

theorem forall₂_right {α β : Type} {R : α → β → Prop} {l : List α} {l' : List β} (h : List.Forall₂ R l l') :
    ∀ b ∈ l', ∃ a ∈ l, R a b := by
  induction h with
  | nil => simp
  | cons h _ ih =>
    intro x hx
    rcases List.mem_cons.1 hx with rfl | hx
    · exact ⟨_, by simp, h⟩
    · obtain ⟨b, hb, hr⟩ := ih x hx; exact ⟨b, by simp [hb], hr⟩

theorem forall₂_sorted {ws : List Str} {cs : List TCenter}
    (h : List.Forall₂ (fun w (c : TCenter) => eqS sgn c.name w = true) ws cs)
    (hs : ws.Pairwise fun a b => ltS sgn a b = true) :
    cs.Pairwise fun a b => ltS sgn a.name b.name = true := by
  induction h with
  | nil => exact .nil
  | cons he ht ih =>
    obtain ⟨h1, h2⟩ := List.pairwise_cons.1 hs
    refine List.pairwise_cons.2 ⟨fun c hc => ?_, ih h2⟩
    obtain ⟨w, hw, e⟩ := forall₂_right ht c hc
    rw [C15_lt_congr sgn he e]; exact h1 w hw

theorem mem_uniqueNames (s : Sorter sgn) (src : Str) :
    (∀ w ∈ uniqueNames s (split ' ' false src), Word ' ' src w) ∧
    ∀ w, Word ' ' src w → ∃ v ∈ uniqueNames s (split ' ' false src), eqS sgn v w = true := by
  constructor
  · intro w hw
    rw [← mem_split]
    exact (s.perm _).mem_iff.1 (dedup_mem _ w hw)
  · intro w hw
    rw [← mem_split] at hw
    exact dedup_cover _ w ((s.perm _).mem_iff.2 hw)

/-- The centres looked up for a text are the canonical list of the centres its words name. -/
theorem parts_spec {reg : List TCenter} (hd : Distinct sgn reg) (s : Sorter sgn) {src : Str} {cs : List TCenter}
    (h : (uniqueNames s (split ' ' false src)).mapM (ofCenter sgn reg) = some cs) :
    Canon sgn reg cs ∧ (∀ c, c ∈ cs ↔ c ∈ reg ∧ ∃ w, Word ' ' src w ∧ eqS sgn c.name w = true) ∧
    ∀ w, Word ' ' src w → ∃ c ∈ reg, eqS sgn c.name w = true := by
  have F := mapM_forall₂ h
  have F' : List.Forall₂ (fun w (c : TCenter) => eqS sgn c.name w = true)
      (uniqueNames s (split ' ' false src)) cs :=
    F.imp fun {w c} e => ((ofCenter_iff hd w c).1 e).2
  obtain ⟨m1, m2⟩ := mem_uniqueNames s src
  have hc : ∀ c ∈ cs, c ∈ reg ∧ ∃ w, Word ' ' src w ∧ eqS sgn c.name w = true := by
    intro c hc
    obtain ⟨w, hw, e⟩ := forall₂_right F c hc
    have := (ofCenter_iff hd w c).1 e
    exact ⟨this.1, w, m1 w hw, this.2⟩
  have hcov : ∀ w, Word ' ' src w → ∃ c ∈ cs, eqS sgn c.name w = true := by
    intro w hw
    obtain ⟨v, hv, e⟩ := m2 w hw
    obtain ⟨c, hc', e'⟩ := forall₂_left F' v hv
    exact ⟨c, hc', (C15_eq_equivalence sgn).trans e' e⟩
  refine ⟨⟨fun c h => (hc c h).1, fun c h => ?_, forall₂_sorted F' (dedup_sorted _ (s.sorted _))⟩, ?_, ?_⟩
  · obtain ⟨_, w, hw, e⟩ := hc c h
    exact eqS_word e ⟨hw.1, hw.2.1⟩
  · refine fun c => ⟨hc c, ?_⟩
    rintro ⟨hr, w, hw, e⟩
    obtain ⟨x, hx, e'⟩ := hcov w hw
    rw [distinct_eq hd hr (hc x hx).1 ((C15_eq_equivalence sgn).trans e ((C15_eq_equivalence sgn).symm e'))]
    exact hx
  · intro w hw
    obtain ⟨c, h1, h2⟩ := hcov w hw
    exact ⟨c, (hc c h1).1, h2⟩

theorem fromText_rep {st : St} (I : Inv sgn st) (s : Sorter sgn) {src : Str} {h : List TCenter}
    (e : fromText s st src = some h) : ∃ cs, Rep sgn st.reg h cs ∧
      (∀ c, c ∈ cs ↔ c ∈ st.reg ∧ ∃ w, Word ' ' src w ∧ eqS sgn c.name w = true) ∧
      ∀ w, Word ' ' src w → ∃ c ∈ st.reg, eqS sgn c.name w = true := by
  unfold fromText at e
  split at e
  · cases e
  · rename_i cs hcs
    obtain ⟨h1, h2, h3⟩ := parts_spec I.dist s hcs
    refine ⟨cs, ⟨h1, ?_⟩, h2, h3⟩
    split at e
    · split at e
      · rename_i c hc
        obtain ⟨k, hk, he⟩ := mapFind_mem hc
        obtain ⟨cs', g1, g2, g3⟩ := I.combos _ hk
        simp only at g2 g3
        rw [g2] at he
        have := canon_eq I.dist h1 g1 he
        cases e
        exact .inr ⟨c, rfl, this ▸ g3⟩
      · cases e; exact .inl rfl
    · cases e; exact .inl rfl

theorem rep_mono {reg reg' h cs : List TCenter} (hr : ∀ c ∈ reg, c ∈ reg') (r : Rep sgn reg h cs) :
    Rep sgn reg' h cs := ⟨canon_mono hr r.canon, r.form⟩

theorem reachable_inv {s : Sorter sgn} {st : St} (r : Reachable s st) : Inv sgn st := by
  induction r with
  | init => exact ⟨by simp, .nil, by simp, by simp⟩
  | @add st reg' city hols wws _ h I =>
    unfold addCenter at h
    split at h
    · rename_i hc
      rw [Bool.and_eq_true, acceptable_iff, Bool.not_eq_true', List.any_eq_false] at hc
      cases h
      have hm : ∀ c ∈ st.reg, c ∈ st.reg ++ [⟨city, hols, wws⟩] := fun c h => by simp [h]
      refine ⟨?_, ?_, ?_, ?_⟩
      · intro c hc'
        rcases List.mem_append.1 hc' with h | h
        · exact I.acc c h
        · rw [List.mem_singleton.1 h]; exact hc.1
      · refine List.pairwise_append.2 ⟨I.dist, List.pairwise_singleton _ _, fun a ha b hb => ?_⟩
        rw [List.mem_singleton.1 hb]
        simpa using hc.2 a ha
      · intro e he
        obtain ⟨cs, h1, h2, h3⟩ := I.combos e he
        exact ⟨cs, canon_mono hm h1, h2, h3⟩
      · intro x hx
        obtain ⟨cs, h1⟩ := I.objs x hx
        exact ⟨cs, rep_mono hm h1⟩
    · cases h
  | text src _ e I =>
    refine ⟨I.acc, I.dist, I.combos, ?_⟩
    intro x hx
    rcases List.mem_cons.1 hx with rfl | hx
    · obtain ⟨cs, h1, _⟩ := fromText_rep I s e
      exact ⟨cs, h1⟩
    · exact I.objs x hx
  | @count st h _ m I =>
    obtain ⟨cs, hr⟩ := I.objs h m
    have M := countCtor_merged I hr
    unfold countCtor at M ⊢
    split
    · exact I
    · rename_i hn
      rw [hn] at M
      refine ⟨I.acc, I.dist, ?_, I.objs⟩
      intro e he
      rcases mapInsert_mem he with rfl | he
      · exact ⟨cs, hr.canon, rep_name hr, M⟩
      · exact I.combos e he

end Dal.HolText
