import Verif.Script.EventModel
import Mathlib.Order.Nat
import Mathlib.Data.List.Basic

/-! # C35: grouping of events -/

namespace Dal.Script.Events
open Dal.Strings
variable {E : Type}

/-- Specification: the dated texts of the table one by one, in the order supplied; the texts are expanded with
the macros defined by the rows above. -/
def pieces (L : Lib E) (sgn : Bool) : List (Str × Str) → List Row → List (Nat × Str)
  | _, [] => []
  | ms, .dated d t :: rs => (d, replaceAll L ms t) :: pieces L sgn ms rs
  | ms, .named desc t :: rs =>
    if ':' ∈ desc then
      ((L.sched desc).getD []).map (fun p => (p.2.2, period L (replaceAll L ms t) p.1 p.2.1)) ++ pieces L sgn ms rs
    else if L.isNumber t then pieces L sgn ms rs
    else pieces L sgn (mapInsert sgn desc t ms) rs

/-- The texts of the pieces of date `d`, in the order supplied. -/
def textsAt (d : Nat) (ps : List (Nat × Str)) : List Str := (ps.filter fun p => p.1 = d).map Prod.snd

/-- Texts separated by line ends. -/
def lines : List Str → Str
  | [] => []
  | [t] => t
  | t :: u :: ts => t ++ '\n' :: lines (u :: ts)

theorem lines_snoc : (l : List Str) → (t : Str) → l ≠ [] → lines (l ++ [t]) = lines l ++ '\n' :: t
  | [], _, h => absurd rfl h
  | [a], t, _ => rfl
  | a :: b :: l, t, _ => by
    have := lines_snoc (b :: l) t (by simp)
    simp only [List.cons_append, lines] at this ⊢
    rw [this, List.append_assoc]
    rfl

/-- The grouping of a list of pieces: dates strictly increase, a date is present exactly when some piece has it, and
its text is made of its pieces in the order supplied. -/
structure Groups (m : List (Nat × Str)) (ps : List (Nat × Str)) : Prop where
  sorted : m.Pairwise fun a b => a.1 < b.1
  text : ∀ d t, (d, t) ∈ m ↔ textsAt d ps ≠ [] ∧ t = lines (textsAt d ps)

theorem addEvent_dates (d : Nat) (t : Str) : (m : List (Nat × Str)) → ∀ k, k ∈ (addEvent d t m).map Prod.fst → k = d ∨ k ∈ m.map Prod.fst
  | [], k, h => by simp [addEvent] at h; exact Or.inl h
  | (a, v) :: m, k, h => by
    unfold addEvent at h
    split at h
    · simpa using h
    · split at h
      · exact Or.inr (by simpa using h)
      · simp only [List.map_cons, List.mem_cons] at h ⊢
        rcases h with h | h
        · exact Or.inr (Or.inl h)
        · rcases addEvent_dates d t m k h with h | h
          · exact Or.inl h
          · exact Or.inr (Or.inr h)

theorem addEvent_sorted (d : Nat) (t : Str) : (m : List (Nat × Str)) → m.Pairwise (fun a b => a.1 < b.1) →
    (addEvent d t m).Pairwise fun a b => a.1 < b.1
  | [], _ => List.pairwise_singleton _ _
  | (a, v) :: m, h => by
    unfold addEvent
    rw [List.pairwise_cons] at h
    split
    · next hd =>
      rw [List.pairwise_cons, List.pairwise_cons]
      refine ⟨fun b hb => ?_, h⟩
      rcases List.mem_cons.1 hb with rfl | hb
      · exact hd
      · exact Nat.lt_trans hd (h.1 b hb)
    · split
      · rw [List.pairwise_cons]; exact h
      · next h1 h2 =>
        rw [List.pairwise_cons]
        refine ⟨fun b hb => ?_, addEvent_sorted d t m h.2⟩
        rcases addEvent_dates d t m b.1 (List.mem_map_of_mem hb) with hk | hk
        · show a < b.1
          omega
        · obtain ⟨c, hc, hcb⟩ := List.mem_map.1 hk
          have := h.1 c hc
          rw [← hcb]
          exact this

theorem addEvent_mem (d : Nat) (t : Str) : (m : List (Nat × Str)) → m.Pairwise (fun a b => a.1 < b.1) → ∀ k u,
    ((k, u) ∈ addEvent d t m ↔
      (k ≠ d ∧ (k, u) ∈ m) ∨ (k = d ∧ ((∃ v, (d, v) ∈ m ∧ u = v ++ '\n' :: t) ∨ ((∀ v, (d, v) ∉ m) ∧ u = t))))
  | [], _, k, u => by simp [addEvent]
  | (a, v) :: m, h, k, u => by
    rw [List.pairwise_cons] at h
    have hgt : ∀ w, (a, w) ∉ m := fun w hw => Nat.lt_irrefl a (h.1 (a, w) hw)
    unfold addEvent
    split
    · next hd =>
      have hno : ∀ w, (d, w) ∉ (a, v) :: m := by
        intro w hw
        rcases List.mem_cons.1 hw with hw | hw
        · have : d = a := congrArg Prod.fst hw; omega
        · have h3 : a < d := h.1 _ hw; omega
      constructor
      · intro hm
        rcases List.mem_cons.1 hm with hm | hm
        · have h1 : k = d := congrArg Prod.fst hm
          have h2 : u = t := congrArg Prod.snd hm
          exact Or.inr ⟨h1, Or.inr ⟨hno, h2⟩⟩
        · by_cases hk : k = d
          · exact absurd (hk ▸ hm) (hno u)
          · exact Or.inl ⟨hk, hm⟩
      · rintro (⟨hk, hm⟩ | ⟨rfl, ⟨w, hw, _⟩ | ⟨_, rfl⟩⟩)
        · exact List.mem_cons_of_mem _ hm
        · exact absurd hw (hno w)
        · exact List.mem_cons_self
    · split
      · next h1 h2 =>
        subst h2
        constructor
        · intro hm
          rcases List.mem_cons.1 hm with hm | hm
          · have e1 : k = d := congrArg Prod.fst hm
            have e2 : u = v ++ '\n' :: t := congrArg Prod.snd hm
            exact Or.inr ⟨e1, Or.inl ⟨v, List.mem_cons_self, e2⟩⟩
          · have hk : k ≠ d := fun hkd => hgt u (hkd ▸ hm)
            exact Or.inl ⟨hk, List.mem_cons_of_mem _ hm⟩
        · rintro (⟨hk, hm⟩ | ⟨rfl, ⟨w, hw, rfl⟩ | ⟨hno, _⟩⟩)
          · rcases List.mem_cons.1 hm with hm | hm
            · exact absurd (congrArg Prod.fst hm) hk
            · exact List.mem_cons_of_mem _ hm
          · rcases List.mem_cons.1 hw with hw | hw
            · have : w = v := congrArg Prod.snd hw
              rw [this]; exact List.mem_cons_self
            · exact absurd hw (hgt w)
          · exact absurd List.mem_cons_self (hno v)
      · next h1 h2 =>
        have ih := addEvent_mem d t m h.2 k u
        constructor
        · intro hm
          rcases List.mem_cons.1 hm with hm | hm
          · have e1 : k = a := congrArg Prod.fst hm
            exact Or.inl ⟨by omega, hm ▸ List.mem_cons_self⟩
          · rcases ih.1 hm with ⟨hk, hm⟩ | ⟨rfl, ⟨w, hw, e⟩ | ⟨hno, e⟩⟩
            · exact Or.inl ⟨hk, List.mem_cons_of_mem _ hm⟩
            · exact Or.inr ⟨rfl, Or.inl ⟨w, List.mem_cons_of_mem _ hw, e⟩⟩
            · refine Or.inr ⟨rfl, Or.inr ⟨fun w hw => ?_, e⟩⟩
              rcases List.mem_cons.1 hw with hw | hw
              · exact h2 (congrArg Prod.fst hw)
              · exact hno w hw
        · rintro (⟨hk, hm⟩ | ⟨rfl, ⟨w, hw, e⟩ | ⟨hno, e⟩⟩)
          · rcases List.mem_cons.1 hm with hm | hm
            · rw [hm]; exact List.mem_cons_self
            · exact List.mem_cons_of_mem _ (ih.2 (Or.inl ⟨hk, hm⟩))
          · rcases List.mem_cons.1 hw with hw | hw
            · exact absurd (congrArg Prod.fst hw) h2
            · exact List.mem_cons_of_mem _ (ih.2 (Or.inr ⟨rfl, Or.inl ⟨w, hw, e⟩⟩))
          · exact List.mem_cons_of_mem _ (ih.2 (Or.inr ⟨rfl, Or.inr ⟨fun w hw => hno w (List.mem_cons_of_mem _ hw), e⟩⟩))

theorem Groups.nil : Groups [] [] := ⟨List.Pairwise.nil, fun d t => by simp [textsAt]⟩

theorem Groups.add {m ps} (h : Groups m ps) (d : Nat) (t : Str) : Groups (addEvent d t m) (ps ++ [(d, t)]) := by
  refine ⟨addEvent_sorted d t m h.sorted, fun k u => ?_⟩
  rw [addEvent_mem d t m h.sorted k u]
  have hat : textsAt k (ps ++ [(d, t)]) = if k = d then textsAt d ps ++ [t] else textsAt k ps := by
    unfold textsAt
    rw [List.filter_append, List.map_append]
    by_cases hk : k = d
    · subst hk; simp
    · have : ¬ d = k := fun h => hk h.symm
      simp [hk, this]
  rw [hat]
  by_cases hk : k = d
  · subst hk
    rw [if_pos rfl]
    simp only [ne_eq, not_true_eq_false, false_and, true_and, false_or, h.text]
    by_cases he : textsAt k ps = []
    · simp [he, lines]
    · rw [lines_snoc _ _ he]
      simp [he]
  · rw [if_neg hk]
    simp only [ne_eq, hk, not_false_eq_true, true_and, false_and, or_false]
    exact h.text k u

theorem Groups.addAll {f : Nat × Nat × Nat → Nat × Str} : (l : List (Nat × Nat × Nat)) → {m ps : List (Nat × Str)} → Groups m ps →
    Groups (l.foldl (fun m p => addEvent (f p).1 (f p).2 m) m) (ps ++ l.map f)
  | [], m, ps, h => by simpa using h
  | p :: l, m, ps, h => by
    have := Groups.addAll (f := f) l (h.add (f p).1 (f p).2)
    simpa using this

theorem rows_groups (L : Lib E) (sgn : Bool) : (rs : List Row) → (s s' : St) → (ps : List (Nat × Str)) → Groups s.events ps →
    rows L sgn rs s = some s' → Groups s'.events (ps ++ pieces L sgn s.macros rs)
  | [], s, s', ps, h, hr => by
    simp only [rows, Option.some.injEq] at hr
    subst hr
    simpa [pieces] using h
  | .dated d t :: rs, s, s', ps, h, hr => by
    simp only [rows, step] at hr
    have := rows_groups L sgn rs _ s' _ (h.add d (replaceAll L s.macros t)) hr
    simpa [pieces] using this
  | .named desc t :: rs, s, s', ps, h, hr => by
    simp only [rows] at hr
    simp only [pieces]
    cases hst : step L sgn s (.named desc t) with
    | none => rw [hst] at hr; exact absurd hr (by simp)
    | some s1 =>
      rw [hst] at hr
      simp only at hr
      simp only [step] at hst
      split at hst
      · next hc =>
        rw [if_pos hc]
        split at hst
        · exact absurd hst (by simp)
        · next l hl =>
          simp only [Option.some.injEq] at hst
          subst hst
          have := rows_groups L sgn rs _ s' _
            (Groups.addAll (f := fun p => (p.2.2, period L (replaceAll L s.macros t) p.1 p.2.1)) l h) hr
          rw [hl]
          simpa using this
      · next hc =>
        rw [if_neg hc]
        split at hst
        · exact absurd hst (by simp)
        · split at hst
          · exact absurd hst (by simp)
          · split at hst
            · exact absurd hst (by simp)
            · split at hst
              · next hn =>
                simp only [Option.some.injEq] at hst
                subst hst
                rw [if_pos hn]
                exact rows_groups L sgn rs { s with consts := mapInsert sgn desc (L.toDouble t) s.consts } s' ps h hr
              · next hn =>
                simp only [Option.some.injEq] at hst
                subst hst
                rw [if_neg hn]
                exact rows_groups L sgn rs { s with macros := mapInsert sgn desc t s.macros } s' ps h hr

theorem distribute_spec (L : Lib E) (consts : List (Str × Rat)) (evalDate : Nat) : (m : List (Nat × Str)) → (p q : Product E) →
    distribute L consts evalDate m p = some q → ∃ es : List (Nat × List E),
      es.map Prod.fst = m.map Prod.fst ∧ (∀ x ∈ m.zip es, L.parse consts x.1.2 = some x.2.2) ∧
      q.past = p.past ++ es.filter (fun e => !decide (evalDate ≤ e.1)) ∧
      q.future = p.future ++ es.filter (fun e => decide (evalDate ≤ e.1))
  | [], p, q, h => by
    simp only [distribute, Option.some.injEq] at h
    subst h
    exact ⟨[], by simp, by simp, by simp, by simp⟩
  | (d, t) :: m, p, q, h => by
    simp only [distribute] at h
    split at h
    · exact absurd h (by simp)
    · next e he =>
      split at h
      · next hd =>
        obtain ⟨es, h1, h2, h3, h4⟩ := distribute_spec L consts evalDate m _ q h
        refine ⟨(d, e) :: es, by simp [h1], ?_, ?_, ?_⟩
        · intro x hx
          rcases List.mem_cons.1 hx with rfl | hx
          · exact he
          · exact h2 x hx
        · rw [h3, List.filter_cons_of_neg (by simp [hd])]
        · rw [h4, List.filter_cons_of_pos (by simp [hd])]; simp
      · next hd =>
        obtain ⟨es, h1, h2, h3, h4⟩ := distribute_spec L consts evalDate m _ q h
        refine ⟨(d, e) :: es, by simp [h1], ?_, ?_, ?_⟩
        · intro x hx
          rcases List.mem_cons.1 hx with rfl | hx
          · exact he
          · exact h2 x hx
        · rw [h3, List.filter_cons_of_pos (by simp [hd])]; simp
        · rw [h4, List.filter_cons_of_neg (by simp [hd])]

theorem filter_split {es : List (Nat × List E)} (evalDate : Nat) (h : (es.map Prod.fst).Pairwise (· < ·)) :
    es.filter (fun e => !decide (evalDate ≤ e.1)) ++ es.filter (fun e => decide (evalDate ≤ e.1)) = es := by
  induction es with
  | nil => rfl
  | cons e es ih =>
    rw [List.map_cons, List.pairwise_cons] at h
    by_cases hd : evalDate ≤ e.1
    · have hall : ∀ x ∈ es, evalDate ≤ x.1 := fun x hx => (hd.trans (h.1 x.1 (List.mem_map_of_mem hx)).le)
      rw [List.filter_cons_of_neg (by simp [hd]), List.filter_cons_of_pos (by simp [hd])]
      rw [List.filter_eq_nil_iff.2 (fun x hx => by simp [hall x hx]), List.filter_eq_self.2 (fun x hx => by simp [hall x hx])]
      rfl
    · rw [List.filter_cons_of_pos (by simp [hd]), List.filter_cons_of_neg (by simp [hd]), List.cons_append, ih h.2]

end Dal.Script.Events

namespace Dal
open Dal.Script.Events Dal.Strings
variable {E : Type}

/-- C35: the events of a product, past ones first, are in strictly increasing order of dates; the past events
are exactly those dated before the evaluation date. -/
theorem C35_date_order (L : Lib E) (sgn : Bool) (evalDate : Nat) (rs : List Row) (p : Product E)
    (h : parseEvents L sgn evalDate rs = some p) :
    ((p.past ++ p.future).map Prod.fst).Pairwise (· < ·) ∧ (∀ e ∈ p.past, e.1 < evalDate) ∧ (∀ e ∈ p.future, evalDate ≤ e.1) := by
  unfold parseEvents at h
  split at h
  · exact absurd h (by simp)
  · next s hs =>
    obtain ⟨es, h1, _, h3, h4⟩ := distribute_spec L s.consts evalDate s.events {} p h
    have hg := rows_groups L sgn rs {} s [] Groups.nil hs
    have hes : (es.map Prod.fst).Pairwise (· < ·) := by rw [h1, List.pairwise_map]; exact hg.sorted
    simp only [List.nil_append] at h3 h4
    refine ⟨?_, ?_, ?_⟩
    · rw [h3, h4, filter_split evalDate hes]; exact hes
    · intro e he
      rw [h3] at he
      simpa using (List.mem_filter.1 he).2
    · intro e he
      rw [h4] at he
      simpa using (List.mem_filter.1 he).2

/-- C35: there is an event for a date exactly when some row gives one, and what it executes is the parse of the
texts of that date, one per line in the order supplied: every text occurs once. -/
theorem C35_texts (L : Lib E) (sgn : Bool) (evalDate : Nat) (rs : List Row) (p : Product E)
    (h : parseEvents L sgn evalDate rs = some p) :
    ∃ consts, (∀ d, d ∈ (p.past ++ p.future).map Prod.fst ↔ ∃ t, (d, t) ∈ pieces L sgn [] rs) ∧
      ∀ d e, (d, e) ∈ p.past ++ p.future → L.parse consts (lines (textsAt d (pieces L sgn [] rs))) = some e := by
  unfold parseEvents at h
  split at h
  · exact absurd h (by simp)
  · next s hs =>
    obtain ⟨es, h1, h2, h3, h4⟩ := distribute_spec L s.consts evalDate s.events {} p h
    have hg := rows_groups L sgn rs {} s [] Groups.nil hs
    rw [List.nil_append] at hg
    have hes : (es.map Prod.fst).Pairwise (· < ·) := by rw [h1, List.pairwise_map]; exact hg.sorted
    simp only [List.nil_append] at h3 h4
    rw [h3, h4, filter_split evalDate hes]
    refine ⟨s.consts, fun d => ?_, fun d e he => ?_⟩
    · rw [h1]
      constructor
      · intro hd
        obtain ⟨⟨k, t⟩, hm, rfl⟩ := List.mem_map.1 hd
        have hne := ((hg.text k t).1 hm).1
        obtain ⟨u, hu⟩ := List.exists_mem_of_ne_nil _ hne
        unfold textsAt at hu
        obtain ⟨⟨k', u'⟩, hf, rfl⟩ := List.mem_map.1 hu
        obtain ⟨hf, hk⟩ := List.mem_filter.1 hf
        have hk' : k' = k := by simpa using hk
        exact ⟨u', hk' ▸ hf⟩
      · rintro ⟨t, ht⟩
        have hne : textsAt d (pieces L sgn [] rs) ≠ [] := by
          apply List.ne_nil_of_mem (a := t)
          exact List.mem_map.2 ⟨(d, t), List.mem_filter.2 ⟨ht, by simp⟩, rfl⟩
        exact List.mem_map.2 ⟨_, (hg.text d _).2 ⟨hne, rfl⟩, rfl⟩
    · obtain ⟨i, hi, hie⟩ := List.mem_iff_getElem.1 he
      have hlen : s.events.length = es.length := by simpa using congrArg List.length h1.symm
      have hi' : i < s.events.length := by omega
      have hz : (s.events[i], es[i]) ∈ s.events.zip es := by
        rw [List.mem_iff_getElem]
        exact ⟨i, by rw [List.length_zip]; omega, by simp⟩
      have hp := h2 _ hz
      have hd : s.events[i].1 = es[i].1 := by
        have := congrArg (fun l => l[i]?) h1
        simp only [List.getElem?_map, List.getElem?_eq_getElem hi, List.getElem?_eq_getElem hi', Option.map_some,
          Option.some.injEq] at this
        exact this.symm
      rw [hie] at hp hd
      have hmem : s.events[i] ∈ s.events := List.getElem_mem hi'
      have ht := ((hg.text s.events[i].1 s.events[i].2).1 hmem).2
      rw [hd] at ht
      simp only at hp
      rw [ht] at hp
      exact hp

/-- C35, order of execution: when parsing the lines gives the statements of the lines one after the other, an
event executes the statements of its texts in the order supplied. -/
theorem C35_same_date_order (L : Lib E) (sgn : Bool) (evalDate : Nat) (rs : List Row) (p : Product E)
    (h : parseEvents L sgn evalDate rs = some p) (one : List (Str × Rat) → Str → List E)
    (hc : ∀ consts ts e, L.parse consts (lines ts) = some e → e = ts.flatMap (one consts)) :
    ∃ consts, ∀ d e, (d, e) ∈ p.past ++ p.future → e = (textsAt d (pieces L sgn [] rs)).flatMap (one consts) := by
  obtain ⟨consts, _, h2⟩ := C35_texts L sgn evalDate rs p h
  exact ⟨consts, fun d e he => hc consts _ e (h2 d e he)⟩

theorem pieces_dated (L : Lib E) (sgn : Bool) (ms : List (Str × Str)) (l : List (Nat × Str)) :
    pieces L sgn ms (l.map fun x => .dated x.1 x.2) = l.map fun x => (x.1, replaceAll L ms x.2) := by
  induction l with
  | nil => rfl
  | cons x l ih => simp only [List.map_cons, pieces, ih]

theorem rows_dated (L : Lib E) (sgn : Bool) : (l : List (Nat × Str)) → (s : St) →
    ∃ s', rows L sgn (l.map fun x => .dated x.1 x.2) s = some s' ∧ s'.consts = s.consts
  | [], s => ⟨s, rfl, rfl⟩
  | x :: l, s => by
    simp only [List.map_cons, rows, step]
    obtain ⟨s', h1, h2⟩ := rows_dated L sgn l { s with events := addEvent x.1 (replaceAll L s.macros x.2) s.events }
    exact ⟨s', h1, h2⟩

theorem sorted_ext : (m n : List (Nat × Str)) → m.Pairwise (fun a b => a.1 < b.1) → n.Pairwise (fun a b => a.1 < b.1) →
    (∀ x, x ∈ m ↔ x ∈ n) → m = n
  | [], [], _, _, _ => rfl
  | [], y :: n, _, _, h => absurd ((h y).2 List.mem_cons_self) (by simp)
  | x :: m, [], _, _, h => absurd ((h x).1 List.mem_cons_self) (by simp)
  | x :: m, y :: n, hm, hn, h => by
    rw [List.pairwise_cons] at hm hn
    have hxy : x = y := by
      rcases List.mem_cons.1 ((h x).1 List.mem_cons_self) with e | e
      · exact e
      · rcases List.mem_cons.1 ((h y).2 List.mem_cons_self) with e' | e'
        · exact e'.symm
        · have a := hn.1 x e
          have b := hm.1 y e'
          omega
    subst hxy
    congr 1
    refine sorted_ext m n hm.2 hn.2 (fun z => ?_)
    constructor
    · intro hz
      rcases List.mem_cons.1 ((h z).1 (List.mem_cons_of_mem _ hz)) with e | e
      · subst e; exact absurd (hm.1 z hz) (Nat.lt_irrefl _)
      · exact e
    · intro hz
      rcases List.mem_cons.1 ((h z).2 (List.mem_cons_of_mem _ hz)) with e | e
      · subst e; exact absurd (hn.1 z hz) (Nat.lt_irrefl _)
      · exact e

/-- C35: the order in which dated rows are supplied only matters within a date. -/
theorem C35_order_irrelevant (L : Lib E) (sgn : Bool) (evalDate : Nat) (l l' : List (Nat × Str))
    (h : ∀ d, l.filter (fun x => x.1 = d) = l'.filter (fun x => x.1 = d)) :
    parseEvents L sgn evalDate (l.map fun x => .dated x.1 x.2) = parseEvents L sgn evalDate (l'.map fun x => .dated x.1 x.2) := by
  obtain ⟨s, hs, hc⟩ := rows_dated L sgn l {}
  obtain ⟨s', hs', hc'⟩ := rows_dated L sgn l' {}
  have hg := rows_groups L sgn _ {} s [] Groups.nil hs
  have hg' := rows_groups L sgn _ {} s' [] Groups.nil hs'
  simp only [List.nil_append, pieces_dated] at hg hg'
  have hr : replaceAll L ([] : List (Str × Str)) = id := rfl
  have hid : ∀ k : List (Nat × Str), k.map (fun x => (x.1, replaceAll L ({} : St).macros x.2)) = k := by
    intro k
    show k.map (fun x => (x.1, replaceAll L [] x.2)) = k
    rw [hr]
    simp
  rw [hid] at hg hg'
  have ht : ∀ d, textsAt d l = textsAt d l' := fun d => congrArg (List.map Prod.snd) (h d)
  have he : s.events = s'.events := by
    refine sorted_ext _ _ hg.sorted hg'.sorted (fun x => ?_)
    rw [hg.text x.1 x.2, hg'.text x.1 x.2, ht]
  unfold parseEvents
  rw [hs, hs']
  simp only
  rw [he, hc, hc']

theorem addEvent_ne_nil (d : Nat) (t : Str) (m : List (Nat × Str)) : addEvent d t m ≠ [] := by
  cases m with
  | nil => simp [addEvent]
  | cons x m =>
    obtain ⟨a, v⟩ := x
    unfold addEvent
    split
    · simp
    · split <;> simp

theorem step_keeps_events (L : Lib E) (sgn : Bool) (s s' : St) (r : Row) (h : step L sgn s r = some s') (he : s.events ≠ []) :
    s'.events ≠ [] := by
  have hfold : ∀ (f : Nat × Nat × Nat → Str) (l : List (Nat × Nat × Nat)) (m : List (Nat × Str)), m ≠ [] →
      l.foldl (fun m p => addEvent p.2.2 (f p) m) m ≠ [] := by
    intro f l
    induction l with
    | nil => intro m hm; exact hm
    | cons p l ih => intro m _; exact ih _ (addEvent_ne_nil _ _ _)
  cases r with
  | dated d t =>
    simp only [step, Option.some.injEq] at h
    subst h
    exact addEvent_ne_nil _ _ _
  | named desc t =>
    simp only [step] at h
    split at h
    · split at h
      · exact absurd h (by simp)
      · simp only [Option.some.injEq] at h
        subst h
        exact hfold (fun p => period L (replaceAll L s.macros t) p.1 p.2.1) _ _ he
    · split at h
      · exact absurd h (by simp)
      · split at h
        · exact absurd h (by simp)
        · exact absurd h (by simp)

/-- C35: a macro or constant defined below a dated row is refused. -/
theorem C35_macros_first (L : Lib E) (sgn : Bool) (evalDate : Nat) (a b c : List Row) (d : Nat) (t desc u : Str) (hd : ':' ∉ desc) :
    parseEvents L sgn evalDate (a ++ .dated d t :: b ++ .named desc u :: c) = none := by
  have hn : ∀ (c : List Row) (s : St), s.events ≠ [] → ∀ b, rows L sgn (b ++ .named desc u :: c) s = none := by
    intro c s hs b
    induction b generalizing s with
    | nil =>
      simp only [List.nil_append, rows, step, if_neg hd]
      by_cases h1 : (mapFind sgn desc s.macros).isSome = true
      · rw [if_pos h1]
      · rw [if_neg h1]
        by_cases h2 : (mapFind sgn desc s.consts).isSome = true
        · rw [if_pos h2]
        · rw [if_neg h2, if_pos hs]
    | cons r b ih =>
      simp only [List.cons_append, rows]
      cases hst : step L sgn s r with
      | none => rfl
      | some s' => exact ih s' (step_keeps_events L sgn s s' r hst hs)
  have hall : ∀ (a : List Row) (s : St), rows L sgn (a ++ .dated d t :: b ++ .named desc u :: c) s = none := by
    intro a
    induction a with
    | nil =>
      intro s
      simp only [List.nil_append, List.cons_append, rows, step]
      exact hn c _ (addEvent_ne_nil _ _ _) b
    | cons r a ih =>
      intro s
      simp only [List.cons_append, rows]
      cases hst : step L sgn s r with
      | none => rfl
      | some s' => simpa using ih s'
  unfold parseEvents
  rw [hall a {}]

/-- A library that splits a text into its lines, for the examples. -/
def exLib : Lib Str where
  subst := fun _ _ t => t
  isNumber := fun _ => false
  toDouble := fun _ => 0
  sched := fun _ => some [(1, 2, 2), (2, 3, 3)]
  dateText := fun _ => []
  parse := fun _ t => some [t]

example : parseEvents exLib true 2 [.dated 3 ['a'], .dated 1 ['b'], .named [':'] ['s'], .dated 3 ['c']] =
    some ⟨[(1, [['b']])], [(2, [['s']]), (3, [['a', '\n', 's', '\n', 'c']])]⟩ := rfl

example : ∀ d, [(3, ['a']), (1, ['b']), (3, ['c'])].filter (fun x : Nat × Str => x.1 = d) =
    [(3, ['a']), (3, ['c']), (1, ['b'])].filter (fun x => x.1 = d) := by
  intro d
  by_cases h1 : 3 = d <;> by_cases h2 : 1 = d <;> simp [h1, h2] <;> omega

end Dal
