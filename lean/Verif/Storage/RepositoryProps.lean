import Verif.Strings.StringProps
import Verif.Strings.DictionaryProps
import Verif.Storage.RepositoryModel

/-! # C22: the object repository -/

namespace Dal
open Strings Repo

variable {α : Type}

/-- Well-formed repositories: entries strictly ordered by tag, each under the tag of its object. -/
structure RepoOK (sgn : Bool) (r : Repo α) : Prop where
  sorted : r.Pairwise fun a b => ltS sgn a.1 b.1 = true
  tags : ∀ e ∈ r, e.1 = tag e.2

theorem RepoOK.sublist {sgn : Bool} {r r' : Repo α} (h : RepoOK sgn r) (hs : r'.Sublist r) :
    RepoOK sgn r' :=
  ⟨h.sorted.sublist hs, fun e he => h.tags e (hs.subset he)⟩

theorem RepoOK.insert {sgn : Bool} {r : Repo α} (h : RepoOK sgn r) (s : Obj α) :
    RepoOK sgn (insertObj sgn s r) :=
  ⟨mapInsert_sorted sgn _ _ _ h.sorted, fun e he => by
    rcases mapInsert_keys sgn _ _ _ e he with rfl | he
    · rfl
    · exact h.tags e he⟩

/-! ### Prefix ranges -/

theorem hasPrefix_iff (sgn : Bool) (start k : Str) :
    hasPrefix sgn start k = true ↔ start.map (sortVal sgn) <+: k.map (sortVal sgn) := by
  unfold hasPrefix
  rw [eqS_iff_map, List.map_take, List.prefix_iff_eq_take, List.length_map]
  exact eq_comm

theorem prefix_not_lt (p l : List Int) (h : p <+: l) : ¬ l < p := by
  induction p generalizing l with
  | nil => simp
  | cons a p ih =>
    obtain ⟨t, rfl⟩ := h
    intro hlt
    rw [List.cons_append, List.cons_lt_cons_iff] at hlt
    rcases hlt with h | ⟨_, h⟩
    · exact lt_irrefl _ h
    · exact ih _ ⟨t, rfl⟩ h

/-- Between a prefix and a word having it, everything has it. -/
theorem prefix_convex (p k l : List Int) (h1 : ¬ k < p) (h2 : k < l) (h3 : p <+: l) : p <+: k := by
  induction p generalizing k l with
  | nil => exact List.nil_prefix
  | cons a p ih =>
    obtain ⟨t, rfl⟩ := h3
    cases k with
    | nil => exact absurd (by simp) h1
    | cons b k =>
      rw [List.cons_lt_cons_iff] at h1
      rw [List.cons_append, List.cons_lt_cons_iff] at h2
      have hab : b = a := by
        rcases h2 with h | ⟨h, _⟩
        · exact absurd (Or.inl h) h1
        · exact h
      subst hab
      have h1' : ¬ k < p := fun h => h1 (Or.inr ⟨rfl, h⟩)
      have h2' : k < p ++ t := by
        rcases h2 with h | ⟨_, h⟩
        · exact absurd h (lt_irrefl _)
        · exact h
      exact (List.prefix_cons_inj b).2 (ih k _ h1' h2' ⟨t, rfl⟩)

/-- Erasing by start removes exactly the entries whose tag starts with the text (case-insensitively),
although the code only scans from the lower bound to the first tag that does not. -/
theorem C22_erase_by_start (sgn : Bool) (start : Str) (r : Repo α)
    (h : r.Pairwise fun a b => ltS sgn a.1 b.1 = true) :
    eraseByStart sgn start r = r.filter (fun e => !hasPrefix sgn start e.1) := by
  unfold eraseByStart
  induction r with
  | nil => rfl
  | cons e r ih =>
    rw [List.pairwise_cons] at h
    by_cases h1 : ltS sgn e.1 start = true
    · have hp : hasPrefix sgn start e.1 = false := by
        rw [← Bool.not_eq_true, hasPrefix_iff]
        intro hp
        exact prefix_not_lt _ _ hp ((ltS_iff_map sgn _ _).1 h1)
      rw [List.takeWhile_cons, if_pos h1, List.dropWhile_cons, if_pos h1,
        List.filter_cons_of_pos (by simp [hp]), List.cons_append, ih h.2]
    · rw [List.takeWhile_cons, if_neg h1, List.dropWhile_cons, if_neg h1, List.nil_append]
      have hge : ∀ x ∈ e :: r, ¬ ltS sgn x.1 start = true := by
        intro x hx
        rcases List.mem_cons.1 hx with rfl | hx
        · exact h1
        · rw [ltS_iff_map] at h1 ⊢
          have := (ltS_iff_map sgn _ _).1 (h.1 x hx)
          exact fun hlt => h1 (this.trans hlt)
      have hs : (e :: r).Pairwise fun a b => ltS sgn a.1 b.1 = true := List.pairwise_cons.2 h
      generalize e :: r = l at hge hs
      clear ih h h1
      induction l with
      | nil => rfl
      | cons x l ih =>
        rw [List.pairwise_cons] at hs
        have ih' := ih (fun y hy => hge y (by simp [hy])) hs.2
        by_cases hx : hasPrefix sgn start x.1 = true
        · rw [List.dropWhile_cons, if_pos hx, List.filter_cons_of_neg (by simp [hx]), ih']
        · rw [List.dropWhile_cons, if_neg hx, List.filter_cons_of_pos (by simp [hx])]
          rw [List.filter_eq_self.2]
          intro y hy
          rw [Bool.not_eq_true', ← Bool.not_eq_true]
          intro hpy
          rw [hasPrefix_iff] at hx hpy
          exact hx (prefix_convex _ _ _ (fun h => hge x (by simp) ((ltS_iff_map sgn _ _).2 h))
            ((ltS_iff_map sgn _ _).1 (hs.1 y hy)) hpy)

theorem eraseFor_sublist (sgn : Bool) (rule : EraseRule) (s : Obj α) (r : Repo α)
    (h : RepoOK sgn r) : (eraseFor sgn rule s r).Sublist r := by
  have key : ∀ st, (eraseByStart sgn st r).Sublist r := by
    intro st
    rw [C22_erase_by_start sgn st r h.sorted]; exact List.filter_sublist
  unfold eraseFor
  split
  · split_ifs
    · exact List.Sublist.refl _
    · exact key _
  · exact key _
  · exact key _
  · exact List.Sublist.refl _

theorem erasePattern_eq (p : Str → Bool) (r : Repo α) :
    erasePattern p r = (r.filter (fun e => !p e.1), r.countP (fun e => p e.1)) := by
  induction r with
  | nil => rfl
  | cons e r ih =>
    rw [erasePattern, ih]
    by_cases h : p e.1 = true <;> simp [h]

theorem eraseKey_eq (sgn : Bool) (k : Str) (r : Repo α)
    (h : r.Pairwise fun a b => ltS sgn a.1 b.1 = true) :
    eraseKey sgn k r = r.filter (fun e => !eqS sgn k e.1) := by
  induction r with
  | nil => rfl
  | cons e r ih =>
    rw [List.pairwise_cons] at h
    have hiff := mapFind_iff (V := α) sgn k e.1
    by_cases he : eqS sgn k e.1 = true
    · rw [eraseKey, if_pos (hiff.2 he), List.filter_cons_of_neg (by simp [he]), List.filter_eq_self.2]
      intro x hx
      have hx' := (ltS_iff_map sgn _ _).1 (h.1 x hx)
      rw [Bool.not_eq_true', ← Bool.not_eq_true, eqS_iff_map]
      rw [eqS_iff_map] at he
      intro hk
      rw [he] at hk
      rw [hk] at hx'
      exact lt_irrefl _ hx'
    · rw [eraseKey, if_neg (fun hc => he (hiff.1 hc)), List.filter_cons_of_pos (by simp [he]), ih h.2]

/-- Every sequence of operations keeps the repository well formed, so tags stay distinct. -/
theorem C22_invariant (sgn : Bool) (ops : List (Op α)) (r : Repo α) (h : RepoOK sgn r) :
    RepoOK sgn (ops.foldl (step sgn) r) := by
  induction ops generalizing r with
  | nil => exact h
  | cons op ops ih =>
    rw [List.foldl_cons]
    apply ih
    cases op with
    | add rule s => exact (h.sublist (eraseFor_sublist sgn rule s r h)).insert s
    | erasePattern p =>
      simp only [step, erasePattern_eq]; exact h.sublist List.filter_sublist
    | eraseObject o =>
      simp only [step, eraseObject]
      split_ifs
      · simp only [eraseKey_eq sgn _ _ h.sorted]; exact h.sublist List.filter_sublist
      · exact h

example : RepoOK true ([] : Repo Nat) := ⟨List.Pairwise.nil, by simp⟩

/-! ### Adding -/

theorem mapFind_mem {V : Type} (sgn : Bool) (k : Str) (m : List (Str × V)) (v : V)
    (h : mapFind sgn k m = some v) : ∃ k', (k', v) ∈ m ∧ eqS sgn k k' = true := by
  induction m with
  | nil => simp [mapFind] at h
  | cons e m ih =>
    rw [mapFind] at h
    split_ifs at h with hc
    · obtain rfl := Option.some.inj h
      exact ⟨e.1, by simp, (mapFind_iff (V := V) sgn k e.1).1 hc⟩
    · obtain ⟨k', h1, h2⟩ := ih h
      exact ⟨k', by simp [h1], h2⟩

theorem built_of_sorted {V : Type} (sgn : Bool) (m : List (Str × V))
    (h : m.Pairwise fun a b => ltS sgn a.1 b.1 = true) : Built sgn m := by
  -- insert the entries from the last to the first
  induction m with
  | nil => exact .empty
  | cons e m ih =>
    rw [List.pairwise_cons] at h
    have : mapInsert sgn e.1 e.2 m = e :: m := by
      cases m with
      | nil => rfl
      | cons x m => rw [mapInsert, if_pos (h.1 x (by simp))]
    rw [← this]
    exact .insert _ _ (ih h.2)

theorem last_sep {s : Int} {a b c d : List Int} (hb : s ∉ b) (hd : s ∉ d)
    (h : a ++ s :: b = c ++ s :: d) : a = c ∧ b = d := by
  have h' : b.reverse ++ s :: a.reverse = d.reverse ++ s :: c.reverse := by
    have := congrArg List.reverse h
    simpa using this
  have hb' : s ∉ b.reverse := by simpa using hb
  have hd' : s ∉ d.reverse := by simpa using hd
  generalize b.reverse = x at *
  generalize d.reverse = y at *
  suffices x = y ∧ a.reverse = c.reverse by
    constructor
    · exact List.reverse_injective this.2
    · have h2 := h
      have ha : a = c := List.reverse_injective this.2
      subst ha
      simpa using h2
  clear h
  induction x generalizing y with
  | nil => cases y with
    | nil => simpa using h'
    | cons z y =>
      simp only [List.nil_append, List.cons_append, List.cons.injEq] at h'
      exact absurd (by simp [h'.1]) hd'
  | cons w x ih => cases y with
    | nil =>
      simp only [List.nil_append, List.cons_append, List.cons.injEq] at h'
      exact absurd (by simp [h'.1]) hb'
    | cons z y =>
      simp only [List.cons_append, List.cons.injEq] at h'
      obtain ⟨h1, h2⟩ := ih (fun h => hb' (by simp [h])) y (fun h => hd' (by simp [h])) h'.2
      exact ⟨by rw [h'.1, h1], h2⟩

theorem first_sep {s : Int} {a b c d : List Int} (ha : s ∉ a) (hc : s ∉ c)
    (h : (a ++ s :: b) <+: (c ++ s :: d)) : a = c ∧ b <+: d := by
  induction a generalizing c with
  | nil => cases c with
    | nil => exact ⟨rfl, (List.prefix_cons_inj s).1 (by simpa using h)⟩
    | cons y c =>
      rw [List.nil_append, List.cons_append, List.cons_prefix_cons] at h
      exact absurd (by simp [h.1]) hc
  | cons x a ih => cases c with
    | nil =>
      rw [List.nil_append, List.cons_append, List.cons_prefix_cons] at h
      exact absurd (by simp [h.1]) ha
    | cons y c =>
      rw [List.cons_append, List.cons_append, List.cons_prefix_cons] at h
      obtain ⟨h1, h2⟩ := ih (fun h => ha (by simp [h])) (fun h => hc (by simp [h])) h.2
      exact ⟨by rw [h.1, h1], h2⟩

theorem tilde_mem (sgn : Bool) (s : Str) (hb : Bytes s) (h : '~' ∉ s) :
    sortVal sgn '~' ∉ s.map (sortVal sgn) := by
  intro hm
  obtain ⟨c, hc, e⟩ := List.mem_map.1 hm
  have h256 := hb c hc
  have := (sortVal_eq_iff sgn h256 (by decide)).1 e
  have h126 : foldByte '~' = 126 := by decide
  rw [h126] at this
  have : c.toNat = 126 := by
    unfold foldByte at this
    generalize c.toNat = x at *
    split_ifs at this <;> omega
  have : c = '~' := Char.toNat_inj.1 this
  exact h (this ▸ hc)

/-- The parts of an object's tag are bytes and the type, the address contain no `~`. -/
structure ObjOK (o : Obj α) : Prop where
  bytesT : Bytes o.type
  bytesN : Bytes o.name
  bytesA : Bytes o.addr
  tildeT : '~' ∉ o.type
  tildeA : '~' ∉ o.addr

theorem tag_map (sgn : Bool) (o : Obj α) : (tag o).map (sortVal sgn) =
    (sortVal sgn '~' :: (o.type.map (sortVal sgn) ++ sortVal sgn '~' :: o.name.map (sortVal sgn))) ++
      sortVal sgn '~' :: o.addr.map (sortVal sgn) := by
  simp [tag, baseTag, typeTag]

theorem tag_eq_addr (sgn : Bool) (o o' : Obj α) (h : ObjOK o) (h' : ObjOK o')
    (he : eqS sgn (tag o) (tag o') = true) : eqS sgn o.addr o'.addr = true := by
  rw [eqS_iff_map, tag_map, tag_map] at he
  rw [eqS_iff_map]
  exact (last_sep (tilde_mem sgn _ h.bytesA h.tildeA) (tilde_mem sgn _ h'.bytesA h'.tildeA) he).2

/-- An added object is found under the returned tag.  Hypothesis: live objects have distinct
addresses. -/
theorem C22_add_then_fetch (sgn : Bool) (rule : EraseRule) (s : Obj α) (r : Repo α) (h : RepoOK sgn r)
    (hs : ObjOK s) (hr : ∀ e ∈ r, ObjOK e.2 ∧ (eqS sgn e.2.addr s.addr = true → e.2 = s)) :
    fetch sgn (tag s) (add sgn rule s r) = some s := by
  have hsub := eraseFor_sublist sgn rule s r h
  have hok := h.sublist hsub
  unfold fetch add insertObj
  rw [C15_map_find_insert sgn _ _ (built_of_sorted sgn _ hok.sorted)]
  have hrefl := (C15_eq_equivalence sgn).refl (tag s)
  cases hf : mapFind sgn (tag s) (eraseFor sgn rule s r) with
  | none => simp [hrefl]
  | some o =>
    obtain ⟨k, hk, hke⟩ := mapFind_mem sgn _ _ _ hf
    have hm := hsub.subset hk
    have hk' : k = tag o := h.tags _ hm
    subst hk'
    obtain ⟨ho, hu⟩ := hr _ hm
    have := tag_eq_addr sgn o s ho hs ((C15_eq_equivalence sgn).symm hke)
    have hos : o = s := hu this
    rw [hos]; simp

example : ObjOK (⟨"Box".toList, "a".toList, "0x10".toList, 1⟩ : Obj Nat) := by
  constructor <;> (try unfold Bytes) <;> decide +kernel

/-- Same type and name, case-insensitively. -/
def sameName (sgn : Bool) (o s : Obj α) : Bool := eqS sgn o.type s.type && eqS sgn o.name s.name

theorem hasPrefix_name (sgn : Bool) (s o : Obj α) (hs : ObjOK s) (ho : ObjOK o) (ns : '~' ∉ s.name)
    (no : '~' ∉ o.name) :
    hasPrefix sgn (baseTag s.type s.name) (tag o) = sameName sgn o s := by
  rw [Bool.eq_iff_iff, hasPrefix_iff, tag_map]
  have e : (baseTag s.type s.name).map (sortVal sgn) =
      sortVal sgn '~' :: (s.type.map (sortVal sgn) ++ sortVal sgn '~' ::
        (s.name.map (sortVal sgn) ++ [sortVal sgn '~'])) := by simp [baseTag, typeTag]
  rw [e, sameName, Bool.and_eq_true, eqS_iff_map, eqS_iff_map]
  constructor
  · intro h
    rw [List.cons_append, List.cons_prefix_cons, List.append_assoc] at h
    obtain ⟨h1, h2⟩ := first_sep (tilde_mem sgn _ hs.bytesT hs.tildeT)
      (tilde_mem sgn _ ho.bytesT ho.tildeT) h.2
    obtain ⟨h3, _⟩ := first_sep (b := []) (tilde_mem sgn _ hs.bytesN ns)
      (tilde_mem sgn _ ho.bytesN no) h2
    exact ⟨h1.symm, h3.symm⟩
  · rintro ⟨h1, h2⟩
    rw [h1, h2]
    exact ⟨o.addr.map (sortVal sgn), by simp⟩

theorem hasPrefix_type (sgn : Bool) (s o : Obj α) (hs : ObjOK s) (ho : ObjOK o) :
    hasPrefix sgn (typeTag s.type) (tag o) = eqS sgn o.type s.type := by
  rw [Bool.eq_iff_iff, hasPrefix_iff, tag_map]
  have e : (typeTag s.type).map (sortVal sgn) =
      sortVal sgn '~' :: (s.type.map (sortVal sgn) ++ sortVal sgn '~' :: []) := by simp [typeTag]
  rw [e, eqS_iff_map]
  constructor
  · intro h
    rw [List.cons_append, List.cons_prefix_cons, List.append_assoc] at h
    exact (first_sep (tilde_mem sgn _ hs.bytesT hs.tildeT)
      (tilde_mem sgn _ ho.bytesT ho.tildeT) h.2).1.symm
  · intro h1
    rw [h1]
    exact ⟨o.name.map (sortVal sgn) ++ sortVal sgn '~' :: o.addr.map (sortVal sgn), by simp⟩

/-- What the erase rules remove before adding: with the default rule exactly the objects of the same
type and name when the name is not empty, with `TYPE` exactly the objects of the same type, with `NONE`
nothing.  Missing for the full claim: names containing `~`, see `C22_tilde_violated`. -/
theorem C22_add_erases_exactly_partial (sgn : Bool) (s : Obj α) (r : Repo α) (h : RepoOK sgn r)
    (hs : ObjOK s) (ns : '~' ∉ s.name) (hr : ∀ e ∈ r, ObjOK e.2 ∧ '~' ∉ e.2.name) :
    eraseFor sgn .nameNonempty s r =
      (if s.name = [] then r else r.filter (fun e => !sameName sgn e.2 s)) ∧
    eraseFor sgn .name s r = r.filter (fun e => !sameName sgn e.2 s) ∧
    eraseFor sgn .type s r = r.filter (fun e => !eqS sgn e.2.type s.type) ∧
    eraseFor sgn .none s r = r := by
  have h1 : eraseByStart sgn (baseTag s.type s.name) r = r.filter (fun e => !sameName sgn e.2 s) := by
    rw [C22_erase_by_start sgn _ r h.sorted]
    apply List.filter_congr
    intro e he
    rw [h.tags e he, hasPrefix_name sgn s e.2 hs (hr e he).1 ns (hr e he).2]
  have h2 : eraseByStart sgn (typeTag s.type) r = r.filter (fun e => !eqS sgn e.2.type s.type) := by
    rw [C22_erase_by_start sgn _ r h.sorted]
    apply List.filter_congr
    intro e he
    rw [h.tags e he, hasPrefix_type sgn s e.2 hs (hr e he).1]
  refine ⟨?_, h1, h2, rfl⟩
  simp only [eraseFor, h1]

example : '~' ∉ "curve".toList ∧ eraseFor true .nameNonempty (⟨['T'], ['b'], ['2'], 0⟩ : Obj Nat)
    [("~T~a~1".toList, ⟨['T'], ['a'], ['1'], 0⟩), ("~T~B~1".toList, ⟨['T'], ['B'], ['1'], 0⟩)] =
    [("~T~a~1".toList, ⟨['T'], ['a'], ['1'], 0⟩)] := by
  refine ⟨by decide, rfl⟩

/-- A name containing `~` is erased by adding an object whose name is only a prefix of it. -/
theorem C22_tilde_violated (sgn : Bool) :
    ∃ s o : Obj Nat, sameName sgn o s = false ∧
      fetch sgn (tag o) (add sgn .nameNonempty o []) = some o ∧
      fetch sgn (tag o) (add sgn .nameNonempty s (add sgn .nameNonempty o [])) = none := by
  refine ⟨⟨['T'], ['A'], ['1'], 0⟩, ⟨['T'], "A~B".toList, ['2'], 0⟩, ?_, ?_, ?_⟩
  · cases sgn <;> decide +kernel
  · cases sgn <;> rfl
  · cases sgn <;> rfl

/-- After adding, the other entries are exactly those the erase rule leaves. -/
theorem C22_add_entries (sgn : Bool) (rule : EraseRule) (s : Obj α) (r : Repo α) (h : RepoOK sgn r)
    (hs : ObjOK s) (hr : ∀ e ∈ r, ObjOK e.2 ∧ (eqS sgn e.2.addr s.addr = true → e.2 = s)) (o : Obj α) :
    (∃ k, (k, o) ∈ add sgn rule s r) ↔ o = s ∨ ∃ k, (k, o) ∈ eraseFor sgn rule s r := by
  constructor
  · rintro ⟨k, hk⟩
    rcases mapInsert_keys sgn _ _ _ _ hk with h1 | h1
    · left; exact (Prod.ext_iff.1 h1).2
    · right; exact ⟨k, h1⟩
  · rintro (rfl | ⟨k, hk⟩)
    · have := C22_add_then_fetch sgn rule o r h hs hr
      obtain ⟨k, hk, _⟩ := mapFind_mem sgn _ _ _ this
      exact ⟨k, hk⟩
    · refine ⟨k, ?_⟩
      unfold add insertObj
      generalize eraseFor sgn rule s r = m at hk
      induction m with
      | nil => simp at hk
      | cons e m ih =>
        rw [mapInsert]
        split_ifs
        · simp [List.mem_cons.1 hk]
        · rcases List.mem_cons.1 hk with h | h
          · simp [h]
          · simp [ih h]
        · exact hk

/-- Erasing by pattern removes exactly the matching entries and returns their number. -/
theorem C22_erase_pattern (p : Str → Bool) (r : Repo α) :
    (∀ e, e ∈ (erasePattern p r).1 ↔ e ∈ r ∧ p e.1 = false) ∧
    (erasePattern p r).2 + size (erasePattern p r).1 = size r := by
  rw [erasePattern_eq]
  constructor
  · intro e; simp
  · simp only [size]
    rw [← List.countP_eq_length_filter]
    have := List.length_eq_countP_add_countP (fun e : Str × Obj α => p e.1) (l := r)
    rw [this]
    congr 1
    apply List.countP_congr
    intro e _; simp

/-- Erasing an object removes exactly the entry with its tag and reports whether there was one. -/
theorem C22_erase_object (sgn : Bool) (o : Obj α) (r : Repo α) (h : RepoOK sgn r) :
    (∀ e, e ∈ (eraseObject sgn o r).1 ↔ e ∈ r ∧ eqS sgn (tag o) (tag e.2) = false) ∧
    ((eraseObject sgn o r).2 = true ↔ ∃ e ∈ r, eqS sgn (tag o) (tag e.2) = true) ∧
    size (eraseObject sgn o r).1 + (if (eraseObject sgn o r).2 then 1 else 0) = size r := by
  have hfind : (mapFind sgn (tag o) r).isSome = true ↔ ∃ e ∈ r, eqS sgn (tag o) (tag e.2) = true := by
    constructor
    · intro hs
      obtain ⟨x, hx⟩ := Option.isSome_iff_exists.1 hs
      obtain ⟨k, h1, h2⟩ := mapFind_mem sgn _ _ _ hx
      exact ⟨_, h1, by rw [← h.tags _ h1]; exact h2⟩
    · rintro ⟨e, he, hq⟩
      rw [← h.tags e he] at hq
      clear h
      induction r with
      | nil => simp at he
      | cons x r ih =>
        rw [mapFind]
        split_ifs with hc
        · rfl
        · rcases List.mem_cons.1 he with rfl | he
          · exact absurd ((mapFind_iff (V := α) sgn _ _).2 hq) hc
          · exact ih he
  unfold eraseObject
  by_cases hc : (mapFind sgn (tag o) r).isSome = true
  · simp only [if_pos hc]
    simp only [eraseKey_eq sgn _ _ h.sorted]
    refine ⟨?_, by simpa using hfind.1 hc, ?_⟩
    · intro e
      rw [List.mem_filter]
      constructor
      · rintro ⟨h1, h2⟩; rw [h.tags e h1] at h2; exact ⟨h1, by simpa using h2⟩
      · rintro ⟨h1, h2⟩; exact ⟨h1, by rw [h.tags e h1]; simpa using h2⟩
    · obtain ⟨e, he, hq⟩ := hfind.1 hc
      rw [← h.tags e he] at hq
      simp only [size, if_true]
      have hkey := eraseKey_eq sgn (tag o) r h.sorted
      rw [← hkey]
      clear hkey hc hfind h
      induction r with
      | nil => simp at he
      | cons x r ih =>
        rw [eraseKey]
        split_ifs with hx
        · simp
        · rcases List.mem_cons.1 he with rfl | he
          · exact absurd ((mapFind_iff (V := α) sgn _ _).2 hq) hx
          · simp only [List.length_cons]; rw [← ih he]
  · have hn : ∀ e ∈ r, eqS sgn (tag o) (tag e.2) = false := by
      intro e he
      rw [← Bool.not_eq_true]
      exact fun hq => hc (hfind.2 ⟨e, he, hq⟩)
    simp only [if_neg hc]
    refine ⟨fun e => ⟨fun he => ⟨he, hn e he⟩, fun he => he.1⟩, ?_, by simp⟩
    simp only [Bool.false_eq_true, false_iff, not_exists, not_and]
    intro e he; rw [hn e he]; simp

/-- Finding by pattern lists exactly the matching objects, in tag order. -/
theorem C22_find (p : Str → Bool) (r : Repo α) :
    find p r = (r.filter (fun e => p e.1)).map Prod.snd := by
  have key : ∀ (r : Repo α) acc, r.foldl (fun acc e => if p e.1 then acc ++ [e.2] else acc) acc =
      acc ++ (r.filter (fun e => p e.1)).map Prod.snd := by
    intro r
    induction r with
    | nil => simp
    | cons e r ih =>
      intro acc
      rw [List.foldl_cons, ih]
      by_cases h : p e.1 = true <;> simp [h]
  unfold find; rw [key]; simp

/-- Two threads adding objects of the same name with the erasing rule can leave both in the
repository, because erasing and inserting are separate critical sections: here thread 1 erases, thread
2 erases, then both insert. -/
theorem C22_concurrent_violated (sgn : Bool) :
    ∃ s t : Obj Nat, sameName sgn s t = true ∧
      (let r1 := addStep sgn .name s (.erase, [])
       let r2 := addStep sgn .name t (.erase, r1.2)
       let r3 := addStep sgn .name s (r1.1, r2.2)
       let r4 := addStep sgn .name t (r2.1, r3.2)
       r3.1 = .done ∧ r4.1 = .done ∧ size r4.2 = 2) := by
  refine ⟨⟨['T'], ['A'], ['1'], 0⟩, ⟨['T'], ['A'], ['2'], 0⟩, ?_, ?_⟩
  · cases sgn <;> decide +kernel
  · cases sgn <;> exact ⟨rfl, rfl, rfl⟩

/-! ### The store of globals built on the repository -/

theorem dropWhile_prefix (sgn : Bool) (start : Str) (r : Repo α)
    (h : r.Pairwise fun a b => ltS sgn a.1 b.1 = true) :
    lowerEntry sgn start r =
    ((r.filter (fun e => hasPrefix sgn start e.1)).head?).map (fun e => e.2.data) := by
  unfold lowerEntry
  induction r with
  | nil => rfl
  | cons e r ih =>
    rw [List.pairwise_cons] at h
    by_cases h1 : ltS sgn e.1 start = true
    · have hp : hasPrefix sgn start e.1 = false := by
        rw [← Bool.not_eq_true, hasPrefix_iff]
        intro hp
        exact prefix_not_lt _ _ hp ((ltS_iff_map sgn _ _).1 h1)
      rw [List.dropWhile_cons, if_pos h1, List.filter_cons_of_neg (by simp [hp]), ih h.2]
    · rw [List.dropWhile_cons, if_neg h1]
      by_cases hp : hasPrefix sgn start e.1 = true
      · rw [List.filter_cons_of_pos (by simpa using hp)]; simp [hp]
      · rw [List.filter_cons_of_neg (by simpa using hp)]
        have : r.filter (fun e => hasPrefix sgn start e.1) = [] := by
          rw [List.filter_eq_nil_iff]
          intro y hy hpy
          rw [ltS_iff_map] at h1
          rw [hasPrefix_iff] at hp hpy
          exact hp (prefix_convex _ _ _ h1 ((ltS_iff_map sgn _ _).1 (h.1 y hy)) hpy)
        rw [this]; simp [hp]

/-- The value stored for a global is the one read back; storing one global leaves those of other
names alone. -/
theorem C22_store_get_set (sgn : Bool) (r : Repo α) (h : RepoOK sgn r) (addr name other : Str) (v : α)
    (hs : ObjOK (⟨boxType, globalName name, addr, v⟩ : Obj α)) (ns : '~' ∉ name)
    (hb : Bytes other) (no : '~' ∉ other)
    (hr : ∀ e ∈ r, ObjOK e.2 ∧ '~' ∉ e.2.name ∧ eqS sgn e.2.addr addr = false) :
    storeGet sgn name (storeSet sgn addr name v r) = some v ∧
    (eqS sgn (globalName name) (globalName other) = false →
      storeGet sgn other (storeSet sgn addr name v r) = storeGet sgn other r) := by
  set s : Obj α := ⟨boxType, globalName name, addr, v⟩ with hsdef
  have hgl : ∀ n : Str, '~' ∉ n → '~' ∉ globalName n := by
    intro n hn; unfold globalName; simp only [List.mem_append, not_or]; exact ⟨by decide, hn⟩
  have hgn : ∀ n : Str, Bytes n → Bytes (globalName n) := by
    intro n hn c hc
    rcases List.mem_append.1 hc with h | h
    · have : Bytes "##GLOBAL##".toList := by unfold Bytes; decide +kernel
      exact this c h
    · exact hn c h
  have hns : '~' ∉ s.name := hgl name ns
  obtain ⟨-, he, -, -⟩ := C22_add_erases_exactly_partial sgn s r h hs hns
    (fun e he => ⟨(hr e he).1, (hr e he).2.1⟩)
  have hok : RepoOK sgn (eraseFor sgn .name s r) := h.sublist (eraseFor_sublist sgn .name s r h)
  have hok2 : RepoOK sgn (add sgn .name s r) := hok.insert s
  have hrs : ∀ e ∈ r, ObjOK e.2 ∧ (eqS sgn e.2.addr s.addr = true → e.2 = s) := by
    intro e he
    refine ⟨(hr e he).1, fun hq => ?_⟩
    rw [(hr e he).2.2] at hq; cases hq
  have hmem := C22_add_entries sgn .name s r h hs hrs
  -- entries of the new repository, by object
  have hall : ∀ e ∈ add sgn .name s r, e.2 = s ∨ (e ∈ r ∧ sameName sgn e.2 s = false) := by
    intro e hem
    rcases mapInsert_keys sgn _ _ _ e hem with h1 | h1
    · left; rw [h1]
    · right
      change e ∈ eraseFor sgn .name s r at h1
      rw [he, List.mem_filter] at h1
      exact ⟨h1.1, by simpa using h1.2⟩
  have hokAll : ∀ e ∈ add sgn .name s r, ObjOK e.2 ∧ '~' ∉ e.2.name := by
    intro e hem
    rcases hall e hem with h1 | h1
    · rw [h1]; exact ⟨hs, hns⟩
    · exact ⟨(hr e h1.1).1, (hr e h1.1).2.1⟩
  constructor
  · change storeGet sgn name (add sgn .name s r) = some v
    unfold storeGet
    rw [dropWhile_prefix sgn _ _ hok2.sorted]
    have hf : ∀ e ∈ add sgn .name s r, hasPrefix sgn (baseTag boxType (globalName name)) e.1 = true →
        e.2 = s := by
      intro e hem hp
      rw [hok2.tags e hem] at hp
      rw [hasPrefix_name sgn s e.2 hs (hokAll e hem).1 hns (hokAll e hem).2] at hp
      rcases hall e hem with h1 | h1
      · exact h1
      · rw [h1.2] at hp; cases hp
    have hex : ∃ k, (k, s) ∈ add sgn .name s r := (hmem s).2 (Or.inl rfl)
    obtain ⟨k, hk⟩ := hex
    have hkp : hasPrefix sgn (baseTag boxType (globalName name)) k = true := by
      have hkt : k = tag s := hok2.tags _ hk
      rw [hkt]
      change hasPrefix sgn (baseTag s.type s.name) (tag s) = true
      rw [hasPrefix_name sgn s s hs hs hns hns, sameName]
      simp [(C15_eq_equivalence sgn).refl _]
    have hin : (k, s) ∈ (add sgn .name s r).filter
        (fun e => hasPrefix sgn (baseTag boxType (globalName name)) e.1) :=
      List.mem_filter.2 ⟨hk, hkp⟩
    cases hl : (add sgn .name s r).filter
        (fun e => hasPrefix sgn (baseTag boxType (globalName name)) e.1) with
    | nil => rw [hl] at hin; simp at hin
    | cons x xs =>
      have hx : x ∈ (add sgn .name s r).filter
          (fun e => hasPrefix sgn (baseTag boxType (globalName name)) e.1) := by rw [hl]; simp
      obtain ⟨hx1, hx2⟩ := List.mem_filter.1 hx
      have := hf x hx1 hx2
      simp [this, hsdef]
  · intro hne
    change storeGet sgn other (add sgn .name s r) = _
    unfold storeGet
    rw [dropWhile_prefix sgn _ _ hok2.sorted, dropWhile_prefix sgn _ _ h.sorted]
    set d : Obj α := ⟨boxType, globalName other, [], v⟩ with hd
    have hdok : ObjOK d := by
      refine ⟨hs.bytesT, hgn other hb, ?_, hs.tildeT, by simp [hd]⟩
      intro c hc; simp [hd] at hc
    have hdn : '~' ∉ d.name := hgl other no
    have hpre : ∀ o : Obj α, ObjOK o → '~' ∉ o.name →
        hasPrefix sgn (baseTag boxType (globalName other)) (tag o) = sameName sgn o d :=
      fun o ho hn => hasPrefix_name sgn d o hdok ho hdn hn
    have hsd : sameName sgn s d = false := by
      simp only [sameName, hsdef, hd, hne, Bool.and_false]
    -- inserting s does not change the filtered list
    have hins : ∀ m : Repo α, (mapInsert sgn (tag s) s m).filter
        (fun e => hasPrefix sgn (baseTag boxType (globalName other)) e.1) =
        m.filter (fun e => hasPrefix sgn (baseTag boxType (globalName other)) e.1) := by
      intro m
      have hsp : hasPrefix sgn (baseTag boxType (globalName other)) (tag s) = false := by
        rw [hpre s hs hns, hsd]
      induction m with
      | nil => rw [mapInsert, List.filter_cons_of_neg (by rw [hsp]; simp)]
      | cons x m ih =>
        rw [mapInsert]
        split_ifs
        · rw [List.filter_cons_of_neg (by rw [hsp]; simp)]
        · rw [List.filter_cons, List.filter_cons, ih]
        · rfl
    have hadd : add sgn .name s r = mapInsert sgn (tag s) s (eraseFor sgn .name s r) := rfl
    rw [hadd, hins, he, List.filter_filter]
    congr 2
    apply List.filter_congr
    intro e hem
    rw [h.tags e hem, hpre e.2 (hr e hem).1 (hr e hem).2.1]
    -- an object named like d is not named like s
    by_cases hsame : sameName sgn e.2 d = true
    · have hn2 : sameName sgn e.2 s = false := by
        rw [← Bool.not_eq_true]
        intro hc
        simp only [sameName, Bool.and_eq_true] at hc hsame
        have := (C15_eq_equivalence sgn).trans ((C15_eq_equivalence sgn).symm hc.2) hsame.2
        have e1 : s.name = globalName name := rfl
        have e2 : d.name = globalName other := rfl
        rw [e1, e2, hne] at this; cases this
      simp [hsame, hn2]
    · simp [hsame]

end Dal
