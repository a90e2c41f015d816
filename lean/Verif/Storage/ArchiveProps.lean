import Verif.Storage.ArchiveModel
import Verif.Storage.JsonModel

/-! # C88: archives of objects that refer to each other -/

namespace Dal

open Archive

/-! ### Specification -/

section
variable {K A E : Type} [DecidableEq A]

/-- Values after reading correspond to those before, with objects exchanged by `phi`. -/
def ItemLike (phi : Addr → Option Addr) : Item A → Item A → Prop
  | .atom a, y => y = .atom a
  | .null, y => y = .null
  | .ref r, y => ∃ r', phi r = some r' ∧ y = .ref r'

def ValueLike (phi : Addr → Option Addr) : Value A → Value A → Prop
  | .one x, v => ∃ y, v = .one y ∧ ItemLike phi x y
  | .many xs, v => ∃ ys, v = .many ys ∧ List.Forall₂ (ItemLike phi) xs ys

/-- A value a member can hold: of its kind, and one that the format can store. -/
def ItemFits (enc : K → A → E) (dec : K → E → Option A) (S : Addr → Prop) : Option K → Item A → Prop
  | some k, .atom a => dec k (enc k a) = some a
  | none, .ref r => S r
  | _, _ => False

/-- Values of members: multiple members and required ones have no null handles. -/
def ValueFits (enc : K → A → E) (dec : K → E → Option A) (dflt : K → A) (S : Addr → Prop) (m : Member K) : Value A → Prop
  | .one x => (m.mode = .required ∧ ItemFits enc dec S m.kind x) ∨ (m.mode = .optional ∧ (x = dfltItem dflt m.kind ∨ ItemFits enc dec S m.kind x))
  | .many xs => (m.mode = .multiple ∨ m.mode = .nonempty ∧ xs ≠ []) ∧ ∀ x ∈ xs, ItemFits enc dec S m.kind x

/-- The names a member may have in the store. -/
def NameOf (m : Member K) (s : Str) : Prop :=
  match m.mode with
  | .required | .optional => s = m.name
  | .multiple | .nonempty => ∃ i, s = m.name ++ digits i

/-- No name can belong to two members. -/
def Unambiguous (ms : List (Member K)) : Prop := ms.Pairwise fun m m' => ∀ s, NameOf m s → ¬NameOf m' s

/-- The handles in values. -/
def refsOf : Value A → List Addr
  | .one (.ref r) => [r]
  | .one _ => []
  | .many xs => xs.filterMap fun | .ref r => some r | _ => none

/-- Objects `S`, closed under handles and without cycles (`rank` falls along handles), of registered classes, with values their members can hold. -/
def GoodHeap (enc : K → A → E) (dec : K → E → Option A) (dflt : K → A) (classes : Str → Option (List (Member K))) (heap : Addr → Obj A) (S : Addr → Prop) (rank : Addr → Nat) : Prop :=
  ∀ a, S a → (heap a).type ≠ [] ∧ (∃ ms, classes (heap a).type = some ms ∧ Unambiguous ms ∧ List.Forall₂ (ValueFits enc dec dflt S) ms (heap a).vals) ∧
    ∀ v ∈ (heap a).vals, ∀ r ∈ refsOf v, rank r < rank a

/-! ### Lookup -/

private theorem lookup_none {V : Type} {l : List (Str × V)} {s : Str} (h : ∀ p ∈ l, p.1 ≠ s) : l.lookup s = none := by
  induction l with
  | nil => rfl
  | cons p l ih =>
    have h1 : (s == p.1) = false := by simpa using (h p (by simp)).symm
    rw [List.lookup_cons, h1]
    exact ih fun q hq => h q (by simp [hq])

private theorem lookup_append_right {V : Type} {l l' : List (Str × V)} {s : Str} (h : ∀ p ∈ l, p.1 ≠ s) : (l ++ l').lookup s = l'.lookup s := by
  induction l with
  | nil => rfl
  | cons p l ih =>
    have h1 : (s == p.1) = false := by simpa using (h p (by simp)).symm
    rw [List.cons_append, List.lookup_cons, h1]
    exact ih fun q hq => h q (by simp [hq])

private theorem lookup_append_left {V : Type} {l l' : List (Str × V)} {s : Str} (h : ∀ p ∈ l', p.1 ≠ s) : (l ++ l').lookup s = l.lookup s := by
  induction l with
  | nil => exact lookup_none h
  | cons p l ih =>
    rw [List.cons_append, List.lookup_cons, List.lookup_cons, ih]

private theorem tag_lookup_mem {T : Tags} {a : Addr} {t : Str} (h : T.lookup a = some t) : (a, t) ∈ T := by
  induction T with
  | nil => simp at h
  | cons p T ih =>
    rw [List.lookup_cons] at h
    split at h
    · rename_i hb
      have : a = p.1 := by simpa using hb
      simp only [Option.some.injEq] at h
      subst this
      subst h
      simp
    · exact List.mem_cons_of_mem _ (ih h)

private theorem tag_lookup_append {T U : Tags} {a : Addr} {t : Str} (h : T.lookup a = some t) : (T ++ U).lookup a = some t := by
  induction T with
  | nil => simp at h
  | cons p T ih =>
    rw [List.lookup_cons] at h
    rw [List.cons_append, List.lookup_cons]
    split at h
    · exact h
    · exact ih h

private theorem tag_lookup_new {T : Tags} {a : Addr} (h : T.lookup a = none) (t : Str) : (T ++ [(a, t)]).lookup a = some t := by
  induction T with
  | nil => simp
  | cons p T ih =>
    rw [List.lookup_cons] at h
    rw [List.cons_append, List.lookup_cons]
    split at h
    · simp at h
    · exact ih h

private theorem tag_lookup_none {T : Tags} {a : Addr} (h : T.lookup a = none) : ∀ t, (a, t) ∉ T := by
  induction T with
  | nil => simp
  | cons p T ih =>
    rw [List.lookup_cons] at h
    split at h
    · simp at h
    · rename_i hb
      intro t ht
      rcases List.mem_cons.1 ht with rfl | ht
      · simp at hb
      · exact ih h t ht

private theorem tag_lookup_of_mem {T : Tags} {a : Addr} {t : Str} (h : (a, t) ∈ T) (hn : (T.map Prod.fst).Nodup) : T.lookup a = some t := by
  induction T with
  | nil => simp at h
  | cons p T ih =>
    rw [List.map_cons, List.nodup_cons] at hn
    rw [List.lookup_cons]
    rcases List.mem_cons.1 h with rfl | h
    · simp
    · have : a ≠ p.1 := fun he => hn.1 (by rw [← he]; exact List.mem_map_of_mem (f := Prod.fst) h)
      have hb : (a == p.1) = false := by simpa using this
      rw [hb]
      exact ih h hn.2

private theorem digits_inj {m n : Nat} (h : digits m = digits n) : m = n := by
  have := congrArg (fun l => Nat.ofDigitChars 10 l 0) h
  simpa [digits, Nat.ofDigitChars_toDigits] using this

private theorem digits_ne (n : Nat) : digits n ≠ [] := fun h => by
  have : n = 0 := by
    have := congrArg (fun l => Nat.ofDigitChars 10 l 0) h
    simpa [digits, Nat.ofDigitChars_toDigits] using this
  subst this
  revert h
  decide

private theorem fst_of_snd {T : Tags} {a b : Addr} {t : Str} (hn : (T.map Prod.snd).Nodup) (ha : (a, t) ∈ T) (hb : (b, t) ∈ T) : a = b := by
  induction T with
  | nil => simp at ha
  | cons p T ih =>
    rw [List.map_cons, List.nodup_cons] at hn
    rcases List.mem_cons.1 ha with ha | ha <;> rcases List.mem_cons.1 hb with hb | hb
    · rw [← ha] at hb; exact (Prod.mk.inj hb).1.symm
    · exact absurd (List.mem_map_of_mem (f := Prod.snd) hb) (by rw [← ha] at hn; exact hn.1)
    · exact absurd (List.mem_map_of_mem (f := Prod.snd) ha) (by rw [← hb] at hn; exact hn.1)
    · exact ih hn.2 ha hb

/-! ### The invariant of writing and reading together -/

/-- Where an object tagged by the writer is for the reader. -/
private def phiOf (T : Tags) (R : Built A) (a : Addr) : Option Addr := (T.lookup a).bind R.known

private structure Inv (heap : Addr → Obj A) (S : Addr → Prop) (T : Tags) (R : Built A) : Prop where
  keys : (T.map Prod.fst).Nodup
  tags : (T.map Prod.snd).Nodup
  tag : ∀ p ∈ T, ∃ j, j < T.length ∧ p.2 = digits (1 + j)
  mem : ∀ p ∈ T, S p.1
  known : ∀ t x, R.known t = some x → ∃ a, (a, t) ∈ T
  obj : ∀ a x, phiOf T R a = some x → ∃ o, R.heap[x]? = some o ∧ o.type = (heap a).type ∧ List.Forall₂ (ValueLike (phiOf T R)) (heap a).vals o.vals
  inj : ∀ a b x, phiOf T R a = some x → phiOf T R b = some x → a = b
  onto : ∀ x, x < R.heap.length → ∃ a, phiOf T R a = some x

private structure Step (heap : Addr → Obj A) (S : Addr → Prop) (T : Tags) (R : Built A) (T' : Tags) (R' : Built A) : Prop where
  inv : Inv heap S T' R'
  ext : ∃ U, T' = T ++ U
  old : ∀ p ∈ T, R'.known p.2 = R.known p.2
  new : ∀ p ∈ T', p ∉ T → R'.known p.2 ≠ none

private def Pending (rank : Addr → Nat) (rho : Nat) (T : Tags) (R : Built A) : Prop := ∀ p ∈ T, R.known p.2 = none → rho ≤ rank p.1

variable {heap : Addr → Obj A} {S : Addr → Prop} {rank : Addr → Nat}

private theorem Step.refl {T : Tags} {R : Built A} (h : Inv heap S T R) : Step heap S T R T R :=
  ⟨h, ⟨[], by simp⟩, fun _ _ => rfl, fun _ h1 h2 => absurd h1 h2⟩

private theorem Step.trans {T T' T'' : Tags} {R R' R'' : Built A} (h : Step heap S T R T' R') (h' : Step heap S T' R' T'' R'') : Step heap S T R T'' R'' := by
  obtain ⟨U, hU⟩ := h.ext
  obtain ⟨U', hU'⟩ := h'.ext
  refine ⟨h'.inv, ⟨U ++ U', by rw [hU', hU, List.append_assoc]⟩, fun p hp => ?_, fun p hp hn => ?_⟩
  · rw [h'.old p (by rw [hU]; exact List.mem_append_left _ hp), h.old p hp]
  · by_cases hm : p ∈ T'
    · rw [h'.old p hm]; exact h.new p hm hn
    · exact h'.new p hp hm

private theorem Step.phi {T T' : Tags} {R R' : Built A} (h : Step heap S T R T' R') {a x : Addr} (ha : phiOf T R a = some x) : phiOf T' R' a = some x := by
  obtain ⟨U, hU⟩ := h.ext
  unfold phiOf at ha ⊢
  cases hl : T.lookup a with
  | none => rw [hl] at ha; simp at ha
  | some t =>
    rw [hl] at ha
    rw [hU, tag_lookup_append hl]
    simp only [Option.bind_some] at ha ⊢
    rw [h.old _ (tag_lookup_mem hl)]
    exact ha

private theorem Step.pending {T T' : Tags} {R R' : Built A} (h : Step heap S T R T' R') {rho : Nat} (hp : Pending rank rho T R) : Pending rank rho T' R' := by
  intro p hm hn
  by_cases hT : p ∈ T
  · rw [h.old p hT] at hn; exact hp p hT hn
  · exact absurd hn (h.new p hm hT)

private theorem ItemLike.mono {phi phi' : Addr → Option Addr} (h : ∀ a x, phi a = some x → phi' a = some x) {x y : Item A} (hx : ItemLike phi x y) : ItemLike phi' x y := by
  cases x with
  | atom a => exact hx
  | null => exact hx
  | ref r => obtain ⟨r', h1, h2⟩ := hx; exact ⟨r', h _ _ h1, h2⟩

private theorem forall₂_mono {X Y : Type} {P Q : X → Y → Prop} (h : ∀ x y, P x y → Q x y) {l : List X} {l' : List Y} (hl : List.Forall₂ P l l') : List.Forall₂ Q l l' := by
  induction hl with
  | nil => exact .nil
  | cons h1 _ ih => exact .cons (h _ _ h1) ih

private theorem ValueLike.mono {phi phi' : Addr → Option Addr} (h : ∀ a x, phi a = some x → phi' a = some x) {x y : Value A} (hx : ValueLike phi x y) : ValueLike phi' x y := by
  cases x with
  | one x => obtain ⟨z, h1, h2⟩ := hx; exact ⟨z, h1, h2.mono h⟩
  | many xs => obtain ⟨z, h1, h2⟩ := hx; exact ⟨z, h1, forall₂_mono (fun _ _ hh => hh.mono h) h2⟩

/-- What is known about storing and extracting handles of lower rank. -/
private def Child (heap : Addr → Obj A) (S : Addr → Prop) (rank : Addr → Nat) (rho : Nat) (w : Addr → Tags → Option (Node E × Tags)) (x : Node E → Built A → Option (Addr × Built A)) : Prop :=
  ∀ r, S r → rank r < rho → ∀ T R, Inv heap S T R → Pending rank rho T R →
    ∃ node T' r' R', w r T = some (node, T') ∧ x node R = some (r', R') ∧ Step heap S T R T' R' ∧ phiOf T' R' r = some r'

variable {enc : K → A → E} {dec : K → E → Option A} {dflt : K → A} {w : Addr → Tags → Option (Node E × Tags)} {x : Node E → Built A → Option (Addr × Built A)} {rho : Nat}

private def itemRefs : Item A → List Addr
  | .ref r => [r]
  | _ => []

private theorem item_ok (hc : Child heap S rank rho w x) (kind : Option K) (name : Str) (it : Item A) (hf : ItemFits enc dec S kind it) (hr : ∀ r ∈ itemRefs it, rank r < rho)
    (T : Tags) (R : Built A) (hi : Inv heap S T R) (hp : Pending rank rho T R) :
    ∃ node T' it' R', put enc w kind name it T = some ((name, node), T') ∧ getItem dec x kind node R = some (it', R') ∧ Step heap S T R T' R' ∧ ItemLike (phiOf T' R') it it' := by
  cases it with
  | atom a =>
    cases kind with
    | none => exact absurd hf id
    | some k =>
      refine ⟨.atom (enc k a), T, .atom a, R, rfl, ?_, .refl hi, rfl⟩
      have : dec k (enc k a) = some a := hf
      simp [getItem, this]
  | null => cases kind <;> exact absurd hf id
  | ref r =>
    cases kind with
    | some k => exact absurd hf id
    | none =>
      obtain ⟨node, T', r', R', h1, h2, h3, h4⟩ := hc r hf (hr r (by simp [itemRefs])) T R hi hp
      exact ⟨node, T', .ref r', R', by simp [put, h1], by simp [getItem, h2], h3, r', h4, rfl⟩

private theorem many_ok (hc : Child heap S rank rho w x) (kind : Option K) (name : Str) : ∀ (its : List (Item A)) (_ : ∀ it ∈ its, ItemFits enc dec S kind it)
    (_ : ∀ it ∈ its, ∀ r ∈ itemRefs it, rank r < rho) (i : Nat) (T : Tags) (R : Built A) (_ : Inv heap S T R) (_ : Pending rank rho T R),
    ∃ cs T', putMany enc w kind name i its T = some (cs, T') ∧ (∀ p ∈ cs, ∃ j, i ≤ j ∧ p.1 = name ++ digits j) ∧ cs.length = its.length ∧
      ∀ (look : Str → Option (Node E)) (fuel : Nat), (∀ j, i ≤ j → look (name ++ digits j) = cs.lookup (name ++ digits j)) → cs.length < fuel →
        ∃ its' R', getMany dec x kind look name fuel i R = some (its', R') ∧ Step heap S T R T' R' ∧ List.Forall₂ (ItemLike (phiOf T' R')) its its' := by
  intro its
  induction its with
  | nil =>
    intro _ _ i T R hi _
    refine ⟨[], T, rfl, by simp, rfl, fun look fuel hl hf => ⟨[], R, ?_, .refl hi, .nil⟩⟩
    obtain ⟨fuel, rfl⟩ : ∃ f, fuel = f + 1 := ⟨fuel - 1, by simp at hf; omega⟩
    rw [getMany, hl i (Nat.le_refl _)]
    rfl
  | cons it its ih =>
    intro hfit href i T R hi hp
    obtain ⟨node, T1, it', R1, h1, h2, h3, h4⟩ := item_ok (enc := enc) (dec := dec) hc kind (name ++ digits i) it (hfit it (by simp)) (href it (by simp)) T R hi hp
    obtain ⟨cs, T2, h5, h6, h7, h8⟩ := ih (fun y hy => hfit y (by simp [hy])) (fun y hy => href y (by simp [hy])) (i + 1) T1 R1 h3.inv (h3.pending hp)
    refine ⟨(name ++ digits i, node) :: cs, T2, by simp [putMany, h1, h5], ?_, by simp [h7], ?_⟩
    · intro p hm
      rcases List.mem_cons.1 hm with rfl | hm
      · exact ⟨i, Nat.le_refl _, rfl⟩
      · obtain ⟨j, hj, hj'⟩ := h6 p hm; exact ⟨j, by omega, hj'⟩
    · intro look fuel hl hf
      obtain ⟨fuel, rfl⟩ : ∃ f, fuel = f + 1 := ⟨fuel - 1, by simp at hf; omega⟩
      have hlk : look (name ++ digits i) = some node := by
        rw [hl i (Nat.le_refl _)]; simp
      obtain ⟨its', R2, h9, h10, h11⟩ := h8 look fuel (fun j hj => by
        rw [hl j (by omega), List.lookup_cons]
        have : ((name ++ digits j) == (name ++ digits i)) = false := by
          simp only [beq_eq_false_iff_ne, ne_eq]
          intro he
          have := digits_inj (List.append_cancel_left he)
          omega
        rw [this]) (by simp at hf; omega)
      refine ⟨it' :: its', R2, ?_, h3.trans h10, .cons (h4.mono fun _ _ => h10.phi) h11⟩
      rw [getMany, hlk]
      simp [h2, h9]

private theorem member_ok (hc : Child heap S rank rho w x) (m : Member K) (v : Value A) (hf : ValueFits enc dec dflt S m v) (hr : ∀ r ∈ refsOf v, rank r < rho)
    (T : Tags) (R : Built A) (hi : Inv heap S T R) (hp : Pending rank rho T R) :
    ∃ cs T', putMember enc dflt w m v T = some (cs, T') ∧ (∀ p ∈ cs, NameOf m p.1) ∧
      ∀ (look : Str → Option (Node E)) (fuel : Nat), (∀ s, NameOf m s → look s = cs.lookup s) → cs.length < fuel →
        ∃ v' R', getMember dec dflt x look fuel m R = some (v', R') ∧ Step heap S T R T' R' ∧ ValueLike (phiOf T' R') v v' := by
  cases v with
  | one it =>
    have hr' : ∀ r ∈ itemRefs it, rank r < rho := fun r h => hr r (by cases it <;> simp_all [itemRefs, refsOf])
    rcases hf with ⟨hm, hf⟩ | ⟨hm, hf⟩
    · obtain ⟨node, T1, it', R1, h1, h2, h3, h4⟩ := item_ok (enc := enc) (dec := dec) hc m.kind m.name it hf hr' T R hi hp
      refine ⟨[(m.name, node)], T1, by simp [putMember, hm, h1], by simp [NameOf, hm], fun look fuel hl _ => ⟨.one it', R1, ?_, h3, it', rfl, h4⟩⟩
      simp [getMember, hm, hl m.name (by simp [NameOf, hm]), h2]
    · by_cases hd : it = dfltItem dflt m.kind
      · refine ⟨[], T, by simp [putMember, hm, hd], by simp, fun look fuel hl _ => ⟨.one it, R, ?_, .refl hi, it, rfl, ?_⟩⟩
        · simp [getMember, hm, hl m.name (by simp [NameOf, hm]), hd]
        · rw [hd]
          cases m.kind <;> rfl
      · rcases hf with hf | hf
        · exact absurd hf hd
        · obtain ⟨node, T1, it', R1, h1, h2, h3, h4⟩ := item_ok (enc := enc) (dec := dec) hc m.kind m.name it hf hr' T R hi hp
          refine ⟨[(m.name, node)], T1, by simp [putMember, hm, h1, hd], by simp [NameOf, hm], fun look fuel hl _ => ⟨.one it', R1, ?_, h3, it', rfl, h4⟩⟩
          simp [getMember, hm, hl m.name (by simp [NameOf, hm]), h2]
  | many its =>
    obtain ⟨hm, hf⟩ := hf
    have hr' : ∀ it ∈ its, ∀ r ∈ itemRefs it, rank r < rho := fun it hit r h => hr r (by
      cases it with
      | ref q => simp only [itemRefs, List.mem_singleton] at h; subst h; exact List.mem_filterMap.2 ⟨_, hit, rfl⟩
      | _ => simp [itemRefs] at h)
    obtain ⟨cs, T1, h1, h2, h3, h4⟩ := many_ok (enc := enc) (dec := dec) hc m.kind m.name its hf hr' 0 T R hi hp
    have hname : ∀ j, NameOf m (m.name ++ digits j) := fun j => by rcases hm with hm | hm <;> simp only [NameOf, hm] <;> exact ⟨j, rfl⟩
    refine ⟨cs, T1, ?_, fun p hp => ?_, fun look fuel hl hfu => ?_⟩
    · rcases hm with hm | hm <;> simp [putMember, hm, h1]
    · obtain ⟨j, -, hj⟩ := h2 p hp
      rw [hj]; exact hname j
    · obtain ⟨its', R1, h5, h6, h7⟩ := h4 look fuel (fun j _ => hl _ (hname j)) hfu
      refine ⟨.many its', R1, ?_, h6, its', rfl, h7⟩
      rcases hm with hm | ⟨hm, hne⟩
      · simp [getMember, hm, h5]
      · have : its' ≠ [] := by
          rintro rfl
          cases h7
          exact hne rfl
        simp [getMember, hm, h5, this]

private theorem members_ok (hc : Child heap S rank rho w x) : ∀ (ms : List (Member K)) (vs : List (Value A)) (_ : Unambiguous ms)
    (_ : List.Forall₂ (ValueFits enc dec dflt S) ms vs) (_ : ∀ v ∈ vs, ∀ r ∈ refsOf v, rank r < rho) (T : Tags) (R : Built A) (_ : Inv heap S T R) (_ : Pending rank rho T R),
    ∃ cs T', putMembers enc dflt w ms vs T = some (cs, T') ∧ (∀ p ∈ cs, ∃ m ∈ ms, NameOf m p.1) ∧
      ∀ (look : Str → Option (Node E)) (fuel : Nat), (∀ m ∈ ms, ∀ s, NameOf m s → look s = cs.lookup s) → cs.length < fuel →
        ∃ vs' R', getMembers dec dflt x look fuel ms R = some (vs', R') ∧ Step heap S T R T' R' ∧ List.Forall₂ (ValueLike (phiOf T' R')) vs vs' := by
  intro ms
  induction ms with
  | nil =>
    intro vs _ hf _ T R hi _
    cases hf
    exact ⟨[], T, rfl, by simp, fun look fuel _ _ => ⟨[], R, rfl, .refl hi, .nil⟩⟩
  | cons m ms ih =>
    intro vs hu hf hr T R hi hp
    cases hf with
    | cons hv hvs =>
      rename_i v vs
      obtain ⟨hu1, hu2⟩ := List.pairwise_cons.1 hu
      obtain ⟨c1, T1, h1, h2, h3⟩ := member_ok hc m v hv (fun r => hr v (by simp) r) T R hi hp
      -- the tags do not depend on the reader: any reader that finds these children
      obtain ⟨v', R1, -, h5, -⟩ := h3 (fun s => c1.lookup s) (c1.length + 1) (fun _ _ => rfl) (by omega)
      obtain ⟨c2, T2, h6, h7, -⟩ := ih vs hu2 hvs (fun y hy => hr y (by simp [hy])) T1 R1 h5.inv (h5.pending hp)
      have hdis : ∀ p ∈ c2, ¬NameOf m p.1 := fun p hp2 hn => by
        obtain ⟨m', hm', hn'⟩ := h7 p hp2
        exact hu1 m' hm' p.1 hn hn'
      refine ⟨c1 ++ c2, T2, by simp [putMembers, h1, h6], ?_, ?_⟩
      · intro p hp'
        rcases List.mem_append.1 hp' with hp' | hp'
        · exact ⟨m, by simp, h2 p hp'⟩
        · obtain ⟨m', hm', hn⟩ := h7 p hp'; exact ⟨m', by simp [hm'], hn⟩
      · intro look fuel hl hfu
        rw [List.length_append] at hfu
        obtain ⟨v', R1, h4, h5, h8⟩ := h3 look fuel (fun s hs => by
          rw [hl m (by simp) s hs]
          exact lookup_append_left fun p hp2 he => hdis p hp2 (by rw [he]; exact hs)) (by omega)
        obtain ⟨c2', T2', h6', -, h9⟩ := ih vs hu2 hvs (fun y hy => hr y (by simp [hy])) T1 R1 h5.inv (h5.pending hp)
        rw [h6] at h6'
        simp only [Option.some.injEq, Prod.mk.injEq] at h6'
        obtain ⟨rfl, rfl⟩ := h6'
        obtain ⟨vs', R2, h10, h11, h12⟩ := h9 look fuel (fun m' hm' s hs => by
          rw [hl m' (by simp [hm']) s hs]
          exact lookup_append_right fun p hp1 he => hu1 m' hm' s (by rw [← he]; exact h2 p hp1) hs) (by omega)
        exact ⟨v' :: vs', R2, by simp [getMembers, h4, h10], h5.trans h11, .cons (h8.mono fun _ _ => h11.phi) h12⟩

/-- Storing and extracting an object. -/
private theorem child_ok (classes : Str → Option (List (Member K))) (hg : GoodHeap enc dec dflt classes heap S rank) : ∀ n,
    ∀ a, S a → rank a < n → ∀ T R, Inv heap S T R → Pending rank (rank a + 1) T R →
      ∃ node T' a' R', setStorable enc dflt classes heap n a T = some (node, T') ∧ extract dec dflt classes n node R = some (a', R') ∧
        Step heap S T R T' R' ∧ phiOf T' R' a = some a' := by
  intro n
  induction n with
  | zero => intro a _ h; omega
  | succ n ih =>
    intro a ha hrank T R hi hp
    obtain ⟨htype, ⟨ms, hms, hu, hfits⟩, hrefs⟩ := hg a ha
    cases hl : T.lookup a with
    | some t =>
      cases hk : R.known t with
      | none =>
        have : rank a + 1 ≤ rank a := hp _ (tag_lookup_mem hl) hk
        omega
      | some a' =>
        refine ⟨.obj t [] [], T, a', R, by simp [setStorable, hl], by simp [extract, hk], .refl hi, ?_⟩
        simp [phiOf, hl, hk]
    | none =>
      have hchild : Child heap S rank (rank a) (setStorable enc dflt classes heap n) (extract dec dflt classes n) := by
        intro r hr hrk T R hi hp
        refine ih r hr (by omega) T R hi fun p hpm hpk => ?_
        have := hp p hpm hpk
        omega
      -- tag of the object
      have hfresh : ∀ p ∈ T, p.2 ≠ digits (1 + T.length) := fun p hpm he => by
        obtain ⟨j, hj, hj'⟩ := hi.tag p hpm
        rw [hj'] at he
        have := digits_inj he
        omega
      have hkn : R.known (digits (1 + T.length)) = none := by
        cases hk : R.known (digits (1 + T.length)) with
        | none => rfl
        | some y =>
          obtain ⟨b, hb⟩ := hi.known _ _ hk
          exact absurd rfl (hfresh _ hb)
      have hphi1 : ∀ b, phiOf (T ++ [(a, digits (1 + T.length))]) R b = phiOf T R b := by
        intro b
        unfold phiOf
        cases hb : T.lookup b with
        | some t => rw [tag_lookup_append hb]
        | none =>
          by_cases hba : b = a
          · subst hba
            rw [tag_lookup_new hl]
            simp [hkn]
          · have : (T ++ [(a, digits (1 + T.length))]).lookup b = none := by
              cases hc : (T ++ [(a, digits (1 + T.length))]).lookup b with
              | none => rfl
              | some t =>
                rcases List.mem_append.1 (tag_lookup_mem hc) with h | h
                · exact absurd h (tag_lookup_none hb t)
                · simp at h; exact absurd h.1 hba
            rw [this]
      have hphi1' : phiOf (T ++ [(a, digits (1 + T.length))]) R = phiOf T R := funext hphi1
      have hi1 : Inv heap S (T ++ [(a, digits (1 + T.length))]) R := by
        refine ⟨?_, ?_, ?_, ?_, ?_, ?_, ?_, ?_⟩
        · rw [List.map_append, List.nodup_append]
          refine ⟨hi.keys, by simp, fun y hy z hz => ?_⟩
          simp only [List.map_cons, List.map_nil, List.mem_singleton] at hz
          subst hz
          rintro rfl
          obtain ⟨p, hpm, rfl⟩ := List.mem_map.1 hy
          exact tag_lookup_none hl p.2 hpm
        · rw [List.map_append, List.nodup_append]
          refine ⟨hi.tags, by simp, fun y hy z hz => ?_⟩
          simp only [List.map_cons, List.map_nil, List.mem_singleton] at hz
          subst hz
          rintro rfl
          obtain ⟨p, hpm, he⟩ := List.mem_map.1 hy
          exact hfresh p hpm he
        · intro p hpm
          rw [List.length_append]
          rcases List.mem_append.1 hpm with h | h
          · obtain ⟨j, hj, hj'⟩ := hi.tag p h; exact ⟨j, by omega, hj'⟩
          · simp at h; subst h; exact ⟨T.length, by simp, rfl⟩
        · intro p hpm
          rcases List.mem_append.1 hpm with h | h
          · exact hi.mem p h
          · simp at h; subst h; exact ha
        · intro t y hk
          obtain ⟨b, hb⟩ := hi.known t y hk
          exact ⟨b, List.mem_append_left _ hb⟩
        · rw [hphi1']; exact hi.obj
        · rw [hphi1']; exact hi.inj
        · rw [hphi1']; exact hi.onto
      have hp1 : Pending rank (rank a) (T ++ [(a, digits (1 + T.length))]) R := by
        intro p hpm hpk
        rcases List.mem_append.1 hpm with h | h
        · have := hp p h hpk; omega
        · simp at h; subst h; exact Nat.le_refl _
      obtain ⟨cs, T2, h1, -, h2⟩ := members_ok hchild ms (heap a).vals hu hfits hrefs _ R hi1 hp1
      obtain ⟨vs', R2, h3, h4, h5⟩ := h2 (fun s => cs.lookup s) (cs.length + 1) (fun _ _ _ _ => rfl) (by omega)
      have htag : T2.lookup a = some (digits (1 + T.length)) := by
        obtain ⟨U, hU⟩ := h4.ext
        rw [hU]; exact tag_lookup_append (tag_lookup_new hl _)
      have hkn2 : R2.known (digits (1 + T.length)) = none := by
        rw [h4.old (a, digits (1 + T.length)) (by simp)]; exact hkn
      let R3 : Built A := ⟨R2.heap ++ [⟨(heap a).type, vs'⟩], fun t => if t = digits (1 + T.length) then some R2.heap.length else R2.known t⟩
      have hphi3 : ∀ b, phiOf T2 R3 b = if b = a then some R2.heap.length else phiOf T2 R2 b := by
        intro b
        unfold phiOf
        by_cases hba : b = a
        · subst hba; rw [htag]; simp [R3]
        · rw [if_neg hba]
          cases hb : T2.lookup b with
          | none => rfl
          | some t =>
            have : t ≠ digits (1 + T.length) := fun he => by
              subst he
              have m1 := tag_lookup_mem hb
              have m2 := tag_lookup_mem htag
              exact hba (fst_of_snd h4.inv.tags m1 m2)
            simp [R3, this]
      have hlt : ∀ b y, phiOf T2 R2 b = some y → y < R2.heap.length := fun b y hb => by
        obtain ⟨o, ho, -⟩ := h4.inv.obj b y hb
        exact (List.getElem?_eq_some_iff.1 ho).1
      have hna : phiOf T2 R2 a = none := by unfold phiOf; rw [htag]; exact hkn2
      have hmono : ∀ b y, phiOf T2 R2 b = some y → phiOf T2 R3 b = some y := fun b y hb => by
        rw [hphi3, if_neg]
        · exact hb
        · rintro rfl; rw [hna] at hb; cases hb
      have hi3 : Inv heap S T2 R3 := by
        refine ⟨h4.inv.keys, h4.inv.tags, h4.inv.tag, h4.inv.mem, ?_, ?_, ?_, ?_⟩
        · intro t y hk
          by_cases ht : t = digits (1 + T.length)
          · subst ht; exact ⟨a, tag_lookup_mem htag⟩
          · exact h4.inv.known t y (by simpa [R3, ht] using hk)
        · intro b y hb
          rw [hphi3] at hb
          by_cases hba : b = a
          · rw [if_pos hba] at hb
            simp only [Option.some.injEq] at hb
            subst hb; subst hba
            refine ⟨⟨(heap b).type, vs'⟩, by simp [R3], rfl, forall₂_mono (fun _ _ hh => hh.mono hmono) h5⟩
          · rw [if_neg hba] at hb
            obtain ⟨o, ho, ho1, ho2⟩ := h4.inv.obj b y hb
            refine ⟨o, ?_, ho1, forall₂_mono (fun _ _ hh => hh.mono hmono) ho2⟩
            show (R2.heap ++ _)[y]? = some o
            rw [List.getElem?_append_left (hlt b y hb)]
            exact ho
        · intro b c y hb hc
          rw [hphi3] at hb hc
          by_cases hba : b = a <;> by_cases hca : c = a
          · rw [hba, hca]
          · rw [if_pos hba] at hb; rw [if_neg hca] at hc
            have := hlt c y hc
            simp only [Option.some.injEq] at hb; rw [← hb] at this; exact absurd this (Nat.lt_irrefl _)
          · rw [if_neg hba] at hb; rw [if_pos hca] at hc
            have := hlt b y hb
            simp only [Option.some.injEq] at hc; rw [← hc] at this; exact absurd this (Nat.lt_irrefl _)
          · rw [if_neg hba] at hb; rw [if_neg hca] at hc
            exact h4.inv.inj b c y hb hc
        · intro y hy
          have hy : y < R2.heap.length + 1 := by simpa [R3] using hy
          by_cases hye : y = R2.heap.length
          · exact ⟨a, by rw [hphi3, if_pos rfl, hye]⟩
          · obtain ⟨b, hb⟩ := h4.inv.onto y (by omega)
            exact ⟨b, hmono b y hb⟩
      refine ⟨.obj (digits (1 + T.length)) (heap a).type cs, T2, R2.heap.length, R3, ?_, ?_, ⟨hi3, ?_, ?_, ?_⟩, by rw [hphi3, if_pos rfl]⟩
      · simp [setStorable, hl, hms, h1]
      · simp [extract, hkn, htype, hms, h3, R3]
      · obtain ⟨U, hU⟩ := h4.ext
        exact ⟨(a, digits (1 + T.length)) :: U, by rw [hU]; simp⟩
      · intro p hpm
        show (if p.2 = digits (1 + T.length) then _ else R2.known p.2) = _
        rw [if_neg (hfresh p hpm)]
        exact h4.old p (List.mem_append_left _ hpm)
      · intro p hpm hpn
        show (if p.2 = digits (1 + T.length) then some R2.heap.length else R2.known p.2) ≠ none
        by_cases hpt : p.2 = digits (1 + T.length)
        · simp [hpt]
        · rw [if_neg hpt]
          refine h4.new p hpm fun hm => ?_
          rcases List.mem_append.1 hm with h | h
          · exact hpn h
          · simp at h; subst h; exact hpt rfl

private theorem fits_restrict {Q : Addr → Prop} : ∀ {ms : List (Member K)} {vs : List (Value A)}, List.Forall₂ (ValueFits enc dec dflt S) ms vs →
    (∀ v ∈ vs, ∀ r ∈ refsOf v, Q r) → List.Forall₂ (ValueFits enc dec dflt fun a => S a ∧ Q a) ms vs := by
  have key : ∀ (kind : Option K) (it : Item A), ItemFits enc dec S kind it → (∀ r ∈ itemRefs it, Q r) → ItemFits enc dec (fun a => S a ∧ Q a) kind it := by
    intro kind it h hq
    cases kind <;> cases it <;> first | exact h | exact ⟨h, hq _ (by simp [itemRefs])⟩
  intro ms vs h
  induction h with
  | nil => intro _; exact .nil
  | cons h1 _ ih =>
    rename_i m v ms vs _
    intro hq
    refine .cons ?_ (ih fun v hv => hq v (by simp [hv]))
    have hq := hq v (by simp)
    cases v with
    | one it =>
      have hr : ∀ r ∈ itemRefs it, Q r := fun r h => hq r (by cases it <;> simp_all [itemRefs, refsOf])
      rcases h1 with ⟨h1, h2⟩ | ⟨h1, h2 | h2⟩
      · exact Or.inl ⟨h1, key _ _ h2 hr⟩
      · exact Or.inr ⟨h1, Or.inl h2⟩
      · exact Or.inr ⟨h1, Or.inr (key _ _ h2 hr)⟩
    | many its =>
      refine ⟨h1.1, fun it hit => key _ _ (h1.2 it hit) fun r h => hq r ?_⟩
      cases it with
      | ref q => simp only [itemRefs, List.mem_singleton] at h; subst h; exact List.mem_filterMap.2 ⟨_, hit, rfl⟩
      | _ => simp [itemRefs] at h

/-- Writing an object with everything it refers to and reading it again gives the same objects with the same sharing: `phi` is one to one between the objects that were stored and those that
were built, classes and values agree, and handles lead to the objects that correspond. -/
theorem C88_roundtrip_partial (classes : Str → Option (List (Member K))) (hg : GoodHeap enc dec dflt classes heap S rank) (root : Addr) (hroot : S root) (n : Nat) (hn : rank root < n) :
    ∃ doc root' built phi, archive enc dflt classes heap n root = some doc ∧ extract dec dflt classes (n + 1) doc Built.empty = some (root', built) ∧
      phi root = some root' ∧ (∀ a b y, phi a = some y → phi b = some y → a = b) ∧ (∀ y, y < built.heap.length → ∃ a, phi a = some y) ∧
      ∀ a y, phi a = some y → ∃ o, built.heap[y]? = some o ∧ o.type = (heap a).type ∧ List.Forall₂ (ValueLike phi) (heap a).vals o.vals := by
  obtain ⟨htype, ⟨ms, hms, hu, hfits⟩, hrefs⟩ := hg root hroot
  let S' : Addr → Prop := fun a => S a ∧ rank a < rank root
  have hg' : GoodHeap enc dec dflt classes heap S' rank := by
    intro a ha
    obtain ⟨h1, ⟨ms, h2, h3, h4⟩, h5⟩ := hg a ha.1
    refine ⟨h1, ⟨ms, h2, h3, fits_restrict h4 fun v hv r hr => ?_⟩, h5⟩
    have := h5 v hv r hr
    have := ha.2
    omega
  have hi : Inv heap S' [] (Built.empty : Built A) := by
    refine ⟨by simp, by simp, by simp, by simp, ?_, ?_, ?_, ?_⟩
    · intro t y h; simp [Built.empty] at h
    · intro a y h; simp [phiOf] at h
    · intro a b y h; simp [phiOf] at h
    · intro y h; simp [Built.empty] at h
  have hchild : Child heap S' rank (rank root) (setStorable enc dflt classes heap n) (extract dec dflt classes n) := by
    intro r hr hrk T R hi hp
    refine child_ok classes hg' n r hr (by omega) T R hi fun p hpm hpk => ?_
    have := hp p hpm hpk
    omega
  obtain ⟨cs, T2, h1, -, h2⟩ := members_ok hchild ms (heap root).vals hu (fits_restrict hfits hrefs) hrefs [] Built.empty hi (by intro p hp; simp at hp)
  obtain ⟨vs', R2, h3, h4, h5⟩ := h2 (fun s => cs.lookup s) (cs.length + 1) (fun _ _ _ _ => rfl) (by omega)
  have hlt : ∀ b y, phiOf T2 R2 b = some y → y < R2.heap.length := fun b y hb => by
    obtain ⟨o, ho, -⟩ := h4.inv.obj b y hb
    exact (List.getElem?_eq_some_iff.1 ho).1
  have hne : ∀ b y, phiOf T2 R2 b = some y → b ≠ root := fun b y hb he => by
    unfold phiOf at hb
    cases hl : T2.lookup b with
    | none => rw [hl] at hb; cases hb
    | some t =>
      have : rank b < rank root := (h4.inv.mem _ (tag_lookup_mem hl)).2
      rw [he] at this
      exact Nat.lt_irrefl _ this
  let phi : Addr → Option Addr := fun b => if b = root then some R2.heap.length else phiOf T2 R2 b
  have hmono : ∀ b y, phiOf T2 R2 b = some y → phi b = some y := fun b y hb => by
    show (if b = root then _ else _) = _
    rw [if_neg (hne b y hb)]; exact hb
  refine ⟨.obj [] (heap root).type cs, R2.heap.length, ⟨R2.heap ++ [⟨(heap root).type, vs'⟩], fun t => if t = [] then some R2.heap.length else R2.known t⟩, phi,
    by simp [archive, hms, h1], ?_, if_pos rfl, ?_, ?_, ?_⟩
  · simp [extract, Built.empty] at h3 ⊢
    simp [htype, hms, h3]
  · intro a b y ha hb
    simp only [phi] at ha hb
    by_cases hra : a = root <;> by_cases hrb : b = root
    · rw [hra, hrb]
    · rw [if_pos hra] at ha; rw [if_neg hrb] at hb
      have := hlt b y hb
      simp only [Option.some.injEq] at ha; rw [← ha] at this; exact absurd this (Nat.lt_irrefl _)
    · rw [if_neg hra] at ha; rw [if_pos hrb] at hb
      have := hlt a y ha
      simp only [Option.some.injEq] at hb; rw [← hb] at this; exact absurd this (Nat.lt_irrefl _)
    · rw [if_neg hra] at ha; rw [if_neg hrb] at hb
      exact h4.inv.inj a b y ha hb
  · intro y hy
    simp only [List.length_append, List.length_cons, List.length_nil, Nat.zero_add] at hy
    by_cases hye : y = R2.heap.length
    · exact ⟨root, by simp [phi, hye]⟩
    · obtain ⟨b, hb⟩ := h4.inv.onto y (by omega)
      exact ⟨b, hmono b y hb⟩
  · intro a y ha
    by_cases hra : a = root
    · subst hra
      simp only [phi, if_true, Option.some.injEq] at ha
      subst ha
      exact ⟨⟨(heap a).type, vs'⟩, by simp, rfl, forall₂_mono (fun _ _ hh => hh.mono hmono) h5⟩
    · simp only [phi, if_neg hra] at ha
      obtain ⟨o, ho, ho1, ho2⟩ := h4.inv.obj a y ha
      refine ⟨o, ?_, ho1, forall₂_mono (fun _ _ hh => hh.mono hmono) ho2⟩
      show (R2.heap ++ _)[y]? = some o
      rw [List.getElem?_append_left (hlt a y ha)]
      exact ho

end

/-! ### The library -/

private theorem digit_split {a b : Str} {i j : Nat} (ha : ∀ c ∈ a, c.isDigit = false) (hb : ∀ c ∈ b, c.isDigit = false) (h : a ++ digits i = b ++ digits j) : a = b := by
  have hd : ∀ n, ∀ c ∈ digits n, c.isDigit = true := fun n c hc => Nat.isDigit_of_mem_toDigits (by omega) (by omega) hc
  induction a generalizing b with
  | nil =>
    cases b with
    | nil => rfl
    | cons y b =>
      have h1 := hd i y (by rw [List.nil_append] at h; rw [h]; simp)
      have h2 := hb y (by simp)
      rw [h1] at h2; cases h2
  | cons y a ih =>
    cases b with
    | nil =>
      have h1 := hd j y (by rw [List.nil_append] at h; rw [← h]; simp)
      have h2 := ha y (by simp)
      rw [h1] at h2; cases h2
    | cons z b =>
      simp only [List.cons_append, List.cons.injEq] at h
      obtain ⟨rfl, h⟩ := h
      rw [ih (fun c hc => ha c (by simp [hc])) (fun c hc => hb c (by simp [hc])) h]

/-- Members with different names without digits cannot be confused. -/
theorem C88_unambiguous {K : Type} (ms : List (Member K)) (hn : (ms.map Member.name).Nodup) (hd : ∀ m ∈ ms, ∀ c ∈ m.name, c.isDigit = false) : Unambiguous ms := by
  have hdig : ∀ n, ∀ c ∈ digits n, c.isDigit = true := fun n c hc => Nat.isDigit_of_mem_toDigits (by omega) (by omega) hc
  have key : ∀ (m m' : Member K) (s : Str), (∀ c ∈ m.name, c.isDigit = false) → (∀ c ∈ m'.name, c.isDigit = false) → NameOf m s → NameOf m' s → m.name = m'.name := by
    intro m m' s h h' h1 h2
    have no : ∀ (a b : Str) (i : Nat), (∀ c ∈ a, c.isDigit = false) → a ≠ b ++ digits i := fun a b i ha he => by
      obtain ⟨c, l, hc⟩ := List.exists_cons_of_ne_nil (digits_ne i)
      have h1 := ha c (by rw [he, hc]; simp)
      have h2 := hdig i c (by rw [hc]; simp)
      rw [h1] at h2; cases h2
    unfold NameOf at h1 h2
    split at h1 <;> split at h2
    all_goals first
      | (rw [← h1, ← h2])
      | (obtain ⟨i, h2⟩ := h2; rw [h1] at h2; exact absurd h2 (no _ _ _ h))
      | (obtain ⟨i, h1⟩ := h1; rw [h2] at h1; exact absurd h1 (no _ _ _ h'))
      | (obtain ⟨i, h1⟩ := h1; obtain ⟨j, h2⟩ := h2; rw [h1] at h2; exact digit_split h h' h2)
  induction ms with
  | nil => exact .nil
  | cons m ms ih =>
    rw [List.map_cons, List.nodup_cons] at hn
    refine List.pairwise_cons.2 ⟨fun m' hm' s h1 h2 => hn.1 ?_, ih hn.2 fun m' hm' => hd m' (by simp [hm'])⟩
    rw [key m m' s (hd m (by simp)) (hd m' (by simp [hm'])) h1 h2]
    exact List.mem_map_of_mem hm'

/-- The classes of the library have different names and members that cannot be confused. -/
theorem C88_library : (library.map Prod.fst).Nodup ∧ ∀ p ∈ library, p.1 ≠ [] ∧ Unambiguous p.2 := by
  have h : ∀ p ∈ library, p.1 ≠ [] ∧ (p.2.map Member.name).Nodup ∧ ∀ m ∈ p.2, ∀ c ∈ m.name, c.isDigit = false := by decide +kernel
  exact ⟨by decide +kernel, fun p hp => ⟨(h p hp).1, C88_unambiguous p.2 (h p hp).2.1 (h p hp).2.2⟩⟩

/-- Truth values of members do not come back from JSON: they are stored as numbers. Two classes have such members, so their objects can be written but not read. -/
theorem C88_bool_violated : (∀ b, (Json.parse (storeBool Json.writeDouble b)).bind Json.eBool = none) ∧
    (library.filter fun p => p.2.any fun m => m.kind == some .boolean).map Prod.fst = ["PseudoRSG_v1".toList, "SobolRSG_v1".toList] := by
  refine ⟨fun b => ?_, by decide +kernel⟩
  cases b <;> decide +kernel

/-! ### Witnesses -/

section
/-- Two classes with numbers for their values: a leaf with a number, and a pair of handles. -/
private def demo : Str → Option (List (Member Unit)) := fun t =>
  if t = ['L'] then some [⟨['v'], .required, some ()⟩]
  else if t = ['P'] then some [⟨['a'], .required, none⟩, ⟨['b'], .required, none⟩]
  else if t = ['R'] then some [⟨['h'], .nonempty, some ()⟩]
  else none

private def demoHeap : Addr → Obj Nat := fun a => if a = 0 then ⟨['P'], [.one (.ref 1), .one (.ref 1)]⟩ else ⟨['L'], [.one (.atom 7)]⟩

example : GoodHeap (fun _ n => n) (fun _ n => some n) (fun _ => 0) demo demoHeap (fun a => a < 2) (fun a => 1 - a) := by
  intro a ha
  have h2 : ∀ n : Nat, n < 2 → n = 0 ∨ n = 1 := fun n h => by omega
  have : a = 0 ∨ a = 1 := h2 a ha
  rcases this with rfl | rfl
  · refine ⟨by decide, ⟨_, rfl, ?_, ?_⟩, ?_⟩
    · exact C88_unambiguous _ (by decide) (by decide)
    · refine .cons (Or.inl ⟨rfl, ?_⟩) (.cons (Or.inl ⟨rfl, ?_⟩) .nil) <;> exact (by decide : (1 : Nat) < 2)
    · decide
  · refine ⟨by decide, ⟨_, rfl, ?_, ?_⟩, ?_⟩
    · exact C88_unambiguous _ (by decide) (by decide)
    · exact .cons (Or.inl ⟨rfl, rfl⟩) .nil
    · decide

/-- The pair of the same leaf has two objects after reading, not three. -/
example : ((archive (fun _ n => n) (fun _ => 0) demo demoHeap 5 0).bind fun doc => (extract (fun _ (n : Nat) => some n) (fun _ => 0) demo 6 doc Built.empty).map fun p => (p.1, p.2.heap)) =
    some (1, [⟨['L'], [.one (.atom 7)]⟩, ⟨['P'], [.one (.ref 0), .one (.ref 0)]⟩]) := by decide +kernel

/-- Different objects without tags, as in documents written by hand, are taken for the same: the second leaf is lost. -/
theorem C88_untagged_violated :
    (extract (fun _ (n : Nat) => some n) (fun _ => 0) demo 6
      (.obj [] ['P'] [(['a'], .obj [] ['L'] [(['v'], .atom 7)]), (['b'], .obj [] ['L'] [(['v'], .atom 8)])]) Built.empty).map (fun p => (p.1, p.2.heap)) =
    some (1, [⟨['L'], [.one (.atom 7)]⟩, ⟨['P'], [.one (.ref 0), .one (.ref 0)]⟩]) := by decide +kernel

/-- An object whose reader demands something can be written with nothing and then not be read. -/
theorem C88_nonempty_violated :
    ((archive (fun _ n => n) (fun _ => 0) demo (fun _ => (⟨['R'], [.many []]⟩ : Obj Nat)) 5 0).map fun doc =>
      (extract (fun _ (n : Nat) => some n) (fun _ => 0) demo 6 doc Built.empty).isSome) = some false := by decide +kernel
end

/-! ### Registration -/

/-- After any registrations the reader of a type is the first that was registered for it; there is always at most one. -/
theorem C88_first_registered {B : Type} (regs : List (Str × B)) (type : Str) : builderFor type (regs.foldl (fun t p => register p.1 p.2 t) []) = regs.lookup type := by
  have inv : ∀ (regs t : List (Str × B)), (t.map Prod.fst).Nodup →
      (((regs.foldl (fun t p => register p.1 p.2 t) t).map Prod.fst).Nodup ∧ (regs.foldl (fun t p => register p.1 p.2 t) t).lookup type = (t ++ regs).lookup type) := by
    intro regs
    induction regs with
    | nil => intro t h; exact ⟨h, by simp⟩
    | cons p regs ih =>
      intro t h
      rw [List.foldl_cons]
      cases hl : t.lookup p.1 with
      | some b =>
        rw [show register p.1 p.2 t = t by unfold register; rw [hl]; rfl]
        refine ⟨(ih t h).1, ?_⟩
        rw [(ih t h).2]
        have e : ∀ (t : List (Str × B)) (b : B), t.lookup p.1 = some b → (t ++ regs).lookup type = (t ++ p :: regs).lookup type := by
          intro t
          induction t with
          | nil => intro b hb; simp at hb
          | cons q t ih =>
            intro b hb
            rw [List.cons_append, List.cons_append, List.lookup_cons, List.lookup_cons]
            rw [List.lookup_cons] at hb
            split at hb
            · rename_i hq
              have hq : p.1 = q.1 := by simpa using hq
              split
              · rfl
              · rename_i hne
                have hne : type ≠ p.1 := by rw [hq]; simpa using hne
                have key : ∀ t : List (Str × B), (t ++ regs).lookup type = (t ++ p :: regs).lookup type := by
                  intro t
                  induction t with
                  | nil =>
                    have : (type == p.1) = false := by simpa using hne
                    rw [List.nil_append, List.nil_append, List.lookup_cons, this]
                  | cons u t ih => rw [List.cons_append, List.cons_append, List.lookup_cons, List.lookup_cons, ih]
                exact key t
            · rw [ih b hb]
        exact e t b hl
      | none =>
        rw [show register p.1 p.2 t = t ++ [(p.1, p.2)] by unfold register; rw [hl]; rfl]
        have h' : ((t ++ [(p.1, p.2)]).map Prod.fst).Nodup := by
          rw [List.map_append, List.nodup_append]
          refine ⟨h, by simp, fun y hy z hz => ?_⟩
          simp only [List.map_cons, List.map_nil, List.mem_singleton] at hz
          subst hz
          rintro rfl
          obtain ⟨q, hq, he⟩ := List.mem_map.1 hy
          have : ∀ (t : List (Str × B)), q ∈ t → t.lookup p.1 ≠ none := by
            intro t
            induction t with
            | nil => simp
            | cons u t ih =>
              intro hm
              rw [List.lookup_cons]
              split
              · simp
              · rename_i hne
                rcases List.mem_cons.1 hm with rfl | hm
                · simp [he] at hne
                · exact ih hm
          exact this t hq hl
        refine ⟨(ih _ h').1, ?_⟩
        rw [(ih _ h').2]
        simp
  have hb : ∀ t : List (Str × B), (t.map Prod.fst).Nodup → builderFor type t = t.lookup type := by
    intro t
    induction t with
    | nil => intro _; rfl
    | cons p t ih =>
      intro h
      rw [List.map_cons, List.nodup_cons] at h
      unfold builderFor at ih ⊢
      rw [List.filter_cons, List.lookup_cons]
      by_cases hp : p.1 = type
      · have h1 : (p.1 == type) = true := by simpa using hp
        have h2 : (type == p.1) = true := by simpa using hp.symm
        have h3 : t.filter (fun q => q.1 == type) = [] := by
          rw [List.filter_eq_nil_iff]
          intro q hq hqt
          have : q.1 = type := by simpa using hqt
          exact h.1 (by rw [hp, ← this]; exact List.mem_map_of_mem hq)
        rw [if_pos h1, h3, h2]
      · have h1 : ¬(p.1 == type) = true := by simpa using hp
        have h2 : (type == p.1) = false := by simpa using Ne.symm hp
        rw [if_neg h1, h2]
        exact ih h.2
  obtain ⟨h1, h2⟩ := inv regs [] (by simp)
  rw [hb _ h1, h2, List.nil_append]

/-- A second registration for a type is dropped without a word; the check that builders are unique never fails. -/
theorem C88_register_violated : builderFor ['T'] (register ['T'] 2 (register ['T'] 1 ([] : List (Str × Nat)))) = some 1 := by decide

end Dal
