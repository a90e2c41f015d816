import Verif.Storage.PastFixingModel
import Verif.Storage.GlobalsProps
import Verif.Storage.JsonDocProps
import Verif.Strings.StringProps

/-! # C91: past fixings -/

namespace Dal
open Env Fix Past DateText Archive JsonDoc

variable {V E : Type}

private theorem find_value (t : DateTime) (m : List (DateTime × V)) : Past.mapFind t m = valueAt m t := by
  induction m with
  | nil => rfl
  | cons e m ih =>
    rw [Past.mapFind, valueAt, List.find?_cons]
    by_cases h : e.1 = t
    · simp [h, ltB_irrefl]
    · have : (!ltB e.1 t && !ltB t e.1) = false := by
        cases h1 : ltB e.1 t
        · cases h2 : ltB t e.1
          · exact absurd (ltB_total _ _ h1 h2) h
          · rfl
        · rfl
      rw [this]
      simp only [Bool.false_eq_true, if_false, h, decide_false]
      exact ih

/-- What is recorded: the access object that is innermost in the environment, its entry of the name up to case, and the number of the time. -/
def Recorded (sgn : Bool) (env : EnvPtr E) (cast : E → Option (Access V)) (name : List Char) (t : DateTime) (v : V) : Prop :=
  ∃ a f, (entries env).findSome? cast = some a ∧ Strings.mapFind sgn name a = some (some f) ∧ valueAt f.vals t = some v

/-- C91, values: with an access object in the environment, the number recorded for the name and the time comes back; without one, quiet calls give minus infinity and all others
throw. -/
theorem C91_past_fixing (sgn : Bool) (env : EnvPtr E) (cast : E → Option (Access V)) (name : List Char) (t : DateTime) (quiet : Bool) (fuel : Nat) (hf : (entries env).length < fuel)
    (ha : ((entries env).findSome? cast).isSome) :
    (∀ v, pastFixing sgn fuel env cast name t quiet = .value v ↔ Recorded sgn env cast name t v) ∧
    ((∀ v, ¬Recorded sgn env cast name t v) → pastFixing sgn fuel env cast name t quiet = if quiet then .minusInfinity else .throws) := by
  obtain ⟨a, ha⟩ := Option.isSome_iff_exists.1 ha
  have hr : ∀ v, Recorded sgn env cast name t v ↔ ∃ f, Strings.mapFind sgn name a = some (some f) ∧ valueAt f.vals t = some v := by
    intro v
    constructor
    · rintro ⟨a', f, h1, h2⟩
      rw [ha] at h1
      cases h1
      exact ⟨f, h2⟩
    · rintro ⟨f, h⟩
      exact ⟨a, f, ha, h⟩
  simp only [hr]
  have hp : pastFixing sgn fuel env cast name t quiet = if (fetch sgn a name).isNone && !quiet then .throws else
      match valueAt (match fetch sgn a name with | some f => f.vals | none => []) t with
      | some v => .value v
      | none => if quiet then .minusInfinity else .throws := by
    simp only [pastFixing, C21_find env cast fuel hf, ha, find_value]
    rfl
  have hfetch : ∀ f, fetch sgn a name = some f ↔ Strings.mapFind sgn name a = some (some f) := by
    intro f
    rw [fetch]
    cases Strings.mapFind sgn name a with
    | none => simp
    | some h => simp
  rw [hp]
  simp only [← hfetch]
  cases hx : fetch sgn a name with
  | none => cases quiet <;> simp [valueAt]
  | some f =>
    simp only [Option.isNone_some, Bool.false_and, Bool.false_eq_true, if_false, Option.some.injEq]
    cases hv : valueAt f.vals t with
    | none => cases quiet <;> simp [hv]
    | some v => simp [hv]

/-- C91, indices: the fixing of an index is a recorded number or an exception, never minus infinity. -/
theorem C91_fixing (sgn : Bool) (env : EnvPtr E) (cast : E → Option (Access V)) (name : List Char) (t : DateTime) (fuel : Nat) (hf : (entries env).length < fuel) :
    (∀ v, fixing sgn fuel env cast name t = .value v ↔ Recorded sgn env cast name t v) ∧ ((∀ v, ¬Recorded sgn env cast name t v) → fixing sgn fuel env cast name t = .throws) := by
  cases ha : (entries env).findSome? cast with
  | some a => exact C91_past_fixing sgn env cast name t false fuel hf (by rw [ha]; rfl)
  | none =>
    have : fixing sgn fuel env cast name t = .throws := by simp [fixing, pastFixing, C21_find env cast fuel hf, ha]
    refine ⟨fun v => ?_, fun _ => this⟩
    rw [this]
    constructor
    · intro h; cases h
    · rintro ⟨a, -, h, -⟩
      rw [ha] at h
      cases h

/-- C91, no history: a call that is not quiet throws when there is no access object. -/
theorem C91_no_access (sgn : Bool) (env : EnvPtr E) (cast : E → Option (Access V)) (name : List Char) (t : DateTime) (fuel : Nat) (hf : (entries env).length < fuel)
    (ha : (entries env).findSome? cast = none) : pastFixing sgn fuel env cast name t false = .throws := by
  simp [pastFixing, C21_find env cast fuel hf, ha]

/-- C91 fails for quiet calls without an access object: a null pointer is read, for all names and times. -/
theorem C91_quiet_violated (sgn : Bool) (env : EnvPtr E) (cast : E → Option (Access V)) (name : List Char) (t : DateTime) (fuel : Nat) (hf : (entries env).length < fuel)
    (ha : (entries env).findSome? cast = none) : pastFixing sgn fuel env cast name t true = .undefined := by
  simp [pastFixing, C21_find env cast fuel hf, ha]

/-- C91, histories: where a history is recorded, `PastFixing` is `FixHistory_::Find` in it. -/
theorem C91_agrees_with_history (sgn : Bool) (env : EnvPtr E) (cast : E → Option (Access V)) (name : List Char) (t : DateTime) (quiet : Bool) (fuel : Nat) (hf : (entries env).length < fuel)
    (a : Access V) (ha : (entries env).findSome? cast = some a) (f : Past.Fixings V) (hn : Strings.mapFind sgn name a = some (some f)) (hc : Chrono f.vals) :
    pastFixing sgn fuel env cast name t quiet = match findFix f.vals t quiet with
      | some (some v) => .value v
      | some none => .minusInfinity
      | none => .throws := by
  rw [C24_find f.vals hc]
  have hx : fetch sgn a name = some f := by rw [fetch, hn]
  simp only [pastFixing, C21_find env cast fuel hf, ha, find_value, hx]
  cases valueAt f.vals t <;> cases quiet <;> simp

/-- C91, scopes: an access object that is added hides those outside of it, also for the names it does not have. -/
theorem C91_innermost (sgn : Bool) (env : EnvPtr E) (cast : E → Option (Access V)) (e : E) (a : Access V) (he : cast e = some a) (name : List Char) (t : DateTime) (quiet : Bool)
    (fuel : Nat) (hf : (entries env).length + 1 < fuel) : pastFixing sgn fuel (.deco env e) cast name t quiet = pastFixing sgn fuel (.deco .null e) cast name t quiet := by
  have h1 := C21_find (.deco env e) cast fuel (by simpa [entries] using hf)
  have h2 := C21_find (.deco .null e) cast fuel (by simp [entries]; omega)
  simp only [pastFixing, h1, h2, entries, List.findSome?_cons, he]

/-- C91, names: names that differ in case only have the same fixings. -/
theorem C91_case (sgn : Bool) (env : EnvPtr E) (cast : E → Option (Access V)) (n n' : List Char) (h : Strings.eqS sgn n n' = true) (t : DateTime) (quiet : Bool) (fuel : Nat) :
    pastFixing sgn fuel env cast n t quiet = pastFixing sgn fuel env cast n' t quiet := by
  have hr : ∀ x, Strings.eqS sgn x x = true := (C15_eq_equivalence sgn).refl
  have key : ∀ a : Access V, Strings.mapFind sgn n a = Strings.mapFind sgn n' a := by
    intro a
    induction a with
    | nil => rfl
    | cons e a ih =>
      rw [Strings.mapFind, Strings.mapFind, ih, C15_lt_congr sgn h (hr e.1), C15_lt_congr sgn (hr e.1) h]
  have hf : ∀ a : Access V, fetch sgn a n = fetch sgn a n' := fun a => by rw [fetch, fetch, key]
  unfold pastFixing
  cases findE fuel env cast with
  | none => rfl
  | some hist =>
    cases hist with
    | none => rfl
    | some a => simp only [hf a]

/-- C91, keys: keys of indices are ordered strictly and totally up to equality, empty handles being equal to each other. -/
theorem C91_keys (sgn : Bool) (a b : Option (List Char)) :
    ((keyLess sgn a b = true ∧ keyEq sgn a b = false ∧ keyLess sgn b a = false) ∨ (keyLess sgn a b = false ∧ keyEq sgn a b = true ∧ keyLess sgn b a = false) ∨
      (keyLess sgn a b = false ∧ keyEq sgn a b = false ∧ keyLess sgn b a = true)) ∧ keyEq sgn none none = true ∧ keyEq sgn none (some []) = true :=
  ⟨C15_lt_total sgn _ _, (C15_eq_equivalence sgn).refl _, (C15_eq_equivalence sgn).refl _⟩

/-! ### Maps from vectors -/

private theorem insert_keys (k : DateTime) (v : V) (m : List (DateTime × V)) : ∀ e ∈ insertNew k v m, e.1 = k ∨ e ∈ m := by
  induction m with
  | nil => simp [insertNew]
  | cons x m ih =>
    intro e he
    rw [insertNew] at he
    split_ifs at he
    · rcases List.mem_cons.1 he with rfl | h
      · exact Or.inl rfl
      · exact Or.inr h
    · rcases List.mem_cons.1 he with rfl | h
      · exact Or.inr (by simp)
      · rcases ih e h with h | h
        · exact Or.inl h
        · exact Or.inr (by simp [h])
    · exact Or.inr he

private theorem insert_chrono (k : DateTime) (v : V) (m : List (DateTime × V)) (h : Chrono m) : Chrono (insertNew k v m) := by
  unfold Chrono at *
  simp only [← ltB_iff] at *
  induction m with
  | nil => simp [insertNew]
  | cons x m ih =>
    rw [List.pairwise_cons] at h
    rw [insertNew]
    split_ifs with h1 h2
    · refine List.pairwise_cons.2 ⟨?_, List.pairwise_cons.2 h⟩
      intro e he
      rcases List.mem_cons.1 he with rfl | he
      · exact h1
      · exact ltB_trans h1 (h.1 e he)
    · refine List.pairwise_cons.2 ⟨?_, ih h.2⟩
      intro e he
      rcases insert_keys k v m e he with hk | hm
      · rw [hk]; exact h2
      · exact h.1 e hm
    · exact List.pairwise_cons.2 h

private theorem value_cons (e : DateTime × V) (m : List (DateTime × V)) (t : DateTime) : valueAt (e :: m) t = if e.1 = t then some e.2 else valueAt m t := by
  rw [valueAt, List.find?_cons]
  by_cases h : e.1 = t
  · simp [h]
  · simp only [h, decide_false, if_false]; rfl

private theorem value_none {m : List (DateTime × V)} {t : DateTime} (h : ∀ e ∈ m, ltB t e.1 = true) : valueAt m t = none := by
  induction m with
  | nil => rfl
  | cons e m ih =>
    rw [value_cons, if_neg, ih fun x hx => h x (by simp [hx])]
    rintro rfl
    have := h e (by simp)
    rw [ltB_irrefl] at this
    cases this

private theorem insert_value (k : DateTime) (v : V) (m : List (DateTime × V)) (h : Chrono m) (t : DateTime) :
    valueAt (insertNew k v m) t = (valueAt m t).or (if k = t then some v else none) := by
  unfold Chrono at h
  simp only [← ltB_iff] at h
  induction m with
  | nil => rw [insertNew, value_cons]; rfl
  | cons x m ih =>
    rw [List.pairwise_cons] at h
    have ih := ih h.2
    rw [insertNew]
    by_cases h1 : ltB k x.1 = true
    · rw [if_pos h1, value_cons]
      by_cases ht : k = t
      · have hn : valueAt (x :: m) t = none := value_none (by
          rw [← ht]
          intro e he
          rcases List.mem_cons.1 he with rfl | he
          · exact h1
          · exact ltB_trans h1 (h.1 e he))
        simp [ht, hn]
      · simp [ht]
    · rw [if_neg h1]
      by_cases h2 : ltB x.1 k = true
      · rw [if_pos h2, value_cons, value_cons, ih]
        split_ifs <;> simp
      · rw [if_neg h2]
        have hk : x.1 = k := ltB_total _ _ (by simpa using h2) (by simpa using h1)
        rw [value_cons]
        by_cases ht : k = t
        · simp [hk, ht]
        · simp [hk, ht]

private theorem zip_loop (ts : List DateTime) (vs : List V) (m : List (DateTime × V)) (h : Chrono m) :
    Chrono (zipLoop ts vs m) ∧ ∀ t, valueAt (zipLoop ts vs m) t = (valueAt m t).or (valueAt (ts.zip vs) t) := by
  induction ts generalizing vs m with
  | nil => exact ⟨by simpa [zipLoop] using h, fun t => by simp [zipLoop, valueAt]⟩
  | cons t0 ts ih =>
    cases vs with
    | nil => exact ⟨by simpa [zipLoop] using h, fun t => by simp [zipLoop, valueAt]⟩
    | cons v vs =>
      obtain ⟨h1, h2⟩ := ih vs (insertNew t0 v m) (insert_chrono t0 v m h)
      rw [zipLoop]
      refine ⟨h1, fun t => ?_⟩
      rw [h2, insert_value t0 v m h, List.zip_cons_cons, value_cons, Option.or_assoc]
      congr 1
      split_ifs <;> simp

/-- C91, vectors: a map made from times and numbers is in the order of the times, and has for every time the first of its numbers; vectors of different sizes throw. -/
theorem C91_zip (ts : List DateTime) (vs : List V) :
    (ts.length ≠ vs.length → zipToMap ts vs = none) ∧
    (ts.length = vs.length → ∃ m, zipToMap ts vs = some m ∧ Chrono m ∧ ∀ t, valueAt m t = valueAt (ts.zip vs) t) := by
  constructor
  · intro h; rw [zipToMap, if_neg h]
  · intro h
    obtain ⟨h1, h2⟩ := zip_loop ts vs [] (by simp [Chrono])
    exact ⟨_, by rw [zipToMap, if_pos h], h1, fun t => by rw [h2 t]; simp [valueAt]⟩

private theorem insert_last (m : List (DateTime × V)) (k : DateTime) (v : V) (h : ∀ e ∈ m, ltB e.1 k = true) : insertNew k v m = m ++ [(k, v)] := by
  induction m with
  | nil => rfl
  | cons e m ih =>
    have he := h e (by simp)
    have : ltB k e.1 = false := by
      cases hb : ltB k e.1 with
      | false => rfl
      | true =>
        have := ltB_trans he hb
        rw [ltB_irrefl] at this
        cases this
    rw [insertNew, this, if_neg (by simp), if_pos he, ih fun x hx => h x (by simp [hx])]
    rfl

private theorem zip_self (l m : List (DateTime × V)) (h : (m ++ l).Pairwise fun a b => ltB a.1 b.1 = true) : zipLoop (l.map Prod.fst) (l.map Prod.snd) m = m ++ l := by
  induction l generalizing m with
  | nil => simp [zipLoop]
  | cons e l ih =>
    rw [List.map_cons, List.map_cons, zipLoop, insert_last m e.1 e.2 (fun x hx => (List.pairwise_append.1 h).2.2 x hx e (by simp)), ih]
    · simp
    · simpa using h

/-- C91, archives: the members written for fixings make the same fixings again. -/
theorem C91_members (f : Past.Fixings Rat) (h : Chrono f.vals) : build (members f) = some f := by
  unfold Chrono at h
  simp only [← ltB_iff] at h
  rw [members, build]
  simp only [zipToMap, List.length_map, if_true, zip_self f.vals [] (by simpa using h), Option.map_some, List.nil_append]

/-- Fixings that a JSON text can hold: a plain name, times to the second on dates that can be read, numbers of six decimals. -/
def JsonFixings (f : Past.Fixings Rat) : Prop :=
  (∀ c ∈ f.name, plain c) ∧ ∀ e ∈ f.vals, ReadableTime e.1 ∧ SixDecimals e.2

/-- C91, JSON: fixings come back from the text written for them, for such fixings. Missing: fractions of seconds and of numbers, names with quotes, and dates that cannot be read. -/
theorem C91_json_partial (f : Past.Fixings Rat) (h : Chrono f.vals) (hf : JsonFixings f) : (toJson f).bind fromJson = some f := by
  have hheap : JsonHeap libraryClasses (fun _ => members f) (fun _ => True) (fun _ => 0) := by
    intro a _
    refine ⟨by simp [members], ⟨_, rfl, (C88_library.2 ("Fixings".toList, _) (by simp [library])).2, ?_⟩, ?_⟩
    · refine .cons (Or.inr ⟨rfl, Or.inr hf.1⟩) (.cons (Or.inl ⟨rfl, ?_⟩) (.cons (Or.inl ⟨rfl, ?_⟩) .nil))
      · intro q hq
        obtain ⟨e, he, rfl⟩ := List.mem_map.1 hq
        exact (hf.2 e he).2
      · intro q hq
        obtain ⟨e, he, rfl⟩ := List.mem_map.1 hq
        exact (hf.2 e he).1
    · intro v hv r hr
      simp only [members, List.mem_cons, List.not_mem_nil, or_false] at hv
      rcases hv with rfl | rfl | rfl <;> simp [refsOf] at hr
  obtain ⟨txt, root', built, phi, h1, h2, h3, -, -, h4⟩ := C90_roundtrip_partial C90_library hheap 0 trivial 1 (by decide)
  obtain ⟨o, ho, ht, hv⟩ := h4 0 root' h3
  have e1 : toJson f = some txt := h1
  have e2 : o = members f := by
    cases o with
    | mk type vals =>
      simp only [members] at hv ht
      subst ht
      cases hv with
      | cons a1 hv => cases hv with
        | cons a2 hv => cases hv with
          | cons a3 hv =>
            cases hv
            obtain ⟨y1, rfl, rfl⟩ := a1
            obtain ⟨y2, rfl, rfl⟩ := a2
            obtain ⟨y3, rfl, rfl⟩ := a3
            rfl
  rw [e1, Option.bind_some, fromJson]
  rw [show JsonDoc.readString (fun t => library.lookup t) 2 txt = some (root', built) from h2]
  simp only [Option.bind_some, ho, e2, C91_members f h]

/-! ### Witnesses -/

private def sofr (t : Rat) (v : Rat) : DateTime × Rat := (⟨⟨20000⟩, t⟩, v)

private def access : Access Rat := [("SOFR".toList, some ⟨"SOFR".toList, [sofr (1 / 2) 5, sofr (3 / 4) 6]⟩), ("X".toList, none)]

/-- An entry of the environment with fixings, above one that is something else. -/
private def demoEnv : EnvPtr (Option (Access Rat)) := .deco (.deco .null none) (some access)

example : pastFixing true 5 demoEnv id "sofr".toList ⟨⟨20000⟩, 3 / 4⟩ false = .value 6 ∧ pastFixing true 5 demoEnv id "sofr".toList ⟨⟨20000⟩, 0⟩ true = .minusInfinity ∧
    pastFixing true 5 demoEnv id "sofr".toList ⟨⟨20000⟩, 0⟩ false = .throws ∧ pastFixing true 5 demoEnv id "X".toList ⟨⟨20000⟩, 0⟩ true = .minusInfinity ∧
    pastFixing true 5 (.deco .null none : EnvPtr (Option (Access Rat))) id "sofr".toList ⟨⟨20000⟩, 0⟩ true = .undefined := by decide +kernel

example : zipToMap [⟨⟨3⟩, 0⟩, ⟨⟨1⟩, 0⟩, ⟨⟨3⟩, 0⟩] [1, 2, 3] = some [((⟨⟨1⟩, 0⟩ : DateTime), 2), (⟨⟨3⟩, 0⟩, 1)] := by decide +kernel

example : Chrono [sofr (1 / 2) 5, sofr (3 / 4) (21 / 4)] ∧ JsonFixings ⟨"SOFR".toList, [sofr (1 / 2) 5, sofr (3 / 4) (21 / 4)]⟩ := by
  have hd : ReadableDate ⟨20000⟩ := by
    refine ⟨by decide +kernel, Or.inl ?_⟩
    have : Date.year ⟨20000⟩ < 2034 := by decide +kernel
    exact Or.inl this
  refine ⟨by unfold Chrono; simp only [← ltB_iff]; decide +kernel, ?_, ?_⟩
  · have : ∀ c ∈ "SOFR".toList, c ≠ '"' ∧ c ≠ '\\' ∧ 32 ≤ c.toNat := by decide +kernel
    exact this
  · intro e he
    rcases List.mem_pair.1 he with rfl | rfl
    · exact ⟨⟨⟨20000⟩, 12, 0, 0, hd, by decide, by decide, by decide, by decide +kernel⟩, ⟨5000000, by decide +kernel⟩⟩
    · exact ⟨⟨⟨20000⟩, 18, 0, 0, hd, by decide, by decide, by decide, by decide +kernel⟩, ⟨5250000, by decide +kernel⟩⟩

/-- C91 fails for fractions of seconds: of two fixings in the same second one is lost. -/
theorem C91_subsecond_violated : (toJson ⟨"SOFR".toList, [sofr (1 / 2) 5, sofr (1 / 2 + 1 / 172800) 6]⟩).bind fromJson = some ⟨"SOFR".toList, [sofr (1 / 2) 5]⟩ := by decide +kernel

/-- C91 fails for numbers of more than six decimals. -/
theorem C91_decimals_violated : (toJson ⟨"SOFR".toList, [sofr (1 / 2) (53125 / 10000000)]⟩).bind fromJson ≠ some ⟨"SOFR".toList, [sofr (1 / 2) (53125 / 10000000)]⟩ := by decide +kernel

end Dal
