import Verif.Storage.AuditModel
import Verif.Storage.GlobalsProps
import Verif.Strings.StringProps

/-! # C76: auditors and bags -/

namespace Dal
open Audit Strings Env

section Multimap
variable {V : Type}

/-- The entries are in order. -/
def MmSorted (sgn : Bool) (m : List (Str × V)) : Prop := m.Pairwise fun a b => ltS sgn b.1 a.1 = false

private theorem not_lt_iff (sgn : Bool) (a b : Str) : ltS sgn b a = false ↔ a.map (sortVal sgn) ≤ b.map (sortVal sgn) := by
  rw [← Bool.not_eq_true, ltS_iff_map, not_lt]

private theorem eqS_iff (sgn : Bool) (a b : Str) : eqS sgn a b = true ↔ ltS sgn a b = false ∧ ltS sgn b a = false := by
  rw [eqS_iff_map, not_lt_iff, not_lt_iff]
  exact ⟨fun h => ⟨h.ge, h.le⟩, fun h => le_antisymm h.2 h.1⟩

private theorem mem_mmInsert (sgn : Bool) (k : Str) (v : V) (m : List (Str × V)) : ∀ x, x ∈ mmInsert sgn k v m ↔ x = (k, v) ∨ x ∈ m := by
  induction m with
  | nil => intro x; simp [mmInsert]
  | cons e m ih =>
    intro x
    simp only [mmInsert]
    split_ifs
    · simp
    · rw [List.mem_cons, ih, List.mem_cons]
      tauto

private theorem mmInsert_sorted (sgn : Bool) (k : Str) (v : V) (m : List (Str × V)) (h : MmSorted sgn m) : MmSorted sgn (mmInsert sgn k v m) := by
  induction m with
  | nil => simp [mmInsert, MmSorted]
  | cons e m ih =>
    unfold MmSorted at h
    rw [List.pairwise_cons] at h
    simp only [mmInsert]
    split_ifs with h1
    · refine List.pairwise_cons.2 ⟨fun x hx => ?_, List.pairwise_cons.2 h⟩
      rw [not_lt_iff]
      rw [ltS_iff_map] at h1
      rcases List.mem_cons.1 hx with rfl | hx
      · exact h1.le
      · exact h1.le.trans ((not_lt_iff sgn _ _).1 (h.1 x hx))
    · refine List.pairwise_cons.2 ⟨fun x hx => ?_, ih h.2⟩
      rcases (mem_mmInsert sgn k v m x).1 hx with rfl | hx
      · simpa using h1
      · exact h.1 x hx

private theorem mmRange_eq (sgn : Bool) (k : Str) (m : List (Str × V)) (h : MmSorted sgn m) : mmRange sgn k m = m.filter fun e => eqS sgn e.1 k := by
  induction m with
  | nil => rfl
  | cons e m ih =>
    unfold MmSorted at h
    rw [List.pairwise_cons] at h
    unfold mmRange
    by_cases h1 : ltS sgn e.1 k = true
    · rw [List.dropWhile_cons_of_pos (p := fun e : Str × V => ltS sgn e.1 k) h1]
      have : eqS sgn e.1 k = false := by
        rw [← Bool.not_eq_true, eqS_iff]
        simp [h1]
      rw [List.filter_cons_of_neg (by simp [this])]
      exact ih h.2
    · rw [List.dropWhile_cons_of_neg (p := fun e : Str × V => ltS sgn e.1 k) h1]
      have hrest : ∀ x ∈ m, ltS sgn x.1 k = false := by
        intro x hx
        rw [not_lt_iff]
        exact ((not_lt_iff sgn k e.1).1 (by simpa using h1)).trans ((not_lt_iff sgn _ _).1 (h.1 x hx))
      have hd : m.dropWhile (fun e => ltS sgn e.1 k) = m := by
        cases m with
        | nil => rfl
        | cons x m => rw [List.dropWhile_cons_of_neg]; simp [hrest x (by simp)]
      have hi := ih h.2
      unfold mmRange at hi
      rw [hd] at hi
      by_cases h2 : ltS sgn k e.1 = true
      · rw [List.takeWhile_cons_of_neg (by simp [h2])]
        symm
        rw [List.filter_eq_nil_iff]
        intro x hx
        rw [eqS_iff]
        rcases List.mem_cons.1 hx with rfl | hx
        · simp [h2]
        · have : ltS sgn k x.1 = true := by
            rw [ltS_iff_map] at h2 ⊢
            exact lt_of_lt_of_le h2 ((not_lt_iff sgn _ _).1 (h.1 x hx))
          simp [this]
      · rw [List.takeWhile_cons_of_pos (by simpa using h2), hi, List.filter_cons_of_pos]
        rw [eqS_iff]
        exact ⟨by simpa using h1, by simpa using h2⟩

private theorem mmErase_eq (sgn : Bool) (k : Str) (m : List (Str × V)) (h : MmSorted sgn m) : mmErase sgn k m = m.filter fun e => !eqS sgn e.1 k := by
  induction m with
  | nil => rfl
  | cons e m ih =>
    unfold MmSorted at h
    rw [List.pairwise_cons] at h
    unfold mmErase
    by_cases h1 : ltS sgn e.1 k = true
    · rw [List.dropWhile_cons_of_pos (p := fun e : Str × V => ltS sgn e.1 k) h1, List.takeWhile_cons_of_pos (p := fun e : Str × V => ltS sgn e.1 k) h1]
      have : eqS sgn e.1 k = false := by
        rw [← Bool.not_eq_true, eqS_iff]
        simp [h1]
      rw [List.filter_cons_of_pos (by simp [this]), List.cons_append]
      exact congrArg _ (ih h.2)
    · rw [List.dropWhile_cons_of_neg (p := fun e : Str × V => ltS sgn e.1 k) h1, List.takeWhile_cons_of_neg (p := fun e : Str × V => ltS sgn e.1 k) h1, List.nil_append]
      have hrest : ∀ x ∈ m, ltS sgn x.1 k = false := by
        intro x hx
        rw [not_lt_iff]
        exact ((not_lt_iff sgn k e.1).1 (by simpa using h1)).trans ((not_lt_iff sgn _ _).1 (h.1 x hx))
      have hd : m.dropWhile (fun e => ltS sgn e.1 k) = m ∧ m.takeWhile (fun e => ltS sgn e.1 k) = [] := by
        cases m with
        | nil => exact ⟨rfl, rfl⟩
        | cons x m => exact ⟨by rw [List.dropWhile_cons_of_neg]; simp [hrest x (by simp)], by rw [List.takeWhile_cons_of_neg]; simp [hrest x (by simp)]⟩
      have hi := ih h.2
      unfold mmErase at hi
      rw [hd.1, hd.2, List.nil_append] at hi
      by_cases h2 : ltS sgn k e.1 = true
      · rw [List.dropWhile_cons_of_neg (by simp [h2])]
        symm
        rw [List.filter_eq_self]
        intro x hx
        have hne : eqS sgn x.1 k = false := by
          rw [← Bool.not_eq_true, eqS_iff]
          rcases List.mem_cons.1 hx with rfl | hx
          · simp [h2]
          · have : ltS sgn k x.1 = true := by
              rw [ltS_iff_map] at h2 ⊢
              exact lt_of_lt_of_le h2 ((not_lt_iff sgn _ _).1 (h.1 x hx))
            simp [this]
        simp [hne]
      · rw [List.dropWhile_cons_of_pos (by simpa using h2), hi, List.filter_cons_of_neg]
        have : eqS sgn e.1 k = true := by
          rw [eqS_iff]
          exact ⟨by simpa using h1, by simpa using h2⟩
        simp [this]

private theorem filter_mmInsert (sgn : Bool) (k k0 : Str) (v : V) (m : List (Str × V)) (h : MmSorted sgn m) :
    (mmInsert sgn k v m).filter (fun e => eqS sgn e.1 k0) = m.filter (fun e => eqS sgn e.1 k0) ++ if eqS sgn k k0 then [(k, v)] else [] := by
  induction m with
  | nil => simp only [mmInsert, List.filter_cons, List.filter_nil, List.nil_append]
  | cons e m ih =>
    unfold MmSorted at h
    rw [List.pairwise_cons] at h
    simp only [mmInsert]
    by_cases h1 : ltS sgn k e.1 = true <;> by_cases h2 : eqS sgn k k0 = true
    · rw [if_pos h1, if_pos h2]
      have : (e :: m).filter (fun e => eqS sgn e.1 k0) = [] := by
        rw [List.filter_eq_nil_iff]
        intro x hx hxe
        rw [eqS_iff_map] at h2 hxe
        rw [ltS_iff_map] at h1
        rcases List.mem_cons.1 hx with rfl | hx
        · rw [hxe, h2] at h1
          exact lt_irrefl _ h1
        · have := lt_of_lt_of_le h1 ((not_lt_iff sgn _ _).1 (h.1 x hx))
          rw [hxe, h2] at this
          exact lt_irrefl _ this
      rw [List.filter_cons_of_pos (by simpa using h2), this]
      rfl
    · rw [if_pos h1, if_neg h2, List.filter_cons_of_neg (by simpa using h2), List.append_nil]
    · have hi := ih h.2
      rw [if_neg h1, if_pos h2]
      rw [if_pos h2] at hi
      rw [List.filter_cons, List.filter_cons, hi]
      split_ifs <;> rfl
    · have hi := ih h.2
      rw [if_neg h1, if_neg h2]
      rw [if_neg h2] at hi
      rw [List.filter_cons, List.filter_cons, hi]
      split_ifs <;> simp

private theorem mmErase_sorted (sgn : Bool) (k : Str) (m : List (Str × V)) (h : MmSorted sgn m) : MmSorted sgn (mmErase sgn k m) := by
  rw [mmErase_eq sgn k m h]
  exact List.Pairwise.filter _ h

private theorem foldl_append (sgn : Bool) (l m : List (Str × V)) (h : MmSorted sgn (m ++ l)) :
    l.foldl (fun m e => mmInsert sgn e.1 e.2 m) m = m ++ l := by
  have insLast : ∀ (m : List (Str × V)) (e : Str × V), (∀ x ∈ m, ltS sgn e.1 x.1 = false) → mmInsert sgn e.1 e.2 m = m ++ [e] := by
    intro m e hm
    induction m with
    | nil => rfl
    | cons x m ih =>
      simp only [mmInsert]
      rw [if_neg (by simp [hm x (by simp)]), ih fun y hy => hm y (List.mem_cons_of_mem _ hy)]
      rfl
  induction l generalizing m with
  | nil => simp
  | cons e l ih =>
    rw [List.foldl_cons, insLast m e, ih, List.append_assoc, List.singleton_append]
    · rw [List.append_assoc]; exact h
    · intro x hx
      unfold MmSorted at h
      rw [List.pairwise_append] at h
      exact h.2.2 x hx e (by simp)

end Multimap

/-- C76: a bag whose entries are in order, as all bags are, is written and read back unchanged. -/
theorem C76_bag_roundtrip {V : Type} (sgn : Bool) (m : List (Str × V)) (h : MmSorted sgn m) : bagRead sgn (bagWrite m) = some m := by
  unfold bagRead bagWrite zipToMultimap
  simp only [List.length_map, if_true]
  rw [show (m.map Prod.fst).zip (m.map Prod.snd) = m from by
    induction m with
    | nil => rfl
    | cons e m ih => simp only [List.map_cons, List.zip_cons_cons]; rw [ih (List.Pairwise.of_cons h)]]
  exact congrArg some (foldl_append sgn m [] h)

/-- C76: keys and contents of different number are refused, others kept with all their duplicates. -/
theorem C76_bag_read {V : Type} (sgn : Bool) (ks : List Str) (vs : List V) :
    (ks.length ≠ vs.length ↔ bagRead sgn (ks, vs) = none) ∧
    ∀ m, bagRead sgn (ks, vs) = some m → MmSorted sgn m ∧ ∀ k, (m.filter fun e => eqS sgn e.1 k) = (ks.zip vs).filter fun e => eqS sgn e.1 k := by
  unfold bagRead zipToMultimap
  have key : ∀ (l m : List (Str × V)), MmSorted sgn m → MmSorted sgn (l.foldl (fun m e => mmInsert sgn e.1 e.2 m) m) ∧
      ∀ k, (l.foldl (fun m e => mmInsert sgn e.1 e.2 m) m).filter (fun e => eqS sgn e.1 k)
        = m.filter (fun e => eqS sgn e.1 k) ++ l.filter (fun e => eqS sgn e.1 k) := by
    intro l
    induction l with
    | nil => intro m hm; simp [hm]
    | cons e l ih =>
      intro m hm
      rw [List.foldl_cons]
      obtain ⟨h1, h2⟩ := ih _ (mmInsert_sorted sgn e.1 e.2 m hm)
      refine ⟨h1, fun k => ?_⟩
      rw [h2, filter_mmInsert sgn e.1 k e.2 m hm, List.append_assoc, List.filter_cons]
      split_ifs <;> simp
  constructor
  · by_cases h : ks.length = vs.length <;> simp [h]
  · intro m hm
    split_ifs at hm with h
    obtain rfl := Option.some.inj hm
    obtain ⟨h1, h2⟩ := key (ks.zip vs) [] List.Pairwise.nil
    exact ⟨h1, fun k => by simpa using h2 k⟩

example : ∃ m, bagRead true (["b".toList, "a".toList, "B".toList], [1, 2, 3]) = some m ∧ m = [("a".toList, 2), ("b".toList, 1), ("B".toList, 3)] :=
  ⟨_, rfl, by decide +kernel⟩

/-! ### One auditor -/

/-- What an auditor should remember under a key: in the reading modes the values it was told, all of them or the last one; nothing in the other modes. -/
def remembered (sgn : Bool) (key : Str) : Option Mode × List (Option Nat) → Op → Option Mode × List (Option Nat)
  | (_, l), .setMode m => (some m, l)
  | (some .reading, l), .notice k v => (some .reading, if eqS sgn k key then l ++ [v] else l)
  | (some .readingExclusive, l), .notice k v => (some .readingExclusive, if eqS sgn k key then [v] else l)
  | s, .notice _ _ => s

private theorem step_remembered (sgn : Bool) (key : Str) (a : Auditor) (h : MmSorted sgn a.bag) (op : Op) :
    MmSorted sgn (step sgn a op).bag ∧ ((step sgn a op).mode, ((step sgn a op).bag.filter fun e => eqS sgn e.1 key).map Prod.snd)
      = remembered sgn key (a.mode, (a.bag.filter fun e => eqS sgn e.1 key).map Prod.snd) op := by
  obtain ⟨mode, bag⟩ := a
  cases op with
  | setMode m => exact ⟨h, rfl⟩
  | notice k v =>
    rcases mode with _ | mode
    · exact ⟨h, rfl⟩
    · cases mode with
      | passive => exact ⟨h, rfl⟩
      | showing => exact ⟨h, rfl⟩
      | reading =>
        refine ⟨mmInsert_sorted sgn k v bag h, ?_⟩
        simp only [step, notice, remembered]
        rw [filter_mmInsert sgn k key v bag h, List.map_append]
        split_ifs <;> simp
      | readingExclusive =>
        have he := mmErase_sorted sgn k bag h
        refine ⟨mmInsert_sorted sgn k v _ he, ?_⟩
        simp only [step, notice, remembered]
        rw [filter_mmInsert sgn k key v _ he, List.map_append, mmErase_eq sgn k bag h, List.filter_filter]
        split_ifs with hk
        · have : bag.filter (fun e => eqS sgn e.1 key && !eqS sgn e.1 k) = [] := by
            rw [List.filter_eq_nil_iff]
            intro x _ hx
            rw [Bool.and_eq_true] at hx
            have e1 := (eqS_iff_map sgn _ _).1 hx.1
            have e2 := (eqS_iff_map sgn _ _).1 hk
            have : eqS sgn x.1 k = true := (eqS_iff_map sgn _ _).2 (e1.trans e2.symm)
            simp [this] at hx
          rw [this]
          rfl
        · have : bag.filter (fun e => eqS sgn e.1 key && !eqS sgn e.1 k) = bag.filter (fun e => eqS sgn e.1 key) := by
            apply List.filter_congr
            intro x _
            by_cases h1 : eqS sgn x.1 key = true
            · have : eqS sgn x.1 k = false := by
                rw [← Bool.not_eq_true]
                intro h2
                exact hk ((eqS_iff_map sgn _ _).2 (((eqS_iff_map sgn _ _).1 h2).symm.trans ((eqS_iff_map sgn _ _).1 h1)))
              simp [h1, this]
            · simp [h1]
          rw [this]
          simp

/-- C76: whatever was done with a new auditor, once it shows it finds under each key exactly what it should remember. -/
theorem C76_find (sgn : Bool) (ops : List Op) (key : Str) (hne : (ops.foldl (step sgn) Auditor.new).bag ≠ []) (first : Bool) :
    find sgn first (step sgn (ops.foldl (step sgn) Auditor.new) (.setMode .showing)) key
      = .ok ((ops.foldl (remembered sgn key) (none, [])).2) := by
  have key' : ∀ (ops : List Op) (a : Auditor), MmSorted sgn a.bag → MmSorted sgn (ops.foldl (step sgn) a).bag ∧
      ((ops.foldl (step sgn) a).mode, ((ops.foldl (step sgn) a).bag.filter fun e => eqS sgn e.1 key).map Prod.snd)
        = ops.foldl (remembered sgn key) (a.mode, (a.bag.filter fun e => eqS sgn e.1 key).map Prod.snd) := by
    intro ops
    induction ops with
    | nil => intro a h; exact ⟨h, rfl⟩
    | cons op ops ih =>
      intro a h
      obtain ⟨h1, h2⟩ := step_remembered sgn key a h op
      rw [List.foldl_cons, List.foldl_cons, ← h2]
      exact ih _ h1
  obtain ⟨h1, h2⟩ := key' ops Auditor.new List.Pairwise.nil
  rw [show ((none : Option Mode), ([] : List (Option Nat))) = (Auditor.new.mode, (Auditor.new.bag.filter fun e => eqS sgn e.1 key).map Prod.snd) from rfl, ← h2]
  have : (ops.foldl (step sgn) Auditor.new).bag.isEmpty = false := by
    cases hb : (ops.foldl (step sgn) Auditor.new).bag with
    | nil => exact absurd hb hne
    | cons => rfl
  generalize ops.foldl (step sgn) Auditor.new = a at this h1
  show (if (first && a.bag.isEmpty) = true then End.undefined else .ok ((mmRange sgn key a.bag).map Prod.snd)) = _
  rw [this, Bool.and_false, if_neg (by simp), mmRange_eq sgn key _ h1]

example : (([Op.setMode .reading, .notice "a".toList (some 1), .notice "A".toList (some 2)].foldl (step true) Auditor.new).bag ≠ []) ∧
    ([Op.setMode .reading, .notice "a".toList (some 1), .notice "A".toList (some 2)].foldl (remembered true "a".toList) (none, [])).2 = [some 1, some 2] :=
  ⟨by decide +kernel, by decide +kernel⟩

/-- C76: an auditor that does not show finds nothing. -/
theorem C76_find_hidden (sgn first : Bool) (a : Auditor) (m : Mode) (hm : a.mode = some m) (hs : m ≠ .showing) (hne : a.bag ≠ []) (key : Str) :
    find sgn first a key = .ok [] := by
  have : a.bag.isEmpty = false := by
    cases hb : a.bag with
    | nil => exact absurd hb hne
    | cons => rfl
  unfold find
  rw [this, Bool.and_false, if_neg (by simp), hm]
  cases m <;> first | rfl | exact absurd rfl hs

/-- C76, not so: the first search of a process is undefined when it meets an empty bag, whatever the mode; so is any use of an auditor before its mode is set. -/
theorem C76_first_find_violated (sgn : Bool) (m : Option Mode) (key : Str) (value : Option Nat) :
    find sgn true ⟨m, []⟩ key = .undefined ∧ notice sgn Auditor.new key value = .undefined ∧ find sgn false Auditor.new key = .undefined :=
  ⟨rfl, rfl, rfl⟩

/-! ### Environments -/

/-- The auditors among some entries. -/
def auditorsOf (es : List (Option Nat)) : List Nat := es.filterMap id

/-- The auditor reads. -/
def reads (a : Auditor) : Prop := a.mode = some .reading ∨ a.mode = some .readingExclusive

private theorem notice_reads {sgn : Bool} {a : Auditor} (h : reads a) (key : Str) (v : Option Nat) :
    notice sgn a key v = .ok (step sgn a (.notice key v)) ∧ reads (step sgn a (.notice key v)) := by
  obtain ⟨mode, bag⟩ := a
  rcases h with h | h <;> dsimp only at h <;> subst h
  · exact ⟨rfl, Or.inl rfl⟩
  · exact ⟨rfl, Or.inr rfl⟩

private theorem show_all (sgn : Bool) (key : Str) (v : Option Nat) : ∀ (es : List (Option Nat)) (s : Store), (auditorsOf es).Nodup → (∀ i ∈ auditorsOf es, reads (s i)) →
    es.foldl (show1 sgn key v) (s, .ok ()) = (fun i => if i ∈ auditorsOf es then step sgn (s i) (.notice key v) else s i, .ok ())
  | [], s, _, _ => by simp [auditorsOf]
  | none :: es, s, hn, hr => show_all sgn key v es s hn hr
  | some i :: es, s, hn, hr => by
    have hn' : i ∉ auditorsOf es ∧ (auditorsOf es).Nodup := by
      simpa [auditorsOf] using hn
    rw [List.foldl_cons]
    have h1 : show1 sgn key v (s, .ok ()) (some i) = (put s i (step sgn (s i) (.notice key v)), .ok ()) := by
      simp only [show1]
      rw [(notice_reads (hr i (by simp [auditorsOf])) key v).1]
    rw [h1, show_all sgn key v es _ hn'.2]
    · refine Prod.ext (funext fun j => ?_) rfl
      show (if j ∈ auditorsOf es then step sgn (put s i _ j) (.notice key v) else put s i _ j) = if j ∈ i :: auditorsOf es then _ else _
      by_cases hj : j = i
      · subst hj
        simp [hn'.1, put]
      · simp [hj, put]
    · intro j hj
      have hji : j ≠ i := fun e => hn'.1 (e ▸ hj)
      unfold put
      rw [if_neg hji]
      exact hr j (by simp only [auditorsOf, List.filterMap_cons, id]; exact List.mem_cons_of_mem _ hj)

/-- C76: when all auditors of an environment read, auditing a value tells it to each of them, and to nobody else. -/
theorem C76_audit (sgn : Bool) (env : EnvPtr (Option Nat)) (s : Store) (key : Str) (v : Option Nat) (fuel : Nat) (hf : (entries env).length < fuel)
    (hn : (auditorsOf (entries env)).Nodup) (hr : ∀ i ∈ auditorsOf (entries env), reads (s i)) :
    audit sgn fuel env s key v = some (fun i => if i ∈ auditorsOf (entries env) then step sgn (s i) (.notice key v) else s i, .ok ()) := by
  unfold audit
  rw [C21_iterate env _ _ fuel hf, show_all sgn key v _ _ hn hr]

private theorem show_stuck (sgn : Bool) (key : Str) (v : Option Nat) : ∀ (es : List (Option Nat)) (s : Store), es.foldl (show1 sgn key v) (s, .throws) = (s, .throws)
  | [], _ => rfl
  | e :: es, s => by
    rw [List.foldl_cons]
    exact show_stuck sgn key v es s

/-- C76, not so: one passive or showing auditor in the environment makes auditing any value an exception, after the inner auditors have been told and
before the outer ones are. -/
theorem C76_audit_violated (sgn : Bool) (env : EnvPtr (Option Nat)) (s : Store) (key : Str) (v : Option Nat) (fuel : Nat) (hf : (entries env).length < fuel)
    (inner outer : List (Option Nat)) (p : Nat) (he : entries env = inner ++ some p :: outer) (hn : (auditorsOf inner).Nodup) (hp : p ∉ auditorsOf inner)
    (hr : ∀ i ∈ auditorsOf inner, reads (s i)) (hm : (s p).mode = some .passive ∨ (s p).mode = some .showing) :
    audit sgn fuel env s key v = some (fun i => if i ∈ auditorsOf inner then step sgn (s i) (.notice key v) else s i, .throws) := by
  unfold audit
  rw [C21_iterate env _ _ fuel hf, he, List.foldl_append, show_all sgn key v _ _ hn hr, List.foldl_cons]
  have : show1 sgn key v (fun i => if i ∈ auditorsOf inner then step sgn (s i) (.notice key v) else s i, .ok ()) (some p)
      = (fun i => if i ∈ auditorsOf inner then step sgn (s i) (.notice key v) else s i, .throws) := by
    simp only [show1, if_neg hp]
    unfold notice
    rcases hm with hm | hm <;> rw [hm]
  rw [this, show_stuck]

example : ∃ s : Store, (s 0).mode = some .reading ∧ (s 1).mode = some .passive ∧ entries (.deco (.deco .null (some 1)) (some 0)) = [some 0] ++ some 1 :: [] :=
  ⟨fun i => if i = 0 then ⟨some .reading, []⟩ else ⟨some .passive, []⟩, rfl, rfl, rfl⟩

/-! ### Recollection -/

/-- The objects of the wanted type among some handles. -/
def wanted (isT : Nat → Bool) (hs : List (Option Nat)) : List Nat := (hs.filterMap id).filter isT

/-- What recalling some objects should give: nothing, the only object, or an exception when there are two. -/
def agree : List Nat → Option Nat → End (Option Nat)
  | [], v => .ok v
  | o :: os, none => agree os (some o)
  | o :: os, some w => if o = w then agree os (some w) else .throws

/-- `agree` in plain words: all objects are the same. -/
theorem agree_iff (l : List Nat) (r : Option Nat) : agree l none = .ok r ↔ (l = [] ∧ r = none) ∨ ∃ o, r = some o ∧ l ≠ [] ∧ ∀ x ∈ l, x = o := by
  have h1 : ∀ (l : List Nat) (w : Nat), agree l (some w) = .ok r ↔ r = some w ∧ ∀ x ∈ l, x = w := by
    intro l
    induction l with
    | nil => intro w; simp [agree, eq_comm]
    | cons o os ih =>
      intro w
      simp only [agree]
      split_ifs with h
      · rw [ih]
        simp [h]
      · simp [h]
  cases l with
  | nil => simp [agree, eq_comm]
  | cons o os =>
    simp only [agree]
    rw [h1]
    constructor
    · rintro ⟨rfl, h⟩
      exact Or.inr ⟨o, rfl, by simp, by simpa using h⟩
    · rintro (⟨h, _⟩ | ⟨w, rfl, _, h⟩)
      · cases h
      · obtain rfl := h o (by simp)
        exact ⟨rfl, fun x hx => h x (List.mem_cons_of_mem _ hx)⟩

private theorem agree_append (l k : List Nat) (v : Option Nat) : agree (l ++ k) v = match agree l v with
    | .ok w => agree k w
    | .throws => .throws
    | .undefined => .undefined := by
  induction l generalizing v with
  | nil => rfl
  | cons o os ih =>
    cases v with
    | none => exact ih _
    | some w =>
      simp only [List.cons_append, agree]
      split_ifs
      · exact ih _
      · rfl

private theorem recallHandles_eq (isT : Nat → Bool) (hs : List (Option Nat)) (v : Option Nat) : recallHandles isT hs v = agree (wanted isT hs) v := by
  induction hs generalizing v with
  | nil => rfl
  | cons h hs ih =>
    cases h with
    | none =>
      simp only [recallHandles, Option.filter_none, ne_eq, not_true_eq_false, false_and, if_false]
      exact ih v
    | some o =>
      by_cases ho : isT o = true
      · have hw : wanted isT (some o :: hs) = o :: wanted isT hs := by simp [wanted, ho]
        rw [hw]
        simp only [recallHandles, Option.filter_some, ho, if_true]
        cases v with
        | none => simp [agree, ih]
        | some w =>
          simp only [agree]
          by_cases hw : o = w
          · simp [hw, ih]
          · simp [hw]
      · have hw : wanted isT (some o :: hs) = wanted isT hs := by simp [wanted, ho]
        rw [hw]
        simp only [recallHandles, Option.filter_some, ho, Bool.false_eq_true, if_false, ne_eq, not_true_eq_false, false_and]
        exact ih v

/-- C76: in an environment whose auditors have all been told something, recalling a key collects the objects of the wanted type that the showing auditors found, and
gives nothing if there is none, the object if they are all the same one, and an exception otherwise. -/
theorem C76_recall (sgn : Bool) (isT : Nat → Bool) (env : EnvPtr (Option Nat)) (s : Store) (searched : Bool) (key : Str) (fuel : Nat)
    (hf : (entries env).length < fuel) (hm : ∀ i ∈ auditorsOf (entries env), (s i).mode ≠ none ∧ (s i).bag ≠ [] ∧ MmSorted sgn (s i).bag) :
    recall sgn isT fuel env s searched key = some (agree ((auditorsOf (entries env)).flatMap fun i =>
      if (s i).mode = some .showing then wanted isT (((s i).bag.filter fun e => eqS sgn e.1 key).map Prod.snd) else []) none) := by
  unfold recall
  rw [C21_iterate env _ _ fuel hf, Option.map_some]
  refine congrArg some ?_
  have stuck : ∀ (es : List (Option Nat)) (b : Bool), (es.foldl (recall1 sgn isT s key) (b, .throws)).2 = .throws := by
    intro es
    induction es with
    | nil => intro b; rfl
    | cons e es ih => intro b; rw [List.foldl_cons]; exact ih b
  have main : ∀ (es : List (Option Nat)), (∀ i ∈ auditorsOf es, (s i).mode ≠ none ∧ (s i).bag ≠ [] ∧ MmSorted sgn (s i).bag) → ∀ (b : Bool) (v : Option Nat),
      (es.foldl (recall1 sgn isT s key) (b, .ok v)).2 = agree ((auditorsOf es).flatMap fun i =>
        if (s i).mode = some .showing then wanted isT (((s i).bag.filter fun e => eqS sgn e.1 key).map Prod.snd) else []) v := by
    intro es
    induction es with
    | nil => intro _ b v; rfl
    | cons e es ih =>
      intro hes b v
      cases e with
      | none => exact ih hes b v
      | some i =>
        have hi := hes i (by simp [auditorsOf])
        have hrest : ∀ j ∈ auditorsOf es, (s j).mode ≠ none ∧ (s j).bag ≠ [] ∧ MmSorted sgn (s j).bag := fun j hj =>
          hes j (by simp only [auditorsOf, List.filterMap_cons, id]; exact List.mem_cons_of_mem _ hj)
        have hfind : find sgn (!b) (s i) key = .ok (if (s i).mode = some .showing then ((s i).bag.filter fun e => eqS sgn e.1 key).map Prod.snd else []) := by
          have : (s i).bag.isEmpty = false := by
            cases hb : (s i).bag with
            | nil => exact absurd hb hi.2.1
            | cons => rfl
          unfold find
          rw [this, Bool.and_false, if_neg (by simp)]
          cases hmode : (s i).mode with
          | none => exact absurd hmode hi.1
          | some m => cases m <;> simp [mmRange_eq sgn key _ hi.2.2]
        rw [List.foldl_cons]
        have h1 : recall1 sgn isT s key (b, .ok v) (some i) = (true, agree (if (s i).mode = some .showing then
            wanted isT (((s i).bag.filter fun e => eqS sgn e.1 key).map Prod.snd) else []) v) := by
          simp only [recall1]
          rw [hfind]
          dsimp only
          rw [recallHandles_eq]
          split_ifs <;> rfl
        rw [h1]
        show _ = agree (List.flatMap _ (i :: auditorsOf es)) v
        rw [List.flatMap_cons, agree_append]
        cases hag : agree (if (s i).mode = some .showing then wanted isT (((s i).bag.filter fun e => eqS sgn e.1 key).map Prod.snd) else []) v with
        | ok w => exact ih hrest true w
        | throws => exact stuck es true
        | undefined =>
          exfalso
          have : ∀ (l : List Nat) (v : Option Nat), agree l v ≠ .undefined := by
            intro l
            induction l with
            | nil => intro v h; cases h
            | cons o os ih =>
              intro v
              cases v with
              | none => exact ih _
              | some w =>
                simp only [agree]
                split_ifs
                · exact ih _
                · simp
          exact this _ _ hag
  exact main _ hm searched none

example : agree (wanted (fun o => o < 10) [some 3, none, some 12, some 3]) none = .ok (some 3) ∧ agree (wanted (fun o => o < 10) [some 3, some 4]) none = .throws := by
  decide +kernel

/-- C76: what is audited into new auditors that read is what they recall once they show, under any spelling of the key. -/
theorem C76_audit_recall (sgn : Bool) (isT : Nat → Bool) (env : EnvPtr (Option Nat)) (s : Store) (searched : Bool) (key key' : Str) (o : Nat) (ho : isT o = true) (fuel : Nat)
    (hf : (entries env).length < fuel) (hn : (auditorsOf (entries env)).Nodup) (hne : auditorsOf (entries env) ≠ [])
    (hr : ∀ i ∈ auditorsOf (entries env), reads (s i) ∧ (s i).bag = []) :
    ∃ s', audit sgn fuel env s key (some o) = some (s', .ok ()) ∧
      recall sgn isT fuel env (fun i => ⟨some .showing, (s' i).bag⟩) searched key' = some (.ok (if eqS sgn key key' then some o else none)) := by
  refine ⟨_, C76_audit sgn env s key (some o) fuel hf hn fun i hi => (hr i hi).1, ?_⟩
  have hbag : ∀ i ∈ auditorsOf (entries env), (step sgn (s i) (.notice key (some o))).bag = [(key, some o)] := by
    intro i hi
    obtain ⟨h1, h2⟩ := hr i hi
    rcases h1 with h | h <;> simp [step, notice, h, h2, mmInsert, mmErase]
  rw [C76_recall sgn isT env _ searched key' fuel hf]
  · refine congrArg some ?_
    have hflat : (auditorsOf (entries env)).flatMap (fun i => if (some Mode.showing : Option Mode) = some .showing then
          wanted isT (((if i ∈ auditorsOf (entries env) then step sgn (s i) (.notice key (some o)) else s i).bag.filter fun e => eqS sgn e.1 key').map Prod.snd) else [])
        = (auditorsOf (entries env)).flatMap (fun _ => if eqS sgn key key' then [o] else []) := by
      refine List.flatMap_congr fun i hi => ?_
      rw [if_pos rfl, if_pos hi, hbag i hi]
      by_cases he : eqS sgn key key' = true
      · simp [wanted, he, ho]
      · simp [wanted, he]
    rw [hflat]
    split_ifs with he
    · rw [agree_iff]
      right
      refine ⟨o, rfl, ?_, fun x hx => ?_⟩
      · obtain ⟨i, hi⟩ := List.exists_mem_of_ne_nil _ hne
        intro hnil
        rw [List.flatMap_eq_nil_iff] at hnil
        exact absurd (hnil i hi) (by simp)
      · obtain ⟨_, _, hx⟩ := List.mem_flatMap.1 hx
        simpa using hx
    · rw [agree_iff]
      left
      refine ⟨?_, rfl⟩
      rw [List.flatMap_eq_nil_iff]
      exact fun _ _ => rfl
  · intro i hi
    refine ⟨by simp, ?_, ?_⟩
    · dsimp only
      rw [if_pos hi, hbag i hi]
      simp
    · dsimp only
      rw [if_pos hi, hbag i hi]
      exact List.pairwise_singleton _ _

end Dal
