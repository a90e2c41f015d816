import Verif.Storage.GlobalsModel
import Verif.Time.DateTextProps
import Mathlib.Data.List.TakeWhile
import Mathlib.Tactic.Ring

/-! # C21 (environment scoping), C23 (scoped overrides), C24 (fixings) -/

namespace Dal

section Environment
open Env
variable {E : Type}

/-- Specification: the entries of an environment, innermost first. -/
def entries : EnvPtr E → List E
  | .null => []
  | .base vals => vals
  | .deco p v => v :: entries p

/-- The entries an iterator still has to visit. -/
def todo : Option (IterImp E) → List E
  | none => []
  | some (.myIter rest) => rest
  | some (.i1 p v) => v :: entries p

theorem todo_begin (env : EnvPtr E) : todo (xBegin env) = entries env := by cases env <;> rfl

theorem todo_step (it : Option (IterImp E)) : (isValid it = true → ∃ e, deref it = some e ∧
    todo it = e :: todo (next it)) ∧ (isValid it = false → todo it = []) := by
  rcases it with _ | ⟨⟨_ | ⟨e, rest⟩⟩⟩ | ⟨p, v⟩
  · simp [isValid, todo]
  · simp [isValid, todo]
  · simp [isValid, todo, deref, next]
  · refine ⟨fun _ => ⟨v, rfl, ?_⟩, by simp [isValid]⟩
    cases p <;> rfl

theorem iterLoop_eq {β : Type} (f : β → E → β) (fuel : Nat) (it : Option (IterImp E)) (acc : β)
    (h : (todo it).length < fuel) : iterLoop f fuel it acc = some ((todo it).foldl f acc) := by
  induction fuel generalizing it acc with
  | zero => omega
  | succ n ih =>
    rw [iterLoop]
    obtain ⟨h1, h2⟩ := todo_step it
    by_cases hv : isValid it = true
    · obtain ⟨e, he, ht⟩ := h1 hv
      rw [if_pos hv, he, Option.bind_some, ih _ _ (by rw [ht] at h; simp at h; omega), ht]; rfl
    · rw [if_neg hv, h2 (by simpa using hv)]; rfl

/-- Iterating visits every entry once, innermost first. -/
theorem C21_iterate {β : Type} (env : EnvPtr E) (f : β → E → β) (acc : β) (fuel : Nat)
    (h : (entries env).length < fuel) : iterate fuel env f acc = some ((entries env).foldl f acc) := by
  have key := iterLoop_eq f fuel (xBegin env) acc (by rw [todo_begin]; exact h)
  rw [todo_begin] at key
  cases env with
  | null => rfl
  | base v => exact key
  | deco p v => exact key

/-- `Collect` returns the entries of the requested type, innermost first. -/
theorem C21_collect {T : Type} (env : EnvPtr E) (cast : E → Option T) (fuel : Nat)
    (h : (entries env).length < fuel) : collect fuel env cast = some ((entries env).filterMap cast) := by
  unfold collect
  rw [C21_iterate env _ _ fuel h]
  congr 1
  have key : ∀ (l : List E) acc, l.foldl (fun acc e => match cast e with
      | some t => acc ++ [t]
      | none => acc) acc = acc ++ l.filterMap cast := by
    intro l
    induction l with
    | nil => simp
    | cons e l ih =>
      intro acc
      rw [List.foldl_cons, ih]
      cases hc : cast e <;> simp [List.filterMap_cons, hc]
  exact key _ []

/-- `Find` returns the innermost matching entry, or null when none matches. -/
theorem C21_find {T : Type} (env : EnvPtr E) (f : E → Option T) (fuel : Nat)
    (h : (entries env).length < fuel) : findE fuel env f = some ((entries env).findSome? f) := by
  have key : ∀ fuel (it : Option (IterImp E)), (todo it).length < fuel →
      findLoop f fuel it = some ((todo it).findSome? f) := by
    intro fuel
    induction fuel with
    | zero => intro it h; omega
    | succ n ih =>
      intro it h
      rw [findLoop]
      obtain ⟨h1, h2⟩ := todo_step it
      by_cases hv : isValid it = true
      · obtain ⟨e, he, ht⟩ := h1 hv
        rw [if_pos hv, he, Option.bind_some, ht, List.findSome?_cons]
        cases hf : f e with
        | some t => rfl
        | none => exact ih _ (by rw [ht] at h; simp at h; omega)
      · rw [if_neg hv, h2 (by simpa using hv)]; rfl
  have := key fuel (xBegin env) (by rw [todo_begin]; exact h)
  rw [todo_begin] at this
  cases env with
  | null => rfl
  | base v => exact this
  | deco p v => exact this

/-- Specification of scoping: lexical environments handed down as lists. -/
def lexical : Prog E → List E → List (List E) × Bool
  | .skip, _ => ([], false)
  | .probe, l => ([l], false)
  | .throw, _ => ([], true)
  | .seq p q, l =>
    if (lexical p l).2 then lexical p l else ((lexical p l).1 ++ (lexical q l).1, (lexical q l).2)
  | .tryCatch p q, l =>
    if (lexical p l).2 then ((lexical p l).1 ++ (lexical q l).1, (lexical q l).2) else lexical p l
  | .add e p, l => lexical p (e :: l)
  | .seed e p, _ => lexical p [e]
  | .call p, l => lexical p l

/-- Whatever code runs, however its scopes are nested and left, `_env` is restored exactly, and every
probe sees the lexically enclosing entries, innermost first. -/
theorem C21_scoping (p : Prog E) (env : EnvPtr E) :
    (exec p env).2.1 = env ∧
    ((exec p env).1.map entries, (exec p env).2.2) = lexical p (entries env) := by
  induction p generalizing env with
  | skip => exact ⟨rfl, rfl⟩
  | probe => exact ⟨rfl, rfl⟩
  | throw => exact ⟨rfl, rfl⟩
  | seq p q ihp ihq =>
    obtain ⟨h1, h2⟩ := ihp env
    obtain ⟨h3, h4⟩ := ihq env
    rw [Prod.ext_iff] at h2 h4
    simp only at h2 h4
    simp only [exec, lexical]
    rw [← h2.2, ← h2.1]
    by_cases ht : (exec p env).2.2 = true
    · rw [if_pos ht, if_pos ht]
      refine ⟨h1, Prod.ext h2.1 h2.2⟩
    · rw [if_neg ht, if_neg ht, h1]
      exact ⟨h3, Prod.ext (by simp [h4.1]) h4.2⟩
  | tryCatch p q ihp ihq =>
    obtain ⟨h1, h2⟩ := ihp env
    obtain ⟨h3, h4⟩ := ihq env
    rw [Prod.ext_iff] at h2 h4
    simp only at h2 h4
    simp only [exec, lexical]
    rw [← h2.2, ← h2.1]
    by_cases ht : (exec p env).2.2 = true
    · rw [if_pos ht, if_pos ht, h1]
      exact ⟨h3, Prod.ext (by simp [h4.1]) h4.2⟩
    · rw [if_neg ht, if_neg ht]
      refine ⟨h1, Prod.ext h2.1 h2.2⟩
  | add e p ih => exact ⟨rfl, (ih _).2⟩
  | seed e p ih => exact ⟨rfl, (ih _).2⟩
  | call p ih => exact ⟨rfl, (ih _).2⟩

example : lexical (.seq (.add 1 (.seq .probe (.tryCatch (.add 2 (.seq .probe .throw)) .probe))) .probe)
    ([] : List Nat) = ([[1], [2, 1], [1], []], false) := rfl

end Environment

section Overrides
open Glob
variable {D : Type}

/-- Specification: the two dates as plain variables (an unset date reads as today). -/
def dates (today : D) (st : Store D) : Which → D := fun w => (st w).getD today

/-- Specification: dynamic binding of plain variables. -/
def binding : Glob.Prog D → (Which → D) → List (Which × D) × (Which → D) × Bool
  | .skip, v => ([], v, false)
  | .throw, v => ([], v, true)
  | .read w, v => ([(w, v w)], v, false)
  | .set w d, v => ([], Function.update v w d, false)
  | .seq p q, v =>
    if (binding p v).2.2 then binding p v else
      ((binding p v).1 ++ (binding q (binding p v).2.1).1, (binding q (binding p v).2.1).2)
  | .tryCatch p q, v =>
    if (binding p v).2.2 then
      ((binding p v).1 ++ (binding q (binding p v).2.1).1, (binding q (binding p v).2.1).2)
    else binding p v
  | .scope w d p, v =>
    ((binding p (Function.update v w d)).1,
      Function.update (binding p (Function.update v w d)).2.1 w (v w),
      (binding p (Function.update v w d)).2.2)

theorem dates_setS (today : D) (st : Store D) (w : Which) (d : D) :
    dates today (setS st w d) = Function.update (dates today st) w d := by
  funext x
  by_cases h : x = w
  · subst h; simp [dates, setS]
  · simp [dates, setS, h]

theorem getGlobal_spec (today : D) (w : Which) (st : Store D) :
    (getGlobal today w st).1 = dates today st w ∧
    dates today (getGlobal today w st).2 = dates today st := by
  unfold getGlobal
  cases h : st w with
  | some d => simp [dates, h]
  | none =>
    refine ⟨by simp [dates, h], ?_⟩
    rw [dates_setS]
    funext x
    by_cases hx : x = w
    · subst hx; simp [dates, h]
    · simp [hx]

/-- Any code with overrides behaves like dynamic binding: an override is visible while alive, and the
date before it is restored when its block is left, normally or by an exception, at any nesting. -/
theorem C23_overrides (today : D) (p : Glob.Prog D) (st : Store D) :
    ((Glob.exec today p st).1, dates today (Glob.exec today p st).2.1, (Glob.exec today p st).2.2) =
      binding p (dates today st) := by
  induction p generalizing st with
  | skip => rfl
  | throw => rfl
  | read w =>
    obtain ⟨h1, h2⟩ := getGlobal_spec today w st
    simp only [Glob.exec, binding, h1, h2]
  | set w d => simp only [Glob.exec, binding, dates_setS]
  | seq p q ihp ihq =>
    have h1 := ihp st
    have h2 := ihq (Glob.exec today p st).2.1
    simp only [Glob.exec, binding]
    rw [← h1]
    simp only
    by_cases ht : (Glob.exec today p st).2.2 = true
    · rw [if_pos ht, if_pos ht]
    · rw [if_neg ht, if_neg ht, ← h2]
  | tryCatch p q ihp ihq =>
    have h1 := ihp st
    have h2 := ihq (Glob.exec today p st).2.1
    simp only [Glob.exec, binding]
    rw [← h1]
    simp only
    by_cases ht : (Glob.exec today p st).2.2 = true
    · rw [if_pos ht, if_pos ht, ← h2]
    · rw [if_neg ht, if_neg ht]
  | scope w d p ih =>
    obtain ⟨h1, h2⟩ := getGlobal_spec today w st
    have hst : dates today (setS (getGlobal today w st).2 w d) =
        Function.update (dates today st) w d := by rw [dates_setS, h2]
    have h3 := ih (setS (getGlobal today w st).2 w d)
    rw [hst] at h3
    simp only [Glob.exec, inScope, moveCtor, dtor, binding, h1]
    rw [← h3, dates_setS]

/-- In particular, after any block with an override the overridden date is what it was before. -/
theorem C23_restored (today : D) (w : Which) (d : D) (p : Glob.Prog D) (st : Store D) :
    dates today (Glob.exec today (.scope w d p) st).2.1 w = dates today st w := by
  have h := C23_overrides today (.scope w d p) st
  have h2 := congrArg (fun x => x.2.1 w) h
  simp only [binding, Function.update_self] at h2
  exact h2

example : (Glob.exec 100 (.tryCatch (.scope .evaluation 5 (.seq (.read .evaluation)
    (.scope .evaluation 6 (.seq (.set .evaluation 9) .throw)))) (.read .evaluation))
    (fun _ => none)).1 = [(Which.evaluation, 5), (Which.evaluation, 100)] := rfl

/-- Reassigning a live guard loses the date it had saved: after
`g = SetInScope(1); g = SetInScope(2);` the destructor restores 1, not the date before. -/
theorem C23_move_assign_violated (today : Nat) (w : Which) (st : Store Nat)
    (h : dates today st w ≠ 1) :
    let a := inScope today w 1 st
    let b := inScope today w 2 a.2
    let m := moveAssign a.1 b.1
    dates today (dtor m.1 (dtor m.2 b.2)) w = 1 ∧ dates today st w ≠ 1 := by
  refine ⟨?_, h⟩
  simp [inScope, moveAssign, dtor, dates, setS, getGlobal]

example : dates 7 (fun _ => none) Which.evaluation ≠ 1 := by decide

end Overrides

section Fixings
open Fix DateText Date
variable {V : Type}

theorem ltB_iff (a b : DateTime) : ltB a b = true ↔ ltDT a b := by
  simp [ltB, ltDT, lt]

theorem ltB_irrefl (a : DateTime) : ltB a a = false := by simp [ltB]

theorem ltB_trans {a b c : DateTime} (h1 : ltB a b = true) (h2 : ltB b c = true) : ltB a c = true := by
  rcases a with ⟨⟨s1⟩, f1⟩
  rcases b with ⟨⟨s2⟩, f2⟩
  rcases c with ⟨⟨s3⟩, f3⟩
  simp only [ltB, Bool.or_eq_true, Bool.and_eq_true, decide_eq_true_eq, Date.mk.injEq] at *
  rcases h1 with h1 | ⟨rfl, h1⟩
  · rcases h2 with h2 | ⟨rfl, h2⟩
    · left; omega
    · left; exact h1
  · rcases h2 with h2 | ⟨rfl, h2⟩
    · left; exact h2
    · right; exact ⟨rfl, lt_trans h1 h2⟩

theorem ltB_total (a b : DateTime) (h1 : ltB a b = false) (h2 : ltB b a = false) : a = b := by
  rcases a with ⟨⟨s1⟩, f1⟩
  rcases b with ⟨⟨s2⟩, f2⟩
  simp only [ltB, Bool.or_eq_false_iff, Bool.and_eq_false_iff, decide_eq_false_iff_not,
    Date.mk.injEq] at *
  have hs : s1 = s2 := by omega
  subst hs
  have hf : f1 = f2 := by
    rcases lt_trichotomy f1 f2 with h | h | h
    · rcases h1.2 with h' | h' <;> simp_all
    · exact h
    · rcases h2.2 with h' | h' <;> simp_all
  rw [hf]

/-- Chronological: times strictly increase. -/
def Chrono (m : List (DateTime × V)) : Prop := m.Pairwise fun a b => ltDT a.1 b.1

/-- Specification: the value recorded for a time. -/
def valueAt (m : List (DateTime × V)) (t : DateTime) : Option V :=
  (m.find? (fun e => decide (e.1 = t))).map Prod.snd

theorem put_keys (k : DateTime) (v : V) (m : List (DateTime × V)) :
    ∀ e ∈ put k v m, e.1 = k ∨ ∃ x ∈ m, x.1 = e.1 := by
  induction m with
  | nil => intro e he; simp [put] at he; simp [he]
  | cons x m ih =>
    intro e he
    rw [put] at he
    split_ifs at he
    · rcases List.mem_cons.1 he with rfl | he
      · simp
      · right; exact ⟨e, he, rfl⟩
    · rcases List.mem_cons.1 he with rfl | he
      · right; exact ⟨e, by simp, rfl⟩
      · rcases ih e he with h | ⟨y, hy, h⟩
        · left; exact h
        · right; exact ⟨y, by simp [hy], h⟩
    · rcases List.mem_cons.1 he with rfl | he
      · right; exact ⟨x, by simp, rfl⟩
      · right; exact ⟨e, by simp [he], rfl⟩

theorem put_chrono (k : DateTime) (v : V) (m : List (DateTime × V)) (h : Chrono m) :
    Chrono (put k v m) := by
  unfold Chrono at *
  simp only [← ltB_iff] at *
  induction m with
  | nil => simp [put]
  | cons x m ih =>
    rw [List.pairwise_cons] at h
    rw [put]
    split_ifs with h1 h2
    · refine List.pairwise_cons.2 ⟨?_, List.pairwise_cons.2 h⟩
      intro e he
      rcases List.mem_cons.1 he with rfl | he
      · exact h1
      · exact ltB_trans h1 (h.1 e he)
    · refine List.pairwise_cons.2 ⟨?_, ih h.2⟩
      intro e he
      rcases put_keys k v m e he with hk | ⟨y, hy, hk⟩
      · rw [hk]; exact h2
      · rw [← hk]; exact h.1 y hy
    · exact List.pairwise_cons.2 ⟨fun e he => h.1 e he, h.2⟩

theorem put_value (k : DateTime) (v : V) (m : List (DateTime × V)) (h : Chrono m) (t : DateTime) :
    valueAt (put k v m) t = if t = k then some v else valueAt m t := by
  unfold Chrono at h
  simp only [← ltB_iff] at h
  induction m with
  | nil =>
    by_cases ht : t = k
    · subst ht; simp [put, valueAt]
    · simp [put, valueAt, ht, Ne.symm ht]
  | cons x m ih =>
    rw [List.pairwise_cons] at h
    have ih := ih h.2
    rw [put]
    unfold valueAt at *
    by_cases h1 : ltB k x.1 = true
    · rw [if_pos h1, List.find?_cons]
      by_cases ht : t = k
      · simp [ht]
      · simp [ht, Ne.symm ht]
    · rw [if_neg h1]
      by_cases h2 : ltB x.1 k = true
      · rw [if_pos h2, List.find?_cons, List.find?_cons]
        by_cases hx : x.1 = t
        · have htk : t ≠ k := by
            rintro rfl
            rw [hx, ltB_irrefl] at h2; cases h2
          simp [hx, htk]
        · simp only [hx, decide_false]
          exact ih
      · rw [if_neg h2]
        have hk : x.1 = k := ltB_total _ _ (by simpa using h2) (by simpa using h1)
        rw [List.find?_cons, List.find?_cons]
        by_cases ht : t = k
        · simp [hk, ht]
        · simp [hk, ht, Ne.symm ht]

theorem foldl_put (l m : List (DateTime × V)) (h : Chrono m) :
    Chrono (l.foldl (fun m e => put e.1 e.2 m) m) ∧
    ∀ t, valueAt (l.foldl (fun m e => put e.1 e.2 m) m) t =
      (valueAt l.reverse t).or (valueAt m t) := by
  induction l generalizing m with
  | nil => exact ⟨h, fun t => by simp [valueAt]⟩
  | cons e l ih =>
    obtain ⟨h1, h2⟩ := ih (put e.1 e.2 m) (put_chrono _ _ _ h)
    refine ⟨h1, fun t => ?_⟩
    rw [List.foldl_cons, h2, put_value _ _ _ h]
    have : valueAt (e :: l).reverse t = (valueAt l.reverse t).or (if t = e.1 then some e.2 else none) := by
      unfold valueAt
      rw [List.reverse_cons, List.find?_append, Option.map_or]
      congr 1
      by_cases ht : t = e.1
      · simp [ht]
      · simp [ht, Ne.symm ht]
    rw [this, Option.or_assoc]
    congr 1
    split_ifs <;> simp

/-- Specification of a store: the last of the new values wins, otherwise (when appending) the old value
stays; other indices are untouched; the history is chronological; the number returned is its length. -/
theorem C24_store (st : Store V) (index : List Char) (l : List (DateTime × V)) (append : Bool)
    (h : Chrono (st index)) :
    Chrono (history (storeFixings st index l append).1 index) ∧
    (∀ t, valueAt (history (storeFixings st index l append).1 index) t =
      (valueAt l.reverse t).or (if append then valueAt (history st index) t else none)) ∧
    (∀ other, other ≠ index → history (storeFixings st index l append).1 other = history st other) ∧
    (storeFixings st index l append).2 = (history (storeFixings st index l append).1 index).length := by
  have hnil : Chrono ([] : List (DateTime × V)) := List.Pairwise.nil
  have hold : Chrono (if append then (history st index).foldl (fun m e => put e.1 e.2 m) [] else []) ∧
      ∀ t, valueAt (if append then (history st index).foldl (fun m e => put e.1 e.2 m) [] else []) t =
        if append then valueAt (history st index) t else none := by
    cases append with
    | false => exact ⟨hnil, fun t => rfl⟩
    | true =>
      obtain ⟨h1, h2⟩ := foldl_put (history st index) [] hnil
      refine ⟨h1, fun t => ?_⟩
      simp only [if_true]
      rw [h2]
      -- a chronological list has one value per time, so reversing does not matter
      have hrev : valueAt (history st index).reverse t = valueAt (history st index) t := by
        have hc : Chrono (history st index) := h
        generalize history st index = m at hc
        unfold Chrono at hc
        simp only [← ltB_iff] at hc
        unfold valueAt
        induction m with
        | nil => rfl
        | cons x m ih =>
          rw [List.pairwise_cons] at hc
          rw [List.reverse_cons, List.find?_append, List.find?_cons, Option.map_or]
          have := ih hc.2
          rw [this]
          by_cases hx : x.1 = t
          · have hno : m.find? (fun e => decide (e.1 = t)) = none := by
              rw [List.find?_eq_none]
              intro e he
              simp only [decide_eq_true_eq]
              intro het
              have := hc.1 e he
              rw [hx, het, ltB_irrefl] at this; cases this
            simp [hx, hno]
          · simp [hx]
      rw [hrev]; simp [valueAt]
  obtain ⟨h1, h2⟩ := foldl_put l _ hold.1
  refine ⟨?_, ?_, ?_, ?_⟩
  · simpa [history, storeFixings] using h1
  · intro t
    have := h2 t
    rw [hold.2 t] at this
    simpa [history, storeFixings] using this
  · intro other ho; simp [history, storeFixings, ho]
  · simp [history, storeFixings]

/-- Every index's history is chronological after any sequence of stores. -/
theorem C24_always_chronological (ops : List (List Char × List (DateTime × V) × Bool)) (x : List Char) :
    Chrono ((ops.foldl (fun st o => (storeFixings st o.1 o.2.1 o.2.2).1) (fun _ => [])) x) := by
  have key : ∀ st : Store V, (∀ x, Chrono (st x)) →
      ∀ x, Chrono ((ops.foldl (fun st o => (storeFixings st o.1 o.2.1 o.2.2).1) st) x) := by
    induction ops with
    | nil => intro st h; exact h
    | cons o ops ih =>
      intro st h
      rw [List.foldl_cons]
      apply ih
      intro y
      obtain ⟨h1, -, h3, -⟩ := C24_store st o.1 o.2.1 o.2.2 (h o.1)
      by_cases hy : y = o.1
      · subst hy; exact h1
      · have := h3 y hy
        unfold history at this
        rw [this]; exact h y
  exact key _ (fun _ => List.Pairwise.nil) x

/-- Looking a time up returns the stored value exactly when one was stored; otherwise it throws, or
returns `-INF` when quiet. -/
theorem C24_find (m : List (DateTime × V)) (h : Chrono m) (t : DateTime) (quiet : Bool) :
    findFix m t quiet = match valueAt m t with
      | some v => some (some v)
      | none => if quiet then some none else none := by
  unfold Chrono at h
  simp only [← ltB_iff] at h
  unfold findFix valueAt
  induction m with
  | nil => rfl
  | cons x m ih =>
    rw [List.pairwise_cons] at h
    rw [List.dropWhile_cons, List.find?_cons]
    by_cases h1 : ltB x.1 t = true
    · have hx : x.1 ≠ t := by
        rintro rfl
        rw [ltB_irrefl] at h1; cases h1
      rw [if_pos h1]
      simp only [hx, decide_false]
      exact ih h.2
    · rw [if_neg h1]
      by_cases hx : x.1 = t
      · simp [hx]
      · have hno : m.find? (fun e => decide (e.1 = t)) = none := by
          rw [List.find?_eq_none]
          intro e he
          simp only [decide_eq_true_eq]
          rintro rfl
          exact h1 (h.1 e he)
        simp [hx, hno]

example : Chrono [((⟨⟨100⟩, 0⟩ : DateTime), (1 : Rat)), (⟨⟨100⟩, 1/2⟩, 2), (⟨⟨101⟩, 0⟩, 3)] := by
  simp only [Chrono, ← ltB_iff]
  decide +kernel

end Fixings

end Dal
