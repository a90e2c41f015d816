import Verif.Script.ScheduleModel
import Verif.Script.ParserModel
import Verif.Time.ScheduleProps
import Verif.Strings.StringProps

/-! # C72: schedules of a script -/

namespace Dal
open Dal.Strings Dal.Date Dal.Script.Sched

/-- The parameters of a schedule: a date is written as five tokens. -/
inductive SchedParam where
  | start (date : List Str)
  | stop (date : List Str)
  | freq (v : Str)
  | calendar (v : Str)
  | bizRule (v : Str)
  | fixing (v : Str)

/-- The name of a parameter. -/
def SchedParam.key : SchedParam → Str
  | .start _ => "START".toList
  | .stop _ => "END".toList
  | .freq _ => "FREQ".toList
  | .calendar _ => "CALENDAR".toList
  | .bizRule _ => "BIZRULE".toList
  | .fixing _ => "FIXING".toList

/-- The tokens of its value. -/
def SchedParam.vals : SchedParam → List Str
  | .start d => d
  | .stop d => d
  | .freq v => [v]
  | .calendar v => [v]
  | .bizRule v => [v]
  | .fixing v => [v]

/-- Dates have five tokens. -/
def SchedParam.Ok : SchedParam → Prop
  | .start d => d.length = 5
  | .stop d => d.length = 5
  | _ => True

def SchedParam.isFixing : SchedParam → Bool
  | .fixing _ => true
  | _ => false

/-- What a parameter means: its value is read and replaces one setting; a value that cannot be read
is an exception. -/
def SchedParam.means (L : Lib) (c : Cfg) : SchedParam → Out Cfg
  | .start d => (Out.ofOption (DateText.fromString d.flatten)).bind fun x => .ok { c with start := x }
  | .stop d => (Out.ofOption (DateText.fromString d.flatten)).bind fun x => .ok { c with stop := x }
  | .freq v => (Out.ofOption (Incr.parseIncrement L.sgn L.parseHols v)).bind fun x => .ok { c with tenor := some x }
  | .calendar v => (Out.ofOption (L.parseHols v)).bind fun x => .ok { c with hols := x }
  | .bizRule v => (Out.ofOption (readEnum L.sgn bizDayConventionTable v)).bind fun x => .ok { c with biz := x }
  | .fixing v => if eqS L.sgn v "BEGIN".toList then .ok { c with fixEnd := false }
    else if eqS L.sgn v "END".toList then .ok { c with fixEnd := true } else .throw

/-- All parameters in their order. -/
def meansAll (L : Lib) : Cfg → List SchedParam → Out Cfg
  | c, [] => .ok c
  | c, p :: ps => (p.means L c).bind fun c' => meansAll L c' ps

/-- The tokens of named parameters. -/
def schedTokens (ps : List (Str × SchedParam)) : List Str :=
  ps.flatMap fun q => q.1 :: ":".toList :: q.2.vals

theorem eqS_congr_left {sgn : Bool} {a b : Str} (h : eqS sgn a b = true) (c : Str) : eqS sgn a c = eqS sgn b c := by
  rw [Bool.eq_iff_iff]; simp only [eqS_iff_map] at *; rw [h]

theorem colon_eq (sgn : Bool) : eqS sgn ":".toList ":".toList = true := (C15_eq_equivalence sgn).refl _

theorem Out.bind_assoc {α β γ : Type} (r : Out α) (f : α → Out β) (g : β → Out γ) :
    (r.bind f).bind g = r.bind fun a => (f a).bind g := by cases r <;> rfl

theorem Out.ok_bind {α β : Type} (a : α) (f : α → Out β) : (Out.ok a).bind f = f a := rfl

theorem list_five {α : Type} {l : List α} (h : l.length = 5) :
    ∃ x1 x2 x3 x4 x5, l = [x1, x2, x3, x4, x5] := by
  rcases l with _ | ⟨x1, _ | ⟨x2, _ | ⟨x3, _ | ⟨x4, _ | ⟨x5, _ | ⟨x6, l⟩⟩⟩⟩⟩⟩ <;> simp at h
  exact ⟨x1, x2, x3, x4, x5, rfl⟩

attribute [local irreducible] DateText.fromString Incr.parseIncrement

/-- One parameter that is not FIXING, whatever follows. -/
theorem loop_param (L : Lib) (c : Cfg) (nm : Str) (p : SchedParam) (rest : List Str)
    (hn : eqS L.sgn nm p.key = true) (ho : p.Ok) (hf : p.isFixing = false) :
    loop L c (nm :: ":".toList :: (p.vals ++ rest)) = (p.means L c).bind fun c' => loop L c' rest := by
  cases p with
  | start d =>
    have e : ∀ k, eqS L.sgn nm k = eqS L.sgn "START".toList k := eqS_congr_left hn
    obtain ⟨x1, x2, x3, x4, x5, rfl⟩ := list_five ho
    have e1 := (e "START".toList).trans (show _ = true by cases L.sgn <;> decide +kernel)
    simp only [SchedParam.vals, List.cons_append, List.nil_append]
    rw [loop, colon_eq]
    simp only [e1, Bool.not_true, Bool.false_eq_true, if_false, if_true, dateTokens, List.length_cons,
      SchedParam.means, List.drop_succ_cons, List.drop_zero, List.take_succ_cons, List.take_zero]
    rw [if_neg (by omega), Out.bind_assoc]
    simp only [Out.ok_bind]
  | stop d =>
    have e : ∀ k, eqS L.sgn nm k = eqS L.sgn "END".toList k := eqS_congr_left hn
    obtain ⟨x1, x2, x3, x4, x5, rfl⟩ := list_five ho
    have e0 := (e "START".toList).trans (show _ = false by cases L.sgn <;> decide +kernel)
    have e1 := (e "END".toList).trans (show _ = true by cases L.sgn <;> decide +kernel)
    simp only [SchedParam.vals, List.cons_append, List.nil_append]
    rw [loop, colon_eq]
    simp only [e0, e1, Bool.not_true, Bool.false_eq_true, if_false, if_true, dateTokens, List.length_cons,
      SchedParam.means, List.drop_succ_cons, List.drop_zero, List.take_succ_cons, List.take_zero]
    rw [if_neg (by omega), Out.bind_assoc]
    simp only [Out.ok_bind]
  | freq v =>
    have e : ∀ k, eqS L.sgn nm k = eqS L.sgn "FREQ".toList k := eqS_congr_left hn
    have e0 := (e "START".toList).trans (show _ = false by cases L.sgn <;> decide +kernel)
    have e1 := (e "END".toList).trans (show _ = false by cases L.sgn <;> decide +kernel)
    have e2 := (e "FREQ".toList).trans (show _ = true by cases L.sgn <;> decide +kernel)
    simp only [SchedParam.vals, List.cons_append, List.nil_append]
    rw [loop, colon_eq]
    simp only [e0, e1, e2, Bool.not_true, Bool.false_eq_true, if_false, if_true, SchedParam.means]
    rw [Out.bind_assoc]
    simp only [Out.ok_bind]
  | calendar v =>
    have e : ∀ k, eqS L.sgn nm k = eqS L.sgn "CALENDAR".toList k := eqS_congr_left hn
    have e0 := (e "START".toList).trans (show _ = false by cases L.sgn <;> decide +kernel)
    have e1 := (e "END".toList).trans (show _ = false by cases L.sgn <;> decide +kernel)
    have e2 := (e "FREQ".toList).trans (show _ = false by cases L.sgn <;> decide +kernel)
    have e3 := (e "CALENDAR".toList).trans (show _ = true by cases L.sgn <;> decide +kernel)
    simp only [SchedParam.vals, List.cons_append, List.nil_append]
    rw [loop, colon_eq]
    simp only [e0, e1, e2, e3, Bool.not_true, Bool.false_eq_true, if_false, if_true, SchedParam.means]
    rw [Out.bind_assoc]
    simp only [Out.ok_bind]
  | bizRule v =>
    have e : ∀ k, eqS L.sgn nm k = eqS L.sgn "BIZRULE".toList k := eqS_congr_left hn
    have e0 := (e "START".toList).trans (show _ = false by cases L.sgn <;> decide +kernel)
    have e1 := (e "END".toList).trans (show _ = false by cases L.sgn <;> decide +kernel)
    have e2 := (e "FREQ".toList).trans (show _ = false by cases L.sgn <;> decide +kernel)
    have e3 := (e "CALENDAR".toList).trans (show _ = false by cases L.sgn <;> decide +kernel)
    have e4 := (e "BizRule".toList).trans (show _ = true by cases L.sgn <;> decide +kernel)
    simp only [SchedParam.vals, List.cons_append, List.nil_append]
    rw [loop, colon_eq]
    simp only [e0, e1, e2, e3, e4, Bool.not_true, Bool.false_eq_true, if_false, if_true, SchedParam.means]
    rw [Out.bind_assoc]
    simp only [Out.ok_bind]
  | fixing v => cases hf

/-- FIXING: its value is not skipped. -/
theorem loop_fixing (L : Lib) (c : Cfg) (nm v : Str) (rest : List Str)
    (hn : eqS L.sgn nm "FIXING".toList = true) :
    loop L c (nm :: ":".toList :: v :: rest) =
      ((SchedParam.fixing v).means L c).bind fun c' => loop L c' (":".toList :: v :: rest) := by
  have e : ∀ k, eqS L.sgn nm k = eqS L.sgn "FIXING".toList k := eqS_congr_left hn
  have e0 := (e "START".toList).trans (show _ = false by cases L.sgn <;> decide +kernel)
  have e1 := (e "END".toList).trans (show _ = false by cases L.sgn <;> decide +kernel)
  have e2 := (e "FREQ".toList).trans (show _ = false by cases L.sgn <;> decide +kernel)
  have e3 := (e "CALENDAR".toList).trans (show _ = false by cases L.sgn <;> decide +kernel)
  have e4 := (e "BizRule".toList).trans (show _ = false by cases L.sgn <;> decide +kernel)
  rw [loop, colon_eq]
  simp only [e0, e1, e2, e3, e4, hn, Bool.not_true, Bool.false_eq_true, if_false, if_true, SchedParam.means]
  split
  · rfl
  · split
    · rfl
    · rfl

theorem loop_short (L : Lib) (c : Cfg) (toks : List Str) (h : toks.length ≤ 2) : loop L c toks = .ok c := by
  match toks, h with
  | [], _ => rw [loop]; simp
  | [_], _ => rw [loop]; simp
  | [_, _], _ => rw [loop]; simp
  | _ :: _ :: _ :: _, h => simp at h

/-- FULL CLAIM (false, see `C72_fixing_not_last_violated`): parameters in any order set what they
name.  PROVED PART: FIXING is absent or the last parameter; the names may be written in any case. -/
theorem C72_parameters_partial (L : Lib) (ps : List (Str × SchedParam))
    (hn : ∀ q ∈ ps, eqS L.sgn q.1 q.2.key = true) (ho : ∀ q ∈ ps, q.2.Ok)
    (hf : ∀ q ∈ ps.dropLast, q.2.isFixing = false) :
    ∀ c, loop L c (schedTokens ps) = meansAll L c (ps.map Prod.snd) := by
  induction ps with
  | nil => intro c; exact loop_short L c [] (by simp)
  | cons q ps ih =>
    intro c
    obtain ⟨nm, p⟩ := q
    cases hp : p.isFixing with
    | false =>
      have hf' : ∀ q ∈ ps.dropLast, q.2.isFixing = false := by
        cases ps with
        | nil => simp
        | cons r ps => intro q hq; exact hf q (by simp only [List.dropLast_cons₂]; exact List.mem_cons_of_mem _ hq)
      have := loop_param L c nm p (schedTokens ps) (hn (nm, p) (by simp)) (ho (nm, p) (by simp)) hp
      show loop L c (nm :: ":".toList :: (p.vals ++ schedTokens ps)) = _
      rw [this]
      show _ = (p.means L c).bind fun c' => meansAll L c' (ps.map Prod.snd)
      congr 1
      funext c'
      exact ih (fun q hq => hn q (by simp [hq])) (fun q hq => ho q (by simp [hq])) hf' c'
    | true =>
      cases ps with
      | cons r ps => exact absurd (hf (nm, p) (by simp [List.dropLast_cons₂])) (by simp [hp])
      | nil =>
        cases p with
        | fixing v =>
          show loop L c [nm, ":".toList, v] = _
          rw [loop_fixing L c nm v [] (hn (nm, .fixing v) (by simp))]
          show _ = ((SchedParam.fixing v).means L c).bind fun c' => .ok c'
          congr 1
          funext c'
          exact loop_short L c' _ (by simp)
        | _ => cases hp

/-- Calls for the examples: no centre is registered, weeks and months are counted forward. -/
def demoLib : Lib where
  sgn := true
  parseHols := fun s => if s = [] then some [] else none
  pins := fun s e t => Incr.dateGenFwd (fun d => (Incr.applyAll true t d).getD d) s e 1000

/-- The parameters of the examples. -/
def demoSched : List (Str × SchedParam) :=
  [("Start".toList, .start ["2024".toList, "-".toList, "01".toList, "-".toList, "01".toList]),
   ("FREQ".toList, .freq "1W".toList),
   ("END".toList, .stop ["2024".toList, "-".toList, "01".toList, "-".toList, "20".toList]),
   ("bizrule".toList, .bizRule "following".toList),
   ("FIXING".toList, .fixing "begin".toList)]

example : (∀ q ∈ demoSched, eqS demoLib.sgn q.1 q.2.key = true) ∧ (∀ q ∈ demoSched, q.2.Ok) ∧
    (∀ q ∈ demoSched.dropLast, q.2.isFixing = false) ∧
    schedTokens demoSched = Script.lex [] false
      "Start: 2024-01-01 FREQ: 1W END: 2024-01-20 bizrule: following FIXING: begin".toList := by
  refine ⟨by decide +kernel, ?_, by decide +kernel, by decide +kernel⟩
  intro q hq
  simp only [demoSched, List.mem_cons, List.not_mem_nil, or_false] at hq
  rcases hq with rfl | rfl | rfl | rfl | rfl <;> simp [SchedParam.Ok]

/-- FIXING followed by any other token is refused: its value is taken for the name of a parameter. -/
theorem C72_fixing_not_last_violated (L : Lib) (c : Cfg) (nm v : Str) (t : Str) (rest : List Str)
    (hn : eqS L.sgn nm "FIXING".toList = true) :
    loop L c (nm :: ":".toList :: v :: t :: rest) = .throw := by
  rw [loop_fixing L c nm v (t :: rest) hn]
  simp only [SchedParam.means]
  have bad : ∀ k : Str, eqS L.sgn k ":".toList = false → eqS L.sgn v k = true → eqS L.sgn v ":".toList = false := by
    intro k h1 h2; rw [eqS_congr_left h2]; exact h1
  split
  · rename_i h
    have := bad _ (show _ = false by cases L.sgn <;> decide +kernel) h
    simp only [Out.bind]
    rw [loop, this]; rfl
  · split
    · rename_i h
      have := bad _ (show _ = false by cases L.sgn <;> decide +kernel) h
      simp only [Out.bind]
      rw [loop, this]; rfl
    · rfl

example : eqS demoLib.sgn "fixing".toList "FIXING".toList = true ∧
    parseSchedule demoLib (Script.lex [] false
      "FIXING: BEGIN START: 2024-01-01 END: 2024-01-20 FREQ: 1W".toList) = .throw := by
  constructor <;> decide +kernel

/-- One or two tokens at the end, such as the name of a parameter and a colon, are ignored. -/
theorem C72_incomplete_last_ignored (L : Lib) (ps : List (Str × SchedParam)) (junk : List Str)
    (hj : junk.length ≤ 2) (hn : ∀ q ∈ ps, eqS L.sgn q.1 q.2.key = true) (ho : ∀ q ∈ ps, q.2.Ok)
    (hf : ∀ q ∈ ps, q.2.isFixing = false) :
    ∀ c, loop L c (schedTokens ps ++ junk) = meansAll L c (ps.map Prod.snd) := by
  induction ps with
  | nil => intro c; exact loop_short L c junk hj
  | cons q ps ih =>
    intro c
    obtain ⟨nm, p⟩ := q
    have := loop_param L c nm p (schedTokens ps ++ junk) (hn (nm, p) (by simp)) (ho (nm, p) (by simp))
      (hf (nm, p) (by simp))
    have e : schedTokens ((nm, p) :: ps) ++ junk = nm :: ":".toList :: (p.vals ++ (schedTokens ps ++ junk)) := by
      simp [schedTokens]
    rw [e, this]
    show _ = (p.means L c).bind fun c' => meansAll L c' (ps.map Prod.snd)
    congr 1
    funext c'
    exact ih (fun q hq => hn q (by simp [hq])) (fun q hq => ho q (by simp [hq])) (fun q hq => hf q (by simp [hq])) c'

example : (∀ q ∈ demoSched.take 3, eqS demoLib.sgn q.1 q.2.key = true) ∧
    (∀ q ∈ demoSched.take 3, q.2.isFixing = false) ∧ ["CALENDAR".toList, ":".toList].length ≤ 2 := by
  refine ⟨by decide +kernel, by decide +kernel, by decide⟩

theorem periods_spec (f : Bool) (s : List Nat) : (periods f s).length = s.length - 1 ∧
    ∀ k (h : k + 1 < s.length), (periods f s)[k]? = some (s[k], s[k + 1], if f then s[k + 1] else s[k]) := by
  induction s with
  | nil => simp [periods]
  | cons a s ih =>
    cases s with
    | nil => simp [periods]
    | cons b r =>
      refine ⟨by simp only [periods, List.length_cons, ih.1]; omega, ?_⟩
      intro k h
      cases k with
      | zero => simp [periods]
      | succ k =>
        simp only [periods, List.getElem?_cons_succ]
        exact ih.2 k (by simpa using h)

/-- The periods returned are the gaps between consecutive dates of one strictly increasing list: each
begins where the one before ends, and is fixed at its end or at its beginning.  The list consists of
the pin dates, moved to business days when the rule asks for it. -/
theorem C72_periods (L : Lib) (toks : List Str) (r : List (Nat × Nat × Nat))
    (h : parseSchedule L toks = .ok r) :
    ∃ (c : Cfg) (t : List Incr.Single) (ds : List Date) (s : List Nat), loop L {} toks = .ok c ∧ c.tenor = some t ∧ L.pins c.start c.stop t = some ds ∧
      s.Pairwise (· < ·) ∧ r.length = s.length - 1 ∧
      (∀ k (hk : k + 1 < s.length), r[k]? = some (s[k], s[k + 1], if c.fixEnd then s[k + 1] else s[k])) ∧
      (ds ≠ [] → (c.biz = "Following".toList ∧ ∀ x, x ∈ s ↔ ∃ d ∈ ds, Hol.nextBus c.hols d.serial = some x) ∨
        (c.biz = "Unadjusted".toList ∧ ∀ x, x ∈ s ↔ ∃ d ∈ ds, x = d.serial)) := by
  unfold parseSchedule at h
  split at h
  · cases h
  · cases hc : loop L {} toks with
    | throw => rw [hc] at h; cases h
    | ub => rw [hc] at h; cases h
    | hang => rw [hc] at h; cases h
    | ok c =>
      rw [hc] at h
      simp only [Out.bind] at h
      cases hm : makeSchedule L c with
      | throw => rw [hm] at h; cases h
      | ub => rw [hm] at h; cases h
      | hang => rw [hm] at h; cases h
      | ok s =>
        rw [hm] at h
        simp only [Out.ok.injEq] at h
        subst h
        unfold makeSchedule at hm
        split at hm
        · cases hm
        · rename_i t ht
          split at hm
          · cases hm
          · rename_i ds hds
            refine ⟨c, t, ds, s, rfl, ht, hds, ?_, (periods_spec _ _).1, (periods_spec _ _).2, ?_⟩
            · split at hm
              · split at hm
                · rename_i x hx; cases hm; exact (C13_makeSchedule _ _ _ _ hx).1
                · cases hm
              · split at hm
                · split at hm
                  · rename_i x hx; cases hm; exact (C13_makeSchedule _ _ _ _ hx).1
                  · cases hm
                · split at hm
                  · cases hm; exact .nil
                  · cases hm
            · intro hne
              split at hm
              · rename_i hb
                split at hm
                · rename_i x hx
                  cases hm
                  exact .inl ⟨hb, fun y => by simpa using (C13_makeSchedule _ _ _ _ hx).2.1 y⟩
                · cases hm
              · split at hm
                · rename_i hb
                  split at hm
                  · rename_i x hx
                    cases hm
                    exact .inr ⟨hb, fun y => by simpa using (C13_makeSchedule _ _ _ _ hx).2.1 y⟩
                  · cases hm
                · cases hm

example : parseSchedule demoLib (schedTokens demoSched) =
    .ok [((mk' 2024 1 1).serial, (mk' 2024 1 8).serial, (mk' 2024 1 1).serial),
      ((mk' 2024 1 8).serial, (mk' 2024 1 15).serial, (mk' 2024 1 8).serial),
      ((mk' 2024 1 15).serial, (mk' 2024 1 22).serial, (mk' 2024 1 15).serial)] := by
  decide +kernel

theorem tenor_only_freq (L : Lib) (ps : List SchedParam) (hf : ∀ p ∈ ps, ∀ v, p ≠ .freq v) :
    ∀ c c', c.tenor = none → meansAll L c ps = .ok c' → c'.tenor = none := by
  induction ps with
  | nil => intro c c' h e; simp only [meansAll, Out.ok.injEq] at e; rw [← e]; exact h
  | cons p ps ih =>
    intro c c' h e
    rw [meansAll] at e
    cases hp : p.means L c with
    | throw => rw [hp] at e; cases e
    | ub => rw [hp] at e; cases e
    | hang => rw [hp] at e; cases e
    | ok c1 =>
      rw [hp] at e
      refine ih (fun p hp => hf p (by simp [hp])) c1 c' ?_ e
      cases p with
      | freq v => exact absurd rfl (hf _ (by simp) v)
      | start d =>
        simp only [SchedParam.means] at hp
        cases hx : DateText.fromString d.flatten with
        | none => rw [hx] at hp; cases hp
        | some x => rw [hx] at hp; simp only [Out.ofOption, Out.bind, Out.ok.injEq] at hp; rw [← hp]; exact h
      | stop d =>
        simp only [SchedParam.means] at hp
        cases hx : DateText.fromString d.flatten with
        | none => rw [hx] at hp; cases hp
        | some x => rw [hx] at hp; simp only [Out.ofOption, Out.bind, Out.ok.injEq] at hp; rw [← hp]; exact h
      | calendar v =>
        simp only [SchedParam.means] at hp
        cases hx : L.parseHols v with
        | none => rw [hx] at hp; cases hp
        | some x => rw [hx] at hp; simp only [Out.ofOption, Out.bind, Out.ok.injEq] at hp; rw [← hp]; exact h
      | bizRule v =>
        simp only [SchedParam.means] at hp
        cases hx : readEnum L.sgn bizDayConventionTable v with
        | none => rw [hx] at hp; cases hp
        | some x => rw [hx] at hp; simp only [Out.ofOption, Out.bind, Out.ok.injEq] at hp; rw [← hp]; exact h
      | fixing v =>
        simp only [SchedParam.means] at hp
        split at hp
        · simp only [Out.ok.injEq] at hp; rw [← hp]; exact h
        · split at hp
          · simp only [Out.ok.injEq] at hp; rw [← hp]; exact h
          · cases hp

/-- A schedule whose values can be read but which has no FREQ calls a null handle; so does the call
with fewer than two tokens read outside the vector. -/
theorem C72_no_frequency_violated (L : Lib) (ps : List (Str × SchedParam)) (hne : ps ≠ [])
    (hn : ∀ q ∈ ps, eqS L.sgn q.1 q.2.key = true) (ho : ∀ q ∈ ps, q.2.Ok)
    (hf : ∀ q ∈ ps.dropLast, q.2.isFixing = false) (hq : ∀ q ∈ ps, ∀ v, q.2 ≠ .freq v) (c : Cfg)
    (hc : meansAll L {} (ps.map Prod.snd) = .ok c) :
    parseSchedule L (schedTokens ps) = .ub ∧ ∀ toks : List Str, toks.length < 2 → parseSchedule L toks = .ub := by
  refine ⟨?_, fun toks h => by unfold parseSchedule; rw [if_pos h]⟩
  unfold parseSchedule
  rw [if_neg]
  · rw [C72_parameters_partial L ps hn ho hf, hc]
    have ht := tenor_only_freq L (ps.map Prod.snd) (by
      intro p hp v
      obtain ⟨q, hq', rfl⟩ := List.mem_map.1 hp
      exact hq q hq' v) {} c rfl hc
    simp only [Out.bind, makeSchedule, ht]
  · cases ps with
    | nil => exact absurd rfl hne
    | cons q ps => simp [schedTokens]

example : ∃ c, meansAll demoLib {} (([demoSched[0], demoSched[2]] : List (Str × SchedParam)).map Prod.snd) = .ok c ∧
    c.start = mk' 2024 1 1 ∧ c.stop = mk' 2024 1 20 := by
  exact ⟨{ start := mk' 2024 1 1, stop := mk' 2024 1 20 }, by
    simp only [demoSched, List.getElem_cons_zero, List.getElem_cons_succ, List.map_cons, List.map_nil, meansAll,
      SchedParam.means]
    have h1 : DateText.fromString (["2024".toList, "-".toList, "01".toList, "-".toList, "01".toList] : List Str).flatten =
      some (mk' 2024 1 1) := by decide +kernel
    have h2 : DateText.fromString (["2024".toList, "-".toList, "01".toList, "-".toList, "20".toList] : List Str).flatten =
      some (mk' 2024 1 20) := by decide +kernel
    rw [h1, h2]; rfl, rfl, rfl⟩

private theorem keeps_defaults (L : Lib) (ps : List SchedParam) (hb : ∀ p ∈ ps, ∀ v, p ≠ .bizRule v) (hf : ∀ p ∈ ps, ∀ v, p ≠ .fixing v) :
    ∀ c c', meansAll L c ps = .ok c' → c'.biz = c.biz ∧ c'.fixEnd = c.fixEnd := by
  induction ps with
  | nil => intro c c' e; simp only [meansAll, Out.ok.injEq] at e; rw [← e]; exact ⟨rfl, rfl⟩
  | cons p ps ih =>
    intro c c' e
    rw [meansAll] at e
    cases hp : p.means L c with
    | throw => rw [hp] at e; cases e
    | ub => rw [hp] at e; cases e
    | hang => rw [hp] at e; cases e
    | ok c1 =>
      rw [hp] at e
      obtain ⟨h1, h2⟩ := ih (fun p hp => hb p (by simp [hp])) (fun p hp => hf p (by simp [hp])) c1 c' e
      rw [h1, h2]
      cases p with
      | freq v =>
        simp only [SchedParam.means] at hp
        cases hx : Incr.parseIncrement L.sgn L.parseHols v with
        | none => rw [hx] at hp; cases hp
        | some x => rw [hx] at hp; simp only [Out.ofOption, Out.bind, Out.ok.injEq] at hp; rw [← hp]; exact ⟨rfl, rfl⟩
      | start d =>
        simp only [SchedParam.means] at hp
        cases hx : DateText.fromString d.flatten with
        | none => rw [hx] at hp; cases hp
        | some x => rw [hx] at hp; simp only [Out.ofOption, Out.bind, Out.ok.injEq] at hp; rw [← hp]; exact ⟨rfl, rfl⟩
      | stop d =>
        simp only [SchedParam.means] at hp
        cases hx : DateText.fromString d.flatten with
        | none => rw [hx] at hp; cases hp
        | some x => rw [hx] at hp; simp only [Out.ofOption, Out.bind, Out.ok.injEq] at hp; rw [← hp]; exact ⟨rfl, rfl⟩
      | calendar v =>
        simp only [SchedParam.means] at hp
        cases hx : L.parseHols v with
        | none => rw [hx] at hp; cases hp
        | some x => rw [hx] at hp; simp only [Out.ofOption, Out.bind, Out.ok.injEq] at hp; rw [← hp]; exact ⟨rfl, rfl⟩
      | bizRule v => exact absurd rfl (hb _ (by simp) v)
      | fixing v => exact absurd rfl (hf _ (by simp) v)

/-- C72: without BIZRULE and without FIXING the dates are left as they are and every period fixes at its end. -/
theorem C72_defaults (L : Lib) (ps : List (Str × SchedParam)) (hn : ∀ q ∈ ps, eqS L.sgn q.1 q.2.key = true) (ho : ∀ q ∈ ps, q.2.Ok)
    (hb : ∀ q ∈ ps, ∀ v, q.2 ≠ .bizRule v) (hf : ∀ q ∈ ps, ∀ v, q.2 ≠ .fixing v) (r : List (Nat × Nat × Nat)) (h : parseSchedule L (schedTokens ps) = .ok r) :
    ∃ (c : Cfg) (t : List Incr.Single) (ds : List Date) (s : List Nat), meansAll L {} (ps.map Prod.snd) = .ok c ∧ c.tenor = some t ∧ L.pins c.start c.stop t = some ds ∧
      s.Pairwise (· < ·) ∧ r.length = s.length - 1 ∧ (∀ k (hk : k + 1 < s.length), r[k]? = some (s[k], s[k + 1], s[k + 1])) ∧
      (ds ≠ [] → ∀ x, x ∈ s ↔ ∃ d ∈ ds, x = d.serial) := by
  obtain ⟨c, t, ds, s, h1, h2, h3, h4, h5, h6, h7⟩ := C72_periods L _ r h
  have hnf : ∀ q ∈ ps.dropLast, q.2.isFixing = false := by
    intro q hq
    have := hf q ((List.dropLast_subset _) hq)
    cases he : q.2 with
    | fixing v => exact absurd he (this v)
    | _ => rfl
  rw [C72_parameters_partial L ps hn ho hnf] at h1
  obtain ⟨k1, k2⟩ := keeps_defaults L (ps.map Prod.snd)
    (fun p hp v => by obtain ⟨q, hq, rfl⟩ := List.mem_map.1 hp; exact hb q hq v)
    (fun p hp v => by obtain ⟨q, hq, rfl⟩ := List.mem_map.1 hp; exact hf q hq v) _ c h1
  refine ⟨c, t, ds, s, h1, h2, h3, h4, h5, fun k hk => ?_, fun hne => ?_⟩
  · rw [h6 k hk, k2]; rfl
  · rcases h7 hne with ⟨e, -⟩ | ⟨-, h⟩
    · rw [k1] at e; exact absurd e (by decide)
    · exact h

/-- START, END and FREQ only: the last date stays a Saturday, and the periods fix at their ends. -/
example : (∀ q ∈ demoSched.take 3, ∀ v, q.2 ≠ .bizRule v) ∧ (∀ q ∈ demoSched.take 3, ∀ v, q.2 ≠ .fixing v) ∧ parseSchedule demoLib (schedTokens (demoSched.take 3)) =
    .ok [((mk' 2024 1 1).serial, (mk' 2024 1 8).serial, (mk' 2024 1 8).serial),
      ((mk' 2024 1 8).serial, (mk' 2024 1 15).serial, (mk' 2024 1 15).serial),
      ((mk' 2024 1 15).serial, (mk' 2024 1 20).serial, (mk' 2024 1 20).serial)] := by
  refine ⟨?_, ?_, by decide +kernel⟩ <;>
  · intro q hq v
    simp only [demoSched, List.take_succ_cons, List.take_zero, List.mem_cons, List.not_mem_nil, or_false] at hq
    rcases hq with rfl | rfl | rfl <;> exact (fun e => by cases e)

/-- C72 fails for a date cut short at the end of the text: tokens outside the vector are read. -/
theorem C72_short_date_violated (L : Lib) (c : Cfg) (nm : Str) (k : Str) (hk : k = "START".toList ∨ k = "END".toList) (hn : eqS L.sgn nm k = true) (d : List Str)
    (hd : d ≠ []) (hl : d.length < 5) : loop L c (nm :: ":".toList :: d) = .ub := by
  cases d with
  | nil => exact absurd rfl hd
  | cons v rest =>
    rw [loop, colon_eq]
    have hdt : dateTokens (v :: rest) = .ub := by unfold dateTokens; rw [if_pos hl]
    rcases hk with rfl | rfl
    · rw [hn, hdt]; rfl
    · have e0 := (eqS_congr_left hn "START".toList).trans (show _ = false by cases L.sgn <;> decide +kernel)
      rw [e0, hn, hdt]; rfl

example : loop demoLib {} ["start".toList, ":".toList, "2024".toList, "-".toList, "01".toList, "-".toList] = .ub :=
  C72_short_date_violated demoLib {} "start".toList _ (Or.inl rfl) (by decide +kernel) _ (by simp) (by decide)

end Dal
