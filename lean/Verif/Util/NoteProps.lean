import Verif.Util.NoteModel

/-! # C84: the notes in exceptions -/

namespace Dal

open Notes

/-! ### Specification: the notes of the blocks around, without a stack -/

namespace Notes

/-- The values at the moment. -/
structure View where
  mem : List (Option Str)
  caught : List Str
  deriving DecidableEq

/-- The lines of the notes around a throw. -/
def lines (mem : List (Option Str)) : List Info → Option (List Str)
  | [] => some []
  | i :: is =>
    match i.value with
    | none => (lines mem is).map (i.name :: ·)
    | some a =>
      match mem[a]? with
      | some (some v) => (lines mem is).map ((i.name ++ " = ".toList ++ v) :: ·)
      | _ => none

/-- Running a block inside the blocks with the notes `around`, outermost first. -/
def meaning : Prog → List Nat → List Info → View → Outcome × View
  | .skip, _, _, s => (.done, s)
  | .seq p q, env, around, s =>
    match meaning p env around s with
    | (.done, s) => meaning q env around s
    | r => r
  | .assign x v, env, _, s =>
    match env[x]? with
    | some a => (.done, { s with mem := s.mem.set a (some v) })
    | none => (.undefined, s)
  | .throw site, _, around, s =>
    match lines s.mem around with
    | some ls => (.thrown (format site ++ (ls.map ("\n".toList ++ ·)).flatten), s)
    | none => (.undefined, s)
  | .var v body, env, around, s =>
    let r := meaning body (s.mem.length :: env) around { s with mem := s.mem ++ [some v] }
    (r.1, { r.2 with mem := r.2.mem.set s.mem.length none })
  | .note name body, env, around, s => meaning body env (around ++ [⟨name, none⟩]) s
  | .notice name x body, env, around, s =>
    match env[x]? with
    | some a => meaning body env (around ++ [⟨name, some a⟩]) s
    | none => (.undefined, s)
  | .noticeTemp name body, env, around, s => meaning body env (around ++ [⟨name, some s.mem.length⟩]) { s with mem := s.mem ++ [none] }
  | .attempt body handler, env, around, s =>
    match meaning body env around s with
    | (.thrown m, s) => meaning handler env around { s with caught := s.caught ++ [m] }
    | r => r

/-- The notes on the stack. -/
def contents (inst : Option (List Info)) : List Info := inst.getD []

/-- What is seen of a state. -/
def State.view (s : State) : View := ⟨s.mem, s.caught⟩

/-- Blocks whose notes are of variables, with `n` variables around. -/
def Sound : Prog → Nat → Prop
  | .skip, _ => True
  | .seq p q, n => Sound p n ∧ Sound q n
  | .assign x _, n => x < n
  | .throw _, _ => True
  | .var _ body, n => Sound body (n + 1)
  | .note _ body, n => Sound body n
  | .notice _ x body, n => x < n ∧ Sound body n
  | .noticeTemp _ _, _ => False
  | .attempt body handler, n => Sound body n ∧ Sound handler n

/-- Every throw stands below a note, in the block or around it. -/
def Covered : Prog → Prop → Prop
  | .seq p q, c => Covered p c ∧ Covered q c
  | .attempt p q, c => Covered p c ∧ Covered q c
  | .throw _, c => c
  | .var _ body, c => Covered body c
  | _, _ => True

end Notes

/-! ### Lemmas -/

private theorem append_lines (mem : List (Option Str)) : ∀ (is : List Info) (acc : Str),
    append mem acc is = (lines mem is).map fun ls => acc ++ (ls.map ("\n".toList ++ ·)).flatten := by
  intro is
  induction is with
  | nil => intro acc; simp [append, lines]
  | cons i is ih =>
    intro acc
    rw [append, lines, message]
    cases hv : i.value with
    | none =>
      simp only [Option.bind_some, ih, Option.map_map]
      congr 1; funext ls; simp
    | some a =>
      simp only [readCell]
      rcases h : mem[a]? with _ | _ | v
      · rfl
      · rfl
      · simp only [Option.join_some, Option.map_some, Option.bind_some, ih, Option.map_map]
        congr 1; funext ls; simp

private theorem theStack_fst (inst : Option (List Info)) : (theStack inst).1 = contents inst := by
  cases inst <;> simp [theStack, xTheStack, contents]

private theorem theStack_snd (inst : Option (List Info)) : contents (theStack inst).2 = contents inst := by
  cases inst <;> simp [theStack, xTheStack, contents]

private theorem contents_push (inst : Option (List Info)) (i : Info) : contents (pushStack inst i) = contents inst ++ [i] := by
  rw [pushStack, theStack_fst]; rfl

private theorem contents_pop {inst : Option (List Info)} {l : List Info} {i : Info} (h : contents inst = l ++ [i]) : contents (popStack inst) = l := by
  rw [popStack, theStack_fst, h]
  have : (l ++ [i]).dropLast = l := List.dropLast_concat
  rw [this]
  cases l <;> simp [xTheStack, contents]

private theorem leave_fst (r : Outcome × State) : (leave r).1 = r.1 := by
  unfold leave
  split <;> rfl

private theorem leave_view (r : Outcome × State) : (leave r).2.view = r.2.view := by
  unfold leave
  split <;> rfl

private theorem leave_contents {r : Outcome × State} (h : r.1 ≠ .undefined) : (leave r).2.inst = popStack r.2.inst := by
  unfold leave
  split
  · rename_i h'; exact absurd h' h
  · rfl

/-! ### Properties -/

/-- Notes work as the blocks they stand in: a message has, after the text of the throw, one line for each note of the blocks around the throw, the outermost
first, with the values of that moment; and however a block is left, the stack is as before. -/
theorem C84_notes (p : Prog) : ∀ (env : List Nat) (s : State),
    (run p env s).1 = (meaning p env (contents s.inst) s.view).1 ∧
    (run p env s).2.view = (meaning p env (contents s.inst) s.view).2 ∧
    ((run p env s).1 ≠ .undefined → contents (run p env s).2.inst = contents s.inst) := by
  induction p with
  | skip => intro env s; exact ⟨rfl, rfl, fun _ => rfl⟩
  | seq p q ihp ihq =>
    intro env s
    obtain ⟨h1, h2, h3⟩ := ihp env s
    rw [run, meaning]
    rcases hr : run p env s with ⟨o, s'⟩
    rcases hm : meaning p env (contents s.inst) s.view with ⟨o', v'⟩
    rw [hr, hm] at h1 h2; rw [hr] at h3
    dsimp only at h1 h2 h3
    subst h1 h2
    cases o with
    | done =>
      dsimp only
      have := ihq env s'
      rw [h3 (by simp)] at this
      exact this
    | thrown m => exact ⟨rfl, rfl, h3⟩
    | undefined => exact ⟨rfl, rfl, h3⟩
  | assign x v =>
    intro env s
    rw [run, meaning]
    cases env[x]? with
    | none => exact ⟨rfl, rfl, fun h => absurd rfl h⟩
    | some a => exact ⟨rfl, rfl, fun _ => rfl⟩
  | throw site =>
    intro env s
    rw [run, meaning, theStack_fst, append_lines]
    cases h : lines s.mem (contents s.inst) with
    | none => simp [State.view, h]
    | some ls => simp [State.view, h, theStack_snd]
  | var v body ih =>
    intro env s
    obtain ⟨h1, h2, h3⟩ := ih (s.mem.length :: env) { s with mem := s.mem ++ [some v] }
    rw [run, meaning]
    refine ⟨h1, ?_, h3⟩
    dsimp only [State.view] at h2 ⊢
    rw [← h2]; rfl
  | note name body ih =>
    intro env s
    obtain ⟨h1, h2, h3⟩ := ih env { s with inst := pushStack s.inst ⟨name, none⟩ }
    rw [contents_push] at h1 h2 h3
    rw [run, meaning]
    refine ⟨by rw [leave_fst, h1]; rfl, by rw [leave_view, h2]; rfl, fun h => ?_⟩
    rw [leave_fst] at h
    rw [leave_contents h, contents_pop (h3 h)]
  | notice name x body ih =>
    intro env s
    rw [run, meaning]
    cases env[x]? with
    | none => exact ⟨rfl, rfl, fun h => absurd rfl h⟩
    | some a =>
      obtain ⟨h1, h2, h3⟩ := ih env { s with inst := pushStack s.inst ⟨name, some a⟩ }
      rw [contents_push] at h1 h2 h3
      dsimp only
      refine ⟨by rw [leave_fst, h1]; rfl, by rw [leave_view, h2]; rfl, fun h => ?_⟩
      rw [leave_fst] at h
      rw [leave_contents h, contents_pop (h3 h)]
  | noticeTemp name body ih =>
    intro env s
    obtain ⟨h1, h2, h3⟩ := ih env { s with mem := s.mem ++ [none], inst := pushStack s.inst ⟨name, some s.mem.length⟩ }
    rw [contents_push] at h1 h2 h3
    rw [run, meaning]
    refine ⟨by rw [leave_fst, h1]; rfl, by rw [leave_view, h2]; rfl, fun h => ?_⟩
    rw [leave_fst] at h
    rw [leave_contents h, contents_pop (h3 h)]
  | attempt body handler ihp ihq =>
    intro env s
    obtain ⟨h1, h2, h3⟩ := ihp env s
    rw [run, meaning]
    rcases hr : run body env s with ⟨o, s'⟩
    rcases hm : meaning body env (contents s.inst) s.view with ⟨o', v'⟩
    rw [hr, hm] at h1 h2; rw [hr] at h3
    dsimp only at h1 h2 h3
    subst h1 h2
    cases o with
    | thrown m =>
      dsimp only
      have := ihq env { s' with caught := s'.caught ++ [m] }
      dsimp only at this
      rw [h3 (by simp)] at this
      exact this
    | done => exact ⟨rfl, rfl, h3⟩
    | undefined => exact ⟨rfl, rfl, h3⟩

/-- A small throw: two notes, the second of a variable that is changed before the throw. -/
example : (run (.note "outer".toList (.var "1".toList (.notice "x".toList 0 (.seq (.assign 0 "2".toList) (.throw ⟨"f".toList, "7".toList, "g".toList, "bad".toList⟩)))))
    [] ⟨[], none, []⟩) = (.thrown "\nf:7: In function `g': \nbad\nouter\nx = 2".toList, ⟨[none], none, []⟩) := by decide +kernel

private def Alive (mem : List (Option Str)) (a : Nat) : Prop := ∃ v, mem[a]? = some (some v)

private theorem lines_isSome {mem : List (Option Str)} : ∀ {is : List Info}, (∀ i ∈ is, ∀ a, i.value = some a → Alive mem a) → ∃ ls, lines mem is = some ls := by
  intro is
  induction is with
  | nil => intro _; exact ⟨[], rfl⟩
  | cons i is ih =>
    intro h
    obtain ⟨ls, hls⟩ := ih fun j hj => h j (by simp [hj])
    rw [lines]
    cases hv : i.value with
    | none => exact ⟨_, by rw [hls]; rfl⟩
    | some a =>
      obtain ⟨v, hv'⟩ := h i (by simp) a hv
      dsimp only
      rw [hv', hls]
      exact ⟨_, rfl⟩

private theorem alive_set {mem : List (Option Str)} {a b : Nat} {v : Str} (h : Alive mem b) : Alive (mem.set a (some v)) b := by
  obtain ⟨w, hw⟩ := h
  by_cases hab : a = b
  · subst hab
    have hl : a < mem.length := by
      rw [List.getElem?_eq_some_iff] at hw; exact hw.1
    exact ⟨v, List.getElem?_set_self hl⟩
  · exact ⟨w, by rw [List.getElem?_set_ne hab, hw]⟩

private theorem alive_lt {mem : List (Option Str)} {b : Nat} (h : Alive mem b) : b < mem.length := by
  obtain ⟨w, hw⟩ := h
  rw [List.getElem?_eq_some_iff] at hw; exact hw.1

private theorem meaning_sound (p : Prog) : ∀ (env : List Nat) (around : List Info) (s : View), Sound p env.length →
    (∀ a ∈ env, Alive s.mem a) → (∀ i ∈ around, ∀ a, i.value = some a → Alive s.mem a) →
    (meaning p env around s).1 ≠ .undefined ∧ ∀ a, Alive s.mem a → Alive (meaning p env around s).2.mem a := by
  induction p with
  | skip => intro env around s _ _ _; exact ⟨by simp [meaning], fun a h => h⟩
  | seq p q ihp ihq =>
    intro env around s hs he ha
    obtain ⟨h1, h2⟩ := ihp env around s hs.1 he ha
    rw [meaning]
    rcases hm : meaning p env around s with ⟨o, v⟩
    rw [hm] at h1 h2
    dsimp only at h1 h2
    cases o with
    | undefined => exact absurd rfl h1
    | thrown m => exact ⟨by simp, h2⟩
    | done =>
      obtain ⟨h3, h4⟩ := ihq env around v hs.2 (fun a h => h2 a (he a h)) fun i hi a h => h2 a (ha i hi a h)
      exact ⟨h3, fun a h => h4 a (h2 a h)⟩
  | assign x v =>
    intro env around s hs he ha
    rw [meaning]
    have hx : x < env.length := hs
    rw [List.getElem?_eq_getElem hx]
    exact ⟨by simp, fun a h => alive_set h⟩
  | throw site =>
    intro env around s hs he ha
    rw [meaning]
    obtain ⟨ls, hls⟩ := lines_isSome ha
    rw [hls]
    exact ⟨by simp, fun a h => h⟩
  | var v body ih =>
    intro env around s hs he ha
    rw [meaning]
    have up : ∀ a, Alive s.mem a → Alive (s.mem ++ [some v]) a := fun a h => by
      obtain ⟨w, hw⟩ := h
      exact ⟨w, by rw [List.getElem?_append_left (alive_lt ⟨w, hw⟩), hw]⟩
    obtain ⟨h1, h2⟩ := ih (s.mem.length :: env) around { s with mem := s.mem ++ [some v] } hs
      (fun a h => by
        rcases List.mem_cons.1 h with rfl | h
        · exact ⟨v, by simp⟩
        · exact up a (he a h))
      fun i hi a h => up a (ha i hi a h)
    refine ⟨h1, fun a h => ?_⟩
    obtain ⟨w, hw⟩ := h2 a (up a h)
    have := alive_lt h
    exact ⟨w, by dsimp only; rw [List.getElem?_set_ne (by omega), hw]⟩
  | note name body ih =>
    intro env around s hs he ha
    rw [meaning]
    refine ih env _ s hs he fun i hi a h => ?_
    rcases List.mem_append.1 hi with hi | hi
    · exact ha i hi a h
    · simp at hi; subst hi; cases h
  | notice name x body ih =>
    intro env around s hs he ha
    rw [meaning]
    have hx : x < env.length := hs.1
    rw [List.getElem?_eq_getElem hx]
    refine ih env _ s hs.2 he fun i hi a h => ?_
    rcases List.mem_append.1 hi with hi | hi
    · exact ha i hi a h
    · simp at hi; subst hi; cases h; exact he _ (List.getElem_mem hx)
  | noticeTemp name body ih => intro env around s hs; exact absurd hs (by simp [Sound])
  | attempt p q ihp ihq =>
    intro env around s hs he ha
    obtain ⟨h1, h2⟩ := ihp env around s hs.1 he ha
    rw [meaning]
    rcases hm : meaning p env around s with ⟨o, v⟩
    rw [hm] at h1 h2
    dsimp only at h1 h2
    cases o with
    | undefined => exact absurd rfl h1
    | done => exact ⟨by simp, h2⟩
    | thrown m =>
      obtain ⟨h3, h4⟩ := ihq env around { v with caught := v.caught ++ [m] } hs.2 (fun a h => h2 a (he a h)) fun i hi a h => h2 a (ha i hi a h)
      exact ⟨h3, fun a h => h4 a (h2 a h)⟩

/-- Blocks whose notes are of variables never read a value that has ended, whatever throws where. -/
theorem C84_sound (p : Prog) (hp : Sound p 0) (mem : List (Option Str)) (caught : List Str) (inst : Option (List Info)) (h : contents inst = []) :
    (run p [] ⟨mem, inst, caught⟩).1 ≠ .undefined := by
  rw [(C84_notes p [] ⟨mem, inst, caught⟩).1, h]
  exact (meaning_sound p [] [] _ hp (by simp) (by simp)).1

example : Sound (.var "1".toList (.notice "x".toList 0 (.attempt (.throw ⟨[], [], [], []⟩) .skip))) 0 := by simp [Sound]

/-- The claim for all notes fails: a note of a value that ends with the statement, as in `Report_::AddHeaderRow`, makes every throw in its block read a value
that has ended. -/
theorem C84_temporary_violated (name : Str) (site : Site) (env : List Nat) (s : State) (h : ∀ i ∈ contents s.inst, i.value = none) :
    (run (.noticeTemp name (.throw site)) env s).1 = .undefined := by
  rw [(C84_notes _ env s).1, meaning, meaning]
  have key : ∀ is : List Info, (∀ i ∈ is, i.value = none) →
      lines (s.view.mem ++ [none]) (is ++ [⟨name, some s.view.mem.length⟩]) = none := by
    intro is
    induction is with
    | nil => intro _; simp [lines]
    | cons i is ih =>
      intro h
      rw [List.cons_append, lines, h i (by simp)]
      dsimp only
      rw [ih fun j hj => h j (by simp [hj])]; rfl
  dsimp only
  rw [key _ h]

private theorem pop_ne (inst : Option (List Info)) : popStack inst ≠ some [] := by
  rw [popStack]
  generalize (if !(theStack inst).1.isEmpty then (theStack inst).1.dropLast else (theStack inst).1) = l
  cases l <;> simp [xTheStack]

private theorem inst_eq {a b : Option (List Info)} (ha : a ≠ some []) (hb : b ≠ some []) (h : contents a = contents b) : a = b := by
  rcases a with _ | _ | ⟨x, l⟩
  · rcases b with _ | _ | ⟨y, m⟩
    · rfl
    · exact absurd rfl hb
    · simp [contents] at h
  · exact absurd rfl ha
  · rcases b with _ | _ | ⟨y, m⟩
    · simp [contents] at h
    · exact absurd rfl hb
    · simpa [contents] using h

/-- The vector of notes is released with the last note: a block in which every throw stands below a note leaves the pointer as it was, null included. -/
theorem C84_released (p : Prog) (env : List Nat) (s : State) (hc : Covered p (contents s.inst ≠ [])) (hs : s.inst ≠ some [])
    (hu : (run p env s).1 ≠ .undefined) : (run p env s).2.inst = s.inst := by
  refine inst_eq ?_ hs ((C84_notes p env s).2.2 hu)
  induction p generalizing env s with
  | skip => exact hs
  | seq p q ihp ihq =>
    have h1 := ihp env s hc.1 hs
    have h3 := (C84_notes p env s).2.2
    rw [run] at hu ⊢
    rcases hr : run p env s with ⟨o, s'⟩
    rw [hr] at hu h1 h3
    cases o with
    | done => exact ihq env s' (by rw [h3 (by simp)]; exact hc.2) (h1 (by simp)) hu
    | thrown m => exact h1 (by simp)
    | undefined => exact absurd rfl hu
  | assign x v =>
    rw [run] at hu ⊢
    cases h : env[x]? with
    | none => rw [h] at hu; exact absurd rfl hu
    | some a => exact hs
  | throw site =>
    rw [run] at hu ⊢
    cases h : append s.mem (format site) (theStack s.inst).1 with
    | none => rw [h] at hu; exact absurd rfl hu
    | some m =>
      have h0 : contents s.inst ≠ [] := hc
      dsimp only
      intro he
      have := theStack_snd s.inst
      rw [he] at this
      exact h0 this.symm
  | var v body ih =>
    rw [run] at hu ⊢
    exact ih (s.mem.length :: env) { s with mem := s.mem ++ [some v] } hc hs hu
  | note name body ih =>
    rw [run] at hu ⊢
    rw [leave_fst] at hu
    rw [leave_contents hu]
    exact pop_ne _
  | notice name x body ih =>
    rw [run] at hu ⊢
    cases h : env[x]? with
    | none => rw [h] at hu; exact absurd rfl hu
    | some a =>
      rw [h] at hu
      dsimp only at hu ⊢
      rw [leave_fst] at hu
      rw [leave_contents hu]
      exact pop_ne _
  | noticeTemp name body ih =>
    rw [run] at hu ⊢
    rw [leave_fst] at hu
    rw [leave_contents hu]
    exact pop_ne _
  | attempt p q ihp ihq =>
    have h1 := ihp env s hc.1 hs
    have h3 := (C84_notes p env s).2.2
    rw [run] at hu ⊢
    rcases hr : run p env s with ⟨o, s'⟩
    rw [hr] at hu h1 h3
    cases o with
    | done => exact h1 (by simp)
    | thrown m => exact ihq env { s' with caught := s'.caught ++ [m] } (by dsimp only; rw [h3 (by simp)]; exact hc.2) (h1 (by simp)) hu
    | undefined => exact absurd rfl hu

example : Covered (.attempt (.note "n".toList (.throw ⟨[], [], [], []⟩)) .skip) (contents none ≠ []) := by simp [Covered]

/-- The claim that an empty vector is never kept fails: a throw without notes around makes one, and only the next note releases it. -/
theorem C84_released_violated (site : Site) (env : List Nat) (mem : List (Option Str)) (caught : List Str) :
    (run (.throw site) env ⟨mem, none, caught⟩).2.inst = some [] ∧
    ∀ name, (run (.note name .skip) env (run (.throw site) env ⟨mem, none, caught⟩).2).2.inst = none := by
  constructor
  · simp [run, theStack, xTheStack, append]
  · intro name; simp [run, theStack, xTheStack, append, leave, pushStack, popStack]

/-- The text of a throw without notes: place, function when known, and message. -/
theorem C84_plain (site : Site) (env : List Nat) (s : State) (h : contents s.inst = []) :
    (run (.throw site) env s).1 = .thrown (if site.func = "(unknown)".toList then
      ['\n'] ++ site.file ++ [':'] ++ site.line ++ [':', ' '] ++ site.msg
      else ['\n'] ++ site.file ++ [':'] ++ site.line ++ [':', ' '] ++ "In function `".toList ++ site.func ++ "': \n".toList ++ site.msg) := by
  rw [(C84_notes _ env s).1, meaning, h]
  simp only [lines, format]
  by_cases hf : site.func = "(unknown)".toList
  · rw [if_pos hf, if_neg (fun h => h hf)]; simp
  · rw [if_neg hf, if_pos hf]; simp

example : contents (none : Option (List Info)) = [] := rfl

end Dal
