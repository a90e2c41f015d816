import Verif.Aad.StackModel

/-!
# C44: the growable stack is a last-in first-out list

Specification: a list whose head is the element pushed last.  The operations of a client are pushes, pops of any number of elements,
resets and assignments from another stack that itself stands for a list.
-/

namespace Dal

open Dal.Stk

variable {α : Type}

/-- What the client does. -/
inductive StackOp (α : Type) where
  | push (v : α)
  | pop (n : Nat)
  | reset
  | assign (l : List α)

/-- What a list does: no popping from an empty list, and no more elements than an `int` capacity allows. -/
def specStep (l : List α) : StackOp α → Option (List α)
  | .push v => if l.length < 2 ^ 29 then some (v :: l) else none
  | .pop n => if n ≤ l.length then some (l.drop n) else none
  | .reset => some []
  | .assign l' => if l'.length < 2 ^ 30 then some l' else none

/-- What a sequence of operations does to a list. -/
def specRun : List α → List (StackOp α) → Option (List α)
  | l, [] => some l
  | l, o :: os => (specStep l o).bind fun l' => specRun l' os

/-- A stack stands for a list, the head being the top. -/
structure Reps (s : Stack α) (l : List α) : Prop where
  small : s.size ≤ 2 ^ 30
  fits : s.size ≤ s.buf.length
  sp : s.sp = l.length
  room : l.length < s.size
  cells : s.buf.take l.length = l.reverse.map some

/-- The same operations on the stack of the code; the stack an assignment copies from is any that stands for the list. -/
inductive StackRun : Stack α → List (StackOp α) → Stack α → Prop where
  | nil (s) : StackRun s [] s
  | push {s s1 s2 v os} : push s v = some s1 → StackRun s1 os s2 → StackRun s (.push v :: os) s2
  | pop {s s2 n os} : StackRun (pop s n) os s2 → StackRun s (.pop n :: os) s2
  | reset {s s2 os} : StackRun (reset s) os s2 → StackRun s (.reset :: os) s2
  | assign {s rhs s1 s2 l os} : Reps rhs l → assign s rhs = some s1 → StackRun s1 os s2 → StackRun s (.assign l :: os) s2

private theorem reps_cell {buf : List (Option α)} {l : List α} (h : buf.take l.length = l.reverse.map some) {i : Nat} (hi : i < l.length) :
    cell buf ((l.length : Int) - 1 - i) = l[i]? := by
  unfold cell
  rw [if_neg (by omega), show ((l.length : Int) - 1 - i).toNat = l.length - 1 - i by omega]
  have h1 : (buf.take l.length)[l.length - 1 - i]? = buf[l.length - 1 - i]? := by
    rw [List.getElem?_take, if_pos (by omega)]
  rw [← h1, h, List.getElem?_map, List.getElem?_reverse (by omega), show l.length - 1 - (l.length - 1 - i) = i by omega,
    List.getElem?_eq_getElem hi]
  rfl

/-- C44: what a stack standing for a list shows is the list: size, emptiness, top, every element from the top down, and iteration. -/
theorem C44_observe {s : Stack α} {l : List α} (h : Reps s l) :
    s.count = l.length ∧ s.isEmpty = l.isEmpty ∧ top s = l.head? ∧ (∀ i, i < l.length → at' s i = l[i]?) ∧ iterate s = some l := by
  have hat : ∀ i, i < l.length → at' s i = l[i]? := by
    intro i hi
    unfold at'
    rw [h.sp]
    exact reps_cell h.cells hi
  refine ⟨h.sp, ?_, ?_, hat, ?_⟩
  · unfold Stack.isEmpty
    rw [h.sp]
    cases l with
    | nil => rfl
    | cons a r =>
      simp only [List.length_cons, List.isEmpty_cons, beq_eq_false_iff_ne]
      omega
  · unfold top
    rw [h.sp]
    cases l with
    | nil => rfl
    | cons a r =>
      have := reps_cell h.cells (i := 0) (by simp)
      rw [show ((a :: r).length : Int) - 1 = ((a :: r).length : Int) - 1 - (0 : Nat) by omega, this]
      rfl
  · unfold iterate
    rw [h.sp, Int.toNat_natCast]
    have : (List.range l.length).map (fun i => at' s i) = l.map some := by
      apply List.ext_getElem?
      intro i
      by_cases hi : i < l.length
      · rw [List.getElem?_map, List.getElem?_range hi, Option.map_some, hat i hi, List.getElem?_map, List.getElem?_eq_getElem hi]
        rfl
      · rw [List.getElem?_eq_none (by simp; omega), List.getElem?_eq_none (by simp; omega)]
    rw [this]
    clear this hat h
    induction l with
    | nil => rfl
    | cons a r ih =>
      rw [List.map_cons, List.mapM_cons, ih]
      rfl

private theorem reps_push {s : Stack α} {l : List α} (h : Reps s l) (v : α) (hl : l.length < 2 ^ 29) : ∃ s', push s v = some s' ∧ Reps s' (v :: l) := by
  have hsp := h.sp
  have h1 := h.fits
  have h2 := h.room
  have hb : l.length < s.buf.length := by omega
  have hset : (s.buf.set l.length (some v)).take (l.length + 1) = (v :: l).reverse.map some := by
    rw [List.reverse_cons, List.map_append, ← h.cells]
    apply List.ext_getElem?
    intro i
    rw [List.getElem?_take]
    by_cases hi : i < l.length
    · rw [if_pos (by omega), List.getElem?_set, if_neg (by omega), List.getElem?_append_left (by simp; omega), List.getElem?_take, if_pos hi]
    · by_cases hi' : i = l.length
      · subst hi'
        rw [if_pos (by omega), List.getElem?_set, if_pos rfl, if_pos hb, List.getElem?_append_right (by simp; omega)]
        simp [show min l.length s.buf.length = l.length by omega]
      · rw [if_neg (by omega), List.getElem?_eq_none]
        simp
        omega
  unfold push
  rw [hsp, Int.toNat_natCast, if_neg (by omega)]
  dsimp only
  by_cases hg : (l.length : Int) + 1 ≥ (s.size : Int)
  · have hsz : s.size = l.length + 1 := by omega
    rw [if_pos hg, if_neg (by rw [List.length_set]; omega)]
    refine ⟨_, rfl, ?_, ?_, ?_, ?_, ?_⟩
    · dsimp only; omega
    · dsimp only
      rw [List.length_append, List.length_take, List.length_set, List.length_replicate]
      omega
    · dsimp only; rw [List.length_cons]; omega
    · dsimp only; rw [List.length_cons]; omega
    · dsimp only
      rw [List.length_cons, List.take_append_of_le_length (by rw [List.length_take, List.length_set]; omega), List.take_take,
        show min (l.length + 1) s.size = l.length + 1 by omega]
      exact hset
  · rw [if_neg hg]
    refine ⟨_, rfl, h.small, ?_, ?_, ?_, ?_⟩
    · dsimp only; rw [List.length_set]; exact h1
    · dsimp only; rw [List.length_cons]; omega
    · dsimp only; rw [List.length_cons]; omega
    · exact hset

private theorem reps_pop {s : Stack α} {l : List α} (h : Reps s l) {n : Nat} (hn : n ≤ l.length) : Reps (pop s n) (l.drop n) := by
  have h2 := h.room
  refine ⟨h.small, h.fits, ?_, ?_, ?_⟩
  · show s.sp - n = _
    rw [h.sp, List.length_drop]
    omega
  · show (l.drop n).length < s.size
    rw [List.length_drop]
    omega
  · show s.buf.take (l.drop n).length = _
    rw [List.length_drop, List.reverse_drop, List.map_take, ← h.cells, List.take_take, show min (l.length - n) l.length = l.length - n by omega]

private theorem reps_reset {s : Stack α} {l : List α} (h : Reps s l) : Reps (reset s) [] := by
  have h2 := h.room
  exact ⟨h.small, h.fits, rfl, by show 0 < s.size; omega, by simp⟩

private theorem reps_assign {s rhs : Stack α} {l l' : List α} (h : Reps s l) (hr : Reps rhs l') : ∃ s', assign s rhs = some s' ∧ Reps s' l' := by
  have a1 := hr.fits
  have a2 := hr.room
  have a3 := h.fits
  unfold assign
  dsimp only
  rw [hr.sp, Int.toNat_natCast]
  obtain ⟨b, hb⟩ : ∃ b, b = (if s.size < rhs.size then List.replicate rhs.size none else s.buf) := ⟨_, rfl⟩
  rw [← hb]
  have hlen : rhs.size ≤ b.length := by
    rw [hb]
    split
    · simp
    · omega
  unfold copyCells
  rw [if_neg (by omega)]
  refine ⟨_, rfl, hr.small, ?_, rfl, a2, ?_⟩
  · dsimp only
    rw [List.length_append, List.length_take, List.length_drop]
    omega
  · dsimp only
    rw [List.take_append_of_le_length (by rw [List.length_take]; omega), List.take_take, Nat.min_self]
    exact hr.cells

/-- C44: a new stack with a positive chunk stands for the empty list. -/
theorem C44_new (chunk : Nat) (h : 0 < chunk) (hm : chunk ≤ 2 ^ 30) : Reps (make chunk : Stack α) [] :=
  ⟨hm, by simp [make], rfl, h, by simp⟩

/-- C44: every sequence of operations a list can do is done by the stack, never leaving the buffer, whenever it grows; and whatever
the stack does stands for what the list does. -/
theorem C44_lifo {s : Stack α} {l : List α} (h : Reps s l) (os : List (StackOp α)) (l' : List α) (hs : specRun l os = some l') :
    (∃ s', StackRun s os s') ∧ ∀ s', StackRun s os s' → Reps s' l' := by
  induction os generalizing s l with
  | nil =>
    cases hs
    exact ⟨⟨s, .nil s⟩, fun s' hr => by cases hr; exact h⟩
  | cons o os ih =>
    rw [specRun] at hs
    cases o with
    | push v =>
      by_cases hl : l.length < 2 ^ 29
      · rw [specStep, if_pos hl, Option.bind_some] at hs
        obtain ⟨s1, e1, r1⟩ := reps_push h v hl
        obtain ⟨⟨s2, r2⟩, r3⟩ := ih r1 hs
        refine ⟨⟨s2, .push e1 r2⟩, fun s' hr => ?_⟩
        cases hr with
        | push e1' r2' =>
          rw [e1] at e1'
          cases e1'
          exact r3 _ r2'
      · rw [specStep, if_neg hl] at hs
        cases hs
    | pop n =>
      by_cases hn : n ≤ l.length
      · rw [specStep, if_pos hn, Option.bind_some] at hs
        obtain ⟨⟨s2, r2⟩, r3⟩ := ih (reps_pop h hn) hs
        refine ⟨⟨s2, .pop r2⟩, fun s' hr => ?_⟩
        cases hr with
        | pop r2' => exact r3 _ r2'
      · rw [specStep, if_neg hn] at hs
        cases hs
    | reset =>
      rw [specStep, Option.bind_some] at hs
      obtain ⟨⟨s2, r2⟩, r3⟩ := ih (reps_reset h) hs
      refine ⟨⟨s2, .reset r2⟩, fun s' hr => ?_⟩
      cases hr with
      | reset r2' => exact r3 _ r2'
    | assign l0 =>
      have hsz : l0.length < 2 ^ 30 := by
        by_cases hsz : l0.length < 2 ^ 30
        · exact hsz
        · rw [specStep, if_neg hsz] at hs
          cases hs
      rw [specStep, if_pos hsz, Option.bind_some] at hs
      refine ⟨?_, fun s' hr => ?_⟩
      · -- a source standing for the list: built by pushing
        have hex : ∃ rhs : Stack α, Reps rhs l0 := by
          exact ⟨⟨l0.reverse.map some ++ [none], l0.length + 1, l0.length⟩, hsz, by simp, rfl, by dsimp only; omega, by
            dsimp only
            rw [List.take_append_of_le_length (by simp)]
            exact List.take_of_length_le (by simp)⟩
        obtain ⟨rhs, hr⟩ := hex
        obtain ⟨s1, e1, r1⟩ := reps_assign h hr
        obtain ⟨⟨s2, r2⟩, _⟩ := ih r1 hs
        exact ⟨s2, .assign hr e1 r2⟩
      · cases hr with
        | assign hr e1 r2 =>
          obtain ⟨s1, e1', r1⟩ := reps_assign h hr
          rw [e1] at e1'
          cases e1'
          exact (ih r1 hs).2 _ r2

/-- C44: copies and moves stand for the same list. -/
theorem C44_copy_move {s : Stack α} {l : List α} (h : Reps s l) : (∃ s', copy s = some s' ∧ Reps s' l) ∧ Reps (moveOut s).1 l := by
  refine ⟨?_, h⟩
  have a1 := h.fits
  have a2 := h.room
  unfold copy copyCells
  rw [h.sp, Int.toNat_natCast, if_neg (by rw [List.length_replicate]; omega)]
  refine ⟨_, rfl, h.small, ?_, rfl, a2, ?_⟩
  · dsimp only
    rw [List.length_append, List.length_take, List.length_drop, List.length_replicate]
    omega
  · dsimp only
    rw [List.take_append_of_le_length (by rw [List.length_take]; omega), List.take_take, Nat.min_self]
    exact h.cells

/-- C44, not so: `TopAndPop` reads the cell above the top: after pushing 1 and 2 and popping the 2, it returns the popped 2 and not the
1 on top; on a stack that has only been pushed to, it reads a cell never written. -/
theorem C44_top_and_pop_violated : (∃ s1 s2 s3 : Stack Nat, push (make 4) 1 = some s1 ∧ push s1 2 = some s2 ∧ pop s2 1 = s3 ∧ Reps s3 [1] ∧
      (topAndPop s3).map Prod.fst = some 2) ∧
    ∃ s1 : Stack Nat, push (make 4) 1 = some s1 ∧ Reps s1 [1] ∧ topAndPop s1 = none :=
  ⟨⟨_, _, _, rfl, rfl, rfl, ⟨by decide, by decide, rfl, by decide, rfl⟩, rfl⟩, _, rfl, ⟨by decide, by decide, rfl, by decide, rfl⟩, rfl⟩

/-- C44, not so: pushing onto a stack after `Clear`, onto one made with chunk 0, or onto one that has been moved from writes through
a null pointer. -/
theorem C44_push_after_clear_violated (s : Stack α) (v : α) :
    push (clear s) v = none ∧ push (make 0 : Stack α) v = none ∧ push (moveOut s).2 v = none := ⟨rfl, rfl, rfl⟩

/-- C44, not so: after assigning from a cleared stack, the buffer is still there and the capacity 0, so the first push loses its element. -/
theorem C44_assign_cleared_violated : ∃ s s' : Stack Nat, assign (make 4) (clear (make 4)) = some s ∧ push s 7 = some s' ∧ s'.count = 1 ∧ top s' = none :=
  ⟨_, _, rfl, rfl, rfl, rfl⟩

/-! ### The fixed stack -/

/-- A fixed stack stands for a list, the head being the top. -/
structure StaticReps (n : Nat) (s : Static α) (l : List α) : Prop where
  len : s.buf.length = n
  fits : l.length ≤ n
  sp : s.sp = l.length - 1
  cells : s.buf.take l.length = l.reverse.map some

/-- C44: the fixed stack starts empty, and as long as it holds at most its size: pushing puts on top, `TopAndPop` and `Pop` take from the
top, `PopAndTop` drops the top and shows the next, and the size, the top and all elements are those of the list. -/
theorem C44_static {n : Nat} {s : Static α} {l : List α} (h : StaticReps n s l) :
    StaticReps n (Static.make n : Static α) [] ∧
    (∀ v, l.length < n → ∃ s', Static.push s v = some s' ∧ StaticReps n s' (v :: l)) ∧
    (∀ a r, l = a :: r → ∃ s', Static.topAndPop s = some (a, s') ∧ StaticReps n s' r) ∧
    (∀ a b r, l = a :: b :: r → ∃ s', Static.popAndTop s = some (b, s') ∧ StaticReps n s' (b :: r)) ∧
    (∀ k, k ≤ l.length → StaticReps n (Static.pop s k) (l.drop k)) ∧ StaticReps n (Static.reset s) [] ∧
    s.count = l.length ∧ s.isEmpty = l.isEmpty ∧ Static.top s = l.head? ∧ ∀ i, i < l.length → Static.at' s i = l[i]? := by
  have h1 := h.len
  have h2 := h.fits
  have hat : ∀ i, i < l.length → Static.at' s i = l[i]? := by
    intro i hi
    unfold Static.at'
    rw [h.sp]
    exact reps_cell h.cells hi
  have hpop : ∀ k, k ≤ l.length → StaticReps n (Static.pop s k) (l.drop k) := by
    intro k hk
    refine ⟨h.len, by rw [List.length_drop]; omega, ?_, ?_⟩
    · show s.sp - k = _
      rw [h.sp, List.length_drop]
      omega
    · show s.buf.take (l.drop k).length = _
      rw [List.length_drop, List.reverse_drop, List.map_take, ← h.cells, List.take_take, show min (l.length - k) l.length = l.length - k by omega]
  refine ⟨⟨by simp [Static.make], by simp, rfl, by simp⟩, ?_, ?_, ?_, hpop, ⟨h.len, by simp, rfl, by simp⟩, ?_, ?_, ?_, hat⟩
  · intro v hl
    unfold Static.push
    rw [h.sp, if_neg (by omega), show ((l.length : Int) - 1 + 1).toNat = l.length by omega]
    refine ⟨_, rfl, ?_, ?_, ?_, ?_⟩
    · dsimp only; rw [List.length_set]; exact h1
    · rw [List.length_cons]; exact hl
    · dsimp only; rw [List.length_cons]; omega
    · dsimp only
      rw [List.length_cons, List.reverse_cons, List.map_append, ← h.cells]
      apply List.ext_getElem?
      intro i
      rw [List.getElem?_take]
      by_cases hi : i < l.length
      · rw [if_pos (by omega), List.getElem?_set, if_neg (by omega), List.getElem?_append_left (by simp; omega), List.getElem?_take, if_pos hi]
      · by_cases hi' : i = l.length
        · subst hi'
          rw [if_pos (by omega), List.getElem?_set, if_pos rfl, if_pos (by omega), List.getElem?_append_right (by simp; omega)]
          simp [show min l.length s.buf.length = l.length by omega]
        · rw [if_neg (by omega), List.getElem?_eq_none]
          simp
          omega
  · rintro a r rfl
    refine ⟨Static.pop s 1, ?_, by simpa using hpop 1 (by simp)⟩
    have := hat 0 (by simp)
    unfold Static.at' at this
    unfold Static.topAndPop
    rw [show s.sp = s.sp - (0 : Nat) by omega, this]
    simp [Static.pop]
  · rintro a b r rfl
    refine ⟨Static.pop s 1, ?_, by simpa using hpop 1 (by simp)⟩
    have := hat 1 (by simp)
    unfold Static.at' at this
    unfold Static.popAndTop
    rw [show s.sp - 1 = s.sp - (1 : Nat) by omega, this]
    simp [Static.pop]
  · show s.sp + 1 = _
    rw [h.sp]
    omega
  · unfold Static.isEmpty
    rw [h.sp]
    cases l with
    | nil => rfl
    | cons a r =>
      simp only [List.length_cons, List.isEmpty_cons, decide_eq_false_iff_not]
      omega
  · unfold Static.top
    cases l with
    | nil => rw [h.sp]; rfl
    | cons a r =>
      have := hat 0 (by simp)
      unfold Static.at' at this
      rw [show s.sp = s.sp - (0 : Nat) by omega, this]
      rfl

/-- C44, not so: the fixed stack has no check: one push more than its size writes past its array. -/
theorem C44_static_overflow_violated {n : Nat} {s : Static α} {l : List α} (h : StaticReps n s l) (hl : l.length = n) (v : α) : Static.push s v = none := by
  have h1 := h.len
  unfold Static.push
  rw [h.sp, if_pos (by omega)]

/-! ### The hypotheses hold -/

example : specRun [] [.push 1, .push 2, .push 3, .pop 1, .assign [7, 8], .push (4 : Nat)] = some [4, 7, 8] := by decide
example : ∃ s1 s2 s3 : Stack Nat, push (make 1) 1 = some s1 ∧ push s1 2 = some s2 ∧ push s2 3 = some s3 ∧ Reps s3 [3, 2, 1] ∧ s3.size = 4 :=
  ⟨_, _, _, rfl, rfl, rfl, ⟨by decide, by decide, rfl, by decide, rfl⟩, rfl⟩
example : ∃ s : Static Nat, Static.push (Static.make 2) 5 = some s ∧ StaticReps 2 s [5] := ⟨_, rfl, rfl, by decide, rfl, rfl⟩

end Dal
