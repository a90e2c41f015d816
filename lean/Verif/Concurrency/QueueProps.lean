import Verif.Concurrency.QueueModel

/-! # C36: the work queue -/

namespace Dal

open Dal.Queue

variable {α : Type}

private theorem count_set {p : Pc → Bool} : ∀ {l : List Pc} {t : Nat} {a : Pc} (b : Pc), l[t]? = some a →
    (l.set t b).countP p + (if p a then 1 else 0) = l.countP p + (if p b then 1 else 0) := by
  intro l
  induction l with
  | nil => intro t a b h; simp at h
  | cons x l ih =>
    intro t a b h
    cases t with
    | zero =>
      simp only [List.getElem?_cons_zero, Option.some.injEq] at h
      subst h
      simp only [List.set_cons_zero, List.countP_cons]
      omega
    | succ t =>
      simp only [List.getElem?_cons_succ] at h
      have := ih b h
      simp only [List.set_cons_succ, List.countP_cons]
      omega

private theorem countP_zero_of_wake (l : List Pc) : (l.map wake).countP (· = .waiting) = 0 := by
  induction l with
  | nil => rfl
  | cons x l ih =>
    rw [List.map_cons, List.countP_cons, ih]
    cases x <;> decide

/-- The run so far. -/
private structure Inv (s : State α) : Prop where
  fifo : s.popped ++ s.queue = s.pushed
  told : s.interrupt = true → Pc.waiting ∈ s.pcs → Pc.notifyAll ∈ s.pcs
  nolost : s.interrupt = false → Pc.waiting ∈ s.pcs →
    s.queue.length ≤ s.pcs.countP (fun p => p = .notifyOne || p = .checking)
  results : s.results.filterMap (·.2) = s.popped

private theorem mem_set_of {l : List Pc} {t : Nat} {a b c : Pc} (h : l[t]? = some a) (hc : c ∈ l) (hne : c ≠ a) : c ∈ l.set t b := by
  obtain ⟨i, hi, rfl⟩ := List.mem_iff_getElem.1 hc
  by_cases hit : i = t
  · subst hit
    rw [List.getElem?_eq_getElem hi] at h
    exact absurd (Option.some.inj h) hne
  · refine List.mem_iff_getElem.2 ⟨i, by simpa using hi, ?_⟩
    rw [List.getElem_set_ne (fun h => hit h.symm)]

private theorem mem_of_set {l : List Pc} {t : Nat} {b c : Pc} (hc : c ∈ l.set t b) (hne : c ≠ b) : c ∈ l := by
  rcases List.mem_or_eq_of_mem_set hc with h | h
  · exact h
  · exact absurd h hne

private theorem mem_set_self {l : List Pc} {t : Nat} {a b : Pc} (h : l[t]? = some a) : b ∈ l.set t b := by
  obtain ⟨hi, _⟩ := List.getElem?_eq_some_iff.1 h
  exact List.mem_iff_getElem.2 ⟨t, by simpa using hi, by simp⟩

private theorem count_self {l : List Pc} {t : Nat} {a : Pc} (p : Pc → Bool) (h : l[t]? = some a) (hp : p a = true) : 1 ≤ l.countP p :=
  List.countP_pos_iff.2 ⟨a, List.mem_of_getElem? h, hp⟩

private theorem Inv.take {s : State α} {t : Nat} {a : Pc} (h : Inv s) (ht : s.pcs[t]? = some a) (ha : a = .idle ∨ a = .checking)
    (hi : s.interrupt = false ∨ a = .idle) : Inv (s.take t) := by
  unfold State.take
  split
  · exact h
  · next x q hq =>
    have hs := count_set (p := fun p => p = .notifyOne || p = .checking) .idle ht
    refine ⟨?_, ?_, ?_, ?_⟩
    · have := h.fifo
      rw [hq] at this
      simpa using this
    · intro h1 h2
      have := h.told h1 (mem_of_set h2 (by decide))
      rcases ha with rfl | rfl
      · exact mem_set_of ht this (by decide)
      · exact mem_set_of ht this (by decide)
    · intro h1 h2
      have := h.nolost h1 (mem_of_set h2 (by decide))
      rw [hq, List.length_cons] at this
      rcases ha with rfl | rfl
      · simp only [reduceCtorEq, decide_false, Bool.or_self, Bool.false_eq_true, if_false, Nat.add_zero] at hs
        show q.length ≤ (s.pcs.set t .idle).countP _
        omega
      · simp only [reduceCtorEq, decide_false, Bool.or_self, Bool.false_eq_true, if_false, Nat.add_zero, decide_true, Bool.or_true, if_true] at hs
        show q.length ≤ (s.pcs.set t .idle).countP _
        omega
    · simp [List.filterMap_append, h.results]

private theorem Inv.step {s s' : State α} {t : Nat} {a : Act α} (h : Inv s) (hst : Queue.step s t a = some s') : Inv s' := by
  unfold Queue.step at hst
  split at hst
  · next ht =>
    split at hst
    · injection hst with hst
      subst hst
      exact ⟨h.fifo, h.told, h.nolost, by simp [List.filterMap_append, h.results]⟩
    · injection hst with hst
      subst hst
      exact h.take ht (Or.inl rfl) (Or.inr rfl)
  · next x ht =>
    injection hst with hst
    subst hst
    refine ⟨?_, ?_, ?_, h.results⟩
    · show s.popped ++ (s.queue ++ [x]) = s.pushed ++ [x]
      rw [← List.append_assoc, h.fifo]
    · intro h1 h2
      exact mem_set_of ht (h.told h1 (mem_of_set h2 (by decide))) (by decide)
    · intro h1 h2
      have h3 := h.nolost h1 (mem_of_set h2 (by decide))
      have hs := count_set (p := fun p => p = .notifyOne || p = .checking) .notifyOne ht
      simp only [reduceCtorEq, decide_false, Bool.or_self, Bool.false_eq_true, if_false, Nat.add_zero, decide_true, Bool.true_or, if_true] at hs
      show (s.queue ++ [x]).length ≤ (s.pcs.set t .notifyOne).countP _
      rw [List.length_append, List.length_singleton]
      omega
  · next w ht =>
    split at hst
    · next hw =>
      injection hst with hst
      subst hst
      have hne : w ≠ t := fun hwt => by
        subst hwt
        rw [ht] at hw
        cases hw
      have ht' : (s.pcs.set w .checking)[t]? = some .notifyOne := by
        rw [List.getElem?_set_ne hne]
        exact ht
      refine ⟨h.fifo, ?_, ?_, h.results⟩
      · intro h1 h2
        have h3 : Pc.waiting ∈ s.pcs := List.mem_of_getElem? hw
        exact mem_set_of ht' (mem_set_of hw (h.told h1 h3) (by decide)) (by decide)
      · intro h1 h2
        have h3 := h.nolost h1 (List.mem_of_getElem? hw)
        have hs1 := count_set (p := fun p => p = .notifyOne || p = .checking) .checking hw
        have hs2 := count_set (p := fun p => p = .notifyOne || p = .checking) .idle ht'
        simp only [reduceCtorEq, decide_false, Bool.or_self, Bool.false_eq_true, if_false, Nat.add_zero, decide_true, Bool.true_or,
          Bool.or_true, if_true] at hs1 hs2
        show s.queue.length ≤ ((s.pcs.set w .checking).set t .idle).countP _
        omega
    · cases hst
  · next ht =>
    split at hst
    · cases hst
    · next hw =>
      injection hst with hst
      subst hst
      refine ⟨h.fifo, ?_, ?_, h.results⟩
      · intro h1 h2
        exact absurd (mem_of_set h2 (by decide)) hw
      · intro h1 h2
        exact absurd (mem_of_set h2 (by decide)) hw
  · next ht =>
    injection hst with hst
    subst hst
    refine ⟨h.fifo, ?_, ?_, h.results⟩
    · intro h1 h2
      exact mem_set_of ht (h.told h1 (mem_of_set h2 (by decide))) (by decide)
    · intro h1 h2
      have h3 := h.nolost h1 (mem_of_set h2 (by decide))
      have hs := count_set (p := fun p => p = .notifyOne || p = .checking) .checking ht
      simp only [reduceCtorEq, decide_false, Bool.or_self, Bool.false_eq_true, if_false, Nat.add_zero, decide_true, Bool.or_true, if_true] at hs
      show s.queue.length ≤ (s.pcs.set t .checking).countP _
      omega
  · next ht =>
    split at hst
    · next hc =>
      injection hst with hst
      subst hst
      simp only [Bool.and_eq_true, Bool.not_eq_true', List.isEmpty_iff] at hc
      refine ⟨h.fifo, ?_, ?_, h.results⟩
      · intro h1
        exact absurd h1 (by simp [State.go, hc.1])
      · intro _ _
        simp [State.go, hc.2]
    · split at hst
      · next hi =>
        injection hst with hst
        subst hst
        refine ⟨h.fifo, ?_, ?_, by simp [List.filterMap_append, State.go, h.results]⟩
        · intro h1 h2
          exact mem_set_of ht (h.told h1 (mem_of_set h2 (by decide))) (by decide)
        · intro h1
          exact absurd h1 (by simp [State.go, hi])
      · next hi =>
        injection hst with hst
        subst hst
        exact h.take ht (Or.inr rfl) (Or.inl (by simpa using hi))
  · next ht =>
    injection hst with hst
    subst hst
    refine ⟨h.fifo, ?_, ?_, h.results⟩
    · intro h1 h2
      exact mem_set_of ht (h.told h1 (mem_of_set h2 (by decide))) (by decide)
    · intro h1 h2
      have h3 := h.nolost h1 (mem_of_set h2 (by decide))
      have hs := count_set (p := fun p => p = .notifyOne || p = .checking) .checking ht
      simp only [reduceCtorEq, decide_false, Bool.or_self, Bool.false_eq_true, if_false, Nat.add_zero, decide_true, Bool.or_true, if_true] at hs
      show s.queue.length ≤ (s.pcs.set t .checking).countP _
      omega
  · next ht =>
    injection hst with hst
    subst hst
    refine ⟨h.fifo, ?_, ?_, h.results⟩
    · intro _ _
      exact mem_set_self ht
    · intro h1
      cases h1
  · next ht =>
    injection hst with hst
    subst hst
    have hno : Pc.waiting ∉ (s.pcs.map wake).set t .idle := by
      intro hm
      have h1 := mem_of_set hm (by decide)
      have h2 := List.countP_eq_zero.1 (countP_zero_of_wake s.pcs) _ h1
      simp at h2
    exact ⟨h.fifo, fun _ h2 => absurd h2 hno, fun _ h2 => absurd h2 hno, h.results⟩
  · cases hst

private theorem Inv.run {s s' : State α} (h : Inv s) {as : List (Nat × Act α)} (hr : Queue.run s as = some s') : Inv s' := by
  induction as generalizing s with
  | nil =>
    injection hr with hr
    subst hr
    exact h
  | cons a as ih =>
    obtain ⟨t, a⟩ := a
    rw [Queue.run] at hr
    cases hs : Queue.step s t a with
    | none => rw [hs] at hr; cases hr
    | some s1 =>
      rw [hs] at hr
      exact ih (h.step hs) hr

private theorem inv_init (n : Nat) : Inv (init (α := α) n) := by
  refine ⟨rfl, ?_, ?_, rfl⟩
  · intro h
    cases h
  · intro _ _
    exact Nat.zero_le _

private theorem reach {n : Nat} {as : List (Nat × Act α)} {s : State α} (h : run (init n) as = some s) : Inv s := (inv_init n).run h

/-- C36: whatever the threads and the interleaving, the items popped so far are the first items pushed, in the order they were
pushed, and the queue holds the rest: nothing is lost, invented, repeated or reordered. -/
theorem C36_fifo (n : Nat) (as : List (Nat × Act α)) (s : State α) (h : run (init n) as = some s) :
    s.pushed = s.popped ++ s.queue := (reach h).fifo.symm

/-- C36: the items handed to consumers by `Pop` and `TryPop`, over all threads in order, are exactly the items popped. -/
theorem C36_delivered (n : Nat) (as : List (Nat × Act α)) (s : State α) (h : run (init n) as = some s) :
    s.results.filterMap (·.2) = s.popped := (reach h).results

/-- C36: when items are distinguishable, no item is delivered twice. -/
theorem C36_once (n : Nat) (as : List (Nat × Act α)) (s : State α) (h : run (init n) as = some s) (hd : s.pushed.Nodup) :
    (s.results.filterMap (·.2)).Nodup := by
  rw [C36_delivered n as s h]
  rw [C36_fifo n as s h] at hd
  exact (List.nodup_append.1 hd).1

/-- C36: once an interrupting thread has returned (no notification pending), no consumer sleeps. -/
theorem C36_interrupt_wakes (n : Nat) (as : List (Nat × Act α)) (s : State α) (h : run (init n) as = some s) (hi : s.interrupt = true)
    (hn : Pc.notifyAll ∉ s.pcs) : Pc.waiting ∉ s.pcs :=
  fun hw => hn ((reach h).told hi hw)

/-- C36: and every consumer then inside `Pop` returns with `false` at its next step, without touching the queue. -/
theorem C36_interrupt_returns (n : Nat) (as : List (Nat × Act α)) (s : State α) (_h : run (init n) as = some s) (hi : s.interrupt = true)
    (t : Nat) (ht : s.pcs[t]? = some .checking) :
    ∃ s', step s t .check = some s' ∧ s'.pcs[t]? = some .idle ∧ s'.results = s.results ++ [(t, none)] ∧ s'.queue = s.queue := by
  have hlt : t < s.pcs.length := (List.getElem?_eq_some_iff.1 ht).1
  refine ⟨{ s.go t .idle with results := s.results ++ [(t, none)] }, ?_, ?_, rfl, rfl⟩
  · simp [step, ht, hi]
  · simp [State.go, hlt]

/-- C36: no wake-up is lost: while some consumer sleeps and no interrupt was made, every item in the queue has a thread of its own
on the way, a producer about to notify or a consumer about to look. -/
theorem C36_no_lost_wakeup (n : Nat) (as : List (Nat × Act α)) (s : State α) (h : run (init n) as = some s) (hi : s.interrupt = false)
    (hw : Pc.waiting ∈ s.pcs) : s.queue.length ≤ s.pcs.countP (fun p => p = .notifyOne || p = .checking) :=
  (reach h).nolost hi hw

/-- C36: so nobody sleeps beside a non-empty queue when all the other threads are outside the queue. -/
theorem C36_no_deadlock (n : Nat) (as : List (Nat × Act α)) (s : State α) (h : run (init n) as = some s) (hi : s.interrupt = false)
    (hq : ∀ p ∈ s.pcs, p = .idle ∨ p = .waiting) (hne : s.queue ≠ []) : Pc.waiting ∉ s.pcs := by
  intro hw
  have h1 := C36_no_lost_wakeup n as s h hi hw
  have h2 : s.pcs.countP (fun p => p = .notifyOne || p = .checking) = 0 := by
    rw [List.countP_eq_zero]
    intro p hp
    rcases hq p hp with rfl | rfl <;> decide
  rw [h2] at h1
  exact hne (List.length_eq_zero_iff.1 (Nat.le_zero.1 h1))

/-- C36: a consumer that looks at a non-empty queue without interrupt gets its first item. -/
theorem C36_pop_gets (s : State α) (t : Nat) (ht : s.pcs[t]? = some .checking) (hi : s.interrupt = false) (x : α) (q : List α)
    (hq : s.queue = x :: q) : ∃ s', step s t .check = some s' ∧ s'.results = s.results ++ [(t, some x)] ∧ s'.queue = q := by
  refine ⟨s.take t, ?_, ?_, ?_⟩
  · simp [step, ht, hi, hq]
  · simp [State.take, hq]
  · simp [State.take, hq]

/-- C36, not so: an interrupt does not only end waits, it keeps items from being popped although the queue is not empty, until
`ResetInterrupt`; `TryPop` still takes them. -/
theorem C36_interrupt_hides_violated (x : α) :
    ∃ as, ∃ s, run (init (α := α) 1) as = some s ∧ s.queue = [x] ∧ s.results = [(0, none)] ∧
      (∃ s', step s 0 .tryPop = some s' ∧ s'.queue = []) :=
  ⟨[(0, .push x), (0, .wakeOne none), (0, .interrupt), (0, .wakeAll), (0, .pop), (0, .check)], _, rfl, rfl, rfl, _, rfl, rfl⟩

/-- C36: after `Clear` the queue is empty whatever was in it, `TryPop` gets nothing, and the next item to be pushed is the next to be popped; after
`ResetInterrupt` a consumer gets the first of the items that an interrupt kept from it. -/
theorem C36_clear_reset (s : State α) (t : Nat) (ht : s.pcs[t]? = some .idle) (x : α) (q : List α) :
    Queue.isEmpty (clear s) = true ∧
    (∃ s', step (clear s) t .tryPop = some s' ∧ s'.results = s.results ++ [(t, none)]) ∧
    (∀ s', step (clear s) t (.push x) = some s' → s'.queue = [x] ∧ s'.pcs.length = s.pcs.length) ∧
    (s.queue = x :: q → ∃ s', run (reset s) [(t, .pop), (t, .check)] = some s' ∧ s'.results = s.results ++ [(t, some x)] ∧ s'.queue = q) := by
  have hl : t < s.pcs.length := (List.getElem?_eq_some_iff.1 ht).1
  refine ⟨rfl, ?_, ?_, ?_⟩
  · exact ⟨{ clear s with results := s.results ++ [(t, none)] }, by simp [step, clear, ht], rfl⟩
  · intro s' h
    simp only [step, clear, ht, Option.some.injEq] at h
    subst h
    simp [State.go]
  · intro hq
    refine ⟨State.take ((reset s).go t .checking) t, ?_, ?_, ?_⟩
    · have h1 : step (reset s) t .pop = some ((reset s).go t .checking) := by simp [step, reset, ht]
      have h2 : ((reset s).go t .checking).pcs[t]? = some .checking := by simp [State.go, reset, hl]
      have h3 : step ((reset s).go t .checking) t .check = some (((reset s).go t .checking).take t) := by
        simp only [step, h2]
        simp [State.go, reset, hq]
      simp only [run, h1, Option.bind_some, h3]
    · simp [State.take, State.go, reset, hq]
    · simp [State.take, State.go, reset, hq]

/-- Is a thread inside `Pop`? -/
private def inPop : Option Pc → Nat
  | some .checking => 1
  | some .waiting => 1
  | _ => 0

private theorem inPop_set {l : List Pc} {t u : Nat} {a : Pc} (b : Pc) (h : l[t]? = some a) :
    inPop (l.set t b)[u]? = if u = t then inPop (some b) else inPop l[u]? := by
  have hl : t < l.length := (List.getElem?_eq_some_iff.1 h).1
  by_cases hu : u = t
  · subst hu
    rw [if_pos rfl, List.getElem?_set_self hl]
  · rw [if_neg hu, List.getElem?_set_ne (fun e => hu e.symm)]

private theorem inPop_wake (l : List Pc) (u : Nat) : inPop (l.map wake)[u]? = inPop l[u]? := by
  rw [List.getElem?_map]
  cases l[u]? with
  | none => rfl
  | some p => cases p <;> rfl

/-- Is an action a call of `Pop` or `TryPop`? -/
def isCall : Act α → Bool
  | .tryPop => true
  | .pop => true
  | _ => false

private theorem answers_step (s s' : State α) (t u : Nat) (a : Act α) (h : step s t a = some s') :
    s.results.countP (·.1 = u) + inPop s.pcs[u]? + (if t = u ∧ isCall a = true then 1 else 0) = s'.results.countP (·.1 = u) + inPop s'.pcs[u]? := by
  have swap : (u = t) = (t = u) := propext eq_comm
  cases hp : s.pcs[t]? with
  | none => simp [step, hp] at h
  | some p =>
    have hu : t = u → inPop s.pcs[u]? = inPop (some p) := by rintro rfl; rw [hp]
    have hd : t = u → inPop s.pcs[u]? = inPop (some p) := hu
    cases p <;> cases a with
    | tryPop => first
      | (simp only [step, hp] at h; cases h; done)
      | (simp only [step, hp] at h
         cases hq : s.queue with
         | nil =>
           simp only [hq, Option.some.injEq] at h
           subst h
           by_cases e : t = u <;> simp [isCall, e, List.countP_append] <;> omega
         | cons x q =>
           simp only [hq, Option.some.injEq] at h
           subst h
           simp only [State.take, hq, inPop_set _ hp, swap]
           by_cases e : t = u
           · have := hu e
             simp [isCall, e, List.countP_append, inPop] at this ⊢
             omega
           · simp [isCall, e, List.countP_append])
    | push x => first
      | (simp only [step, hp] at h; cases h; done)
      | (simp only [step, hp, Option.some.injEq] at h
         subst h
         simp only [State.go, inPop_set _ hp, swap]
         by_cases e : t = u
         · have := hu e
           simp [isCall, e, inPop] at this ⊢
           omega
         · simp [isCall, e])
    | wakeOne w => first
      | (simp only [step, hp] at h; cases h; done)
      | (cases w with
         | none =>
           simp only [step, hp] at h
           split at h
           · cases h
           · simp only [Option.some.injEq] at h
             subst h
             simp only [State.go, inPop_set _ hp, swap]
             by_cases e : t = u
             · have := hu e
               simp [isCall, e, inPop] at this ⊢
               omega
             · simp [isCall, e]
         | some w =>
           simp only [step, hp] at h
           split at h
           · rename_i hw
             simp only [Option.some.injEq] at h
             subst h
             have hne : w ≠ t := by
               rintro rfl
               rw [hp] at hw
               cases hw
             have hp' : (s.pcs.set w .checking)[t]? = some .notifyOne := by rw [List.getElem?_set_ne hne]; exact hp
             simp only [State.go, inPop_set _ hp', inPop_set _ hw, swap]
             by_cases e : t = u
             · have := hu e
               simp [isCall, e, inPop] at this ⊢
               omega
             · by_cases e' : u = w
               · subst e'
                 rw [hw]
                 simp [isCall, e, inPop]
               · simp [isCall, e, e']
           · cases h)
    | pop => first
      | (simp only [step, hp] at h; cases h; done)
      | (simp only [step, hp, Option.some.injEq] at h
         subst h
         simp only [State.go, inPop_set _ hp, swap]
         by_cases e : t = u
         · have := hu e
           simp [isCall, e, inPop] at this ⊢
           omega
         · simp [isCall, e])
    | check => first
      | (simp only [step, hp] at h; cases h; done)
      | (simp only [step, hp] at h
         split at h
         · simp only [Option.some.injEq] at h
           subst h
           simp only [State.go, inPop_set _ hp, swap]
           by_cases e : t = u
           · have := hu e
             simp [isCall, e, inPop] at this ⊢
             omega
           · simp [isCall, e]
         · split at h
           · simp only [Option.some.injEq] at h
             subst h
             simp only [State.go, inPop_set _ hp, swap]
             by_cases e : t = u
             · have := hu e
               simp [isCall, e, inPop, List.countP_append] at this ⊢
               omega
             · simp [isCall, e, List.countP_append]
           · rename_i h1 h2
             simp only [Option.some.injEq] at h
             subst h
             cases hq : s.queue with
             | nil => simp [hq] at h1; exact absurd h1 h2
             | cons x q =>
               simp only [State.take, hq, inPop_set _ hp, swap]
               by_cases e : t = u
               · have := hu e
                 simp [isCall, e, List.countP_append, inPop] at this ⊢
                 omega
               · simp [isCall, e, List.countP_append])
    | spurious => first
      | (simp only [step, hp] at h; cases h; done)
      | (simp only [step, hp, Option.some.injEq] at h
         subst h
         simp only [State.go, inPop_set _ hp, swap]
         by_cases e : t = u
         · have := hu e
           simp [isCall, e, inPop] at this ⊢
           omega
         · simp [isCall, e])
    | interrupt => first
      | (simp only [step, hp] at h; cases h; done)
      | (simp only [step, hp, Option.some.injEq] at h
         subst h
         simp only [State.go, inPop_set _ hp, swap]
         by_cases e : t = u
         · have := hu e
           simp [isCall, e, inPop] at this ⊢
           omega
         · simp [isCall, e])
    | wakeAll => first
      | (simp only [step, hp] at h; cases h; done)
      | (simp only [step, hp, Option.some.injEq] at h
         subst h
         have hp' : (s.pcs.map wake)[t]? = some .notifyAll := by rw [List.getElem?_map, hp]; rfl
         simp only [inPop_set _ hp', inPop_wake, swap]
         by_cases e : t = u
         · have := hu e
           simp [isCall, e, inPop] at this ⊢
           omega
         · simp [isCall, e])

/-- C36: every call of `Pop` or `TryPop` is answered exactly once: in every run, the calls of a thread are as many as its answers, and one more exactly
while it is still inside `Pop`, asleep or about to look.  So a woken consumer never leaves without an answer. -/
theorem C36_each_call_answered (n : Nat) (as : List (Nat × Act α)) (s : State α) (h : run (init n) as = some s) (t : Nat) :
    as.countP (fun a => a.1 = t && isCall a.2) = s.results.countP (·.1 = t) +
      (if s.pcs[t]? = some .checking ∨ s.pcs[t]? = some .waiting then 1 else 0) := by
  have key : ∀ (as : List (Nat × Act α)) (s0 s : State α), run s0 as = some s →
      s0.results.countP (·.1 = t) + inPop s0.pcs[t]? + as.countP (fun a => a.1 = t && isCall a.2) = s.results.countP (·.1 = t) + inPop s.pcs[t]? := by
    intro as
    induction as with
    | nil =>
      intro s0 s h
      simp only [run, Option.some.injEq] at h
      subst h
      rfl
    | cons a as ih =>
      intro s0 s h
      obtain ⟨u, a⟩ := a
      rw [run] at h
      cases h1 : step s0 u a with
      | none => rw [h1] at h; cases h
      | some s1 =>
        rw [h1] at h
        have e1 := answers_step s0 s1 u t a h1
        have e2 := ih s1 s h
        rw [List.countP_cons]
        simp only [Bool.and_eq_true, decide_eq_true_eq] at e2 ⊢
        omega
  have e := key as (init n) s h
  have h0 : inPop (init (α := α) n).pcs[t]? = 0 := by
    simp only [init, List.getElem?_replicate]
    split <;> rfl
  rw [h0] at e
  have h1 : inPop s.pcs[t]? = if s.pcs[t]? = some .checking ∨ s.pcs[t]? = some .waiting then 1 else 0 := by
    cases s.pcs[t]? with
    | none => rfl
    | some p => cases p <;> rfl
  rw [← h1, ← e]
  simp [init]

/-! ### The hypotheses hold -/

example : ∃ s, run (init (α := Nat) 2) [(0, .push 7), (0, .wakeOne none), (1, .interrupt), (1, .wakeAll)] = some s ∧
    s.pcs[1]? = some .idle ∧ s.queue = 7 :: [] ∧ s.interrupt = true := ⟨_, rfl, rfl, rfl, rfl⟩


/-- Two consumers sleep, a producer pushes two items, wakes one consumer; a third thread interrupts. -/
example : ∃ s, run (init (α := Nat) 4)
    [(1, .pop), (1, .check), (2, .pop), (2, .check), (0, .push 7), (0, .wakeOne (some 2)), (0, .push 8)] = some s ∧
    s.queue = [7, 8] ∧ Pc.waiting ∈ s.pcs ∧ s.interrupt = false := ⟨_, rfl, rfl, by decide, rfl⟩

example : ∃ s, run (init (α := Nat) 4)
    [(1, .pop), (1, .check), (2, .pop), (3, .interrupt), (3, .wakeAll), (1, .check)] = some s ∧
    s.interrupt = true ∧ Pc.notifyAll ∉ s.pcs ∧ s.pcs[2]? = some .checking := ⟨_, rfl, rfl, by decide, rfl⟩

example : ∃ s, run (init (α := Nat) 3) [(0, .push 7), (0, .wakeOne none), (0, .push 8), (0, .wakeOne none), (1, .pop), (1, .check)] = some s ∧
    s.pushed.Nodup ∧ s.popped = [7] ∧ (∀ p ∈ s.pcs, p = .idle ∨ p = .waiting) ∧ s.queue ≠ [] := ⟨_, rfl, by decide, rfl, by decide, by decide⟩

end Dal
