import Verif.Concurrency.PoolModel

/-! # C37: the thread pool -/

namespace Dal

open Dal.Pool

/-- The task a client runs. -/
private def cRun : Client → Option Nat
  | .running _ x => some x
  | _ => none

/-- The task a client waits for. -/
private def cWait : Client → Option Nat
  | .free => none
  | .look f => some f
  | .try_ f => some f
  | .running f _ => some f
  | .blocked f => some f

private theorem count_filterMap_set {β : Type} (f : β → Option Nat) (x : Nat) : ∀ {l : List β} {t : Nat} {a : β} (b : β), l[t]? = some a →
    ((l.set t b).filterMap f).count x + (f a).toList.count x = (l.filterMap f).count x + (f b).toList.count x := by
  intro l
  induction l with
  | nil => intro t a b h; simp at h
  | cons y l ih =>
    intro t a b h
    cases t with
    | zero =>
      simp only [List.getElem?_cons_zero, Option.some.injEq] at h
      subst h
      simp only [List.set_cons_zero, List.filterMap_cons]
      cases f y <;> cases f b <;> simp [List.count_cons] <;> omega
    | succ t =>
      simp only [List.getElem?_cons_succ] at h
      have := ih b h
      simp only [List.set_cons_succ, List.filterMap_cons]
      cases f y <;> simp only [List.count_cons] <;> omega

private theorem sum_set {β : Type} (f : β → Nat) : ∀ {l : List β} {t : Nat} {a : β} (b : β), l[t]? = some a →
    ((l.set t b).map f).sum + f a = (l.map f).sum + f b := by
  intro l
  induction l with
  | nil => intro t a b h; simp at h
  | cons y l ih =>
    intro t a b h
    cases t with
    | zero =>
      simp only [List.getElem?_cons_zero, Option.some.injEq] at h
      subst h
      simp only [List.set_cons_zero, List.map_cons, List.sum_cons]
      omega
    | succ t =>
      simp only [List.getElem?_cons_succ] at h
      have := ih b h
      simp only [List.set_cons_succ, List.map_cons, List.sum_cons]
      omega

private theorem mem_of_set' {β : Type} {l : List β} {t : Nat} {b c : β} (hc : c ∈ l.set t b) : c ∈ l ∨ c = b :=
  List.mem_or_eq_of_mem_set hc

private structure Inv (s : State) : Prop where
  order : s.started ++ s.queue = List.range s.spawned
  account : ∀ x, s.started.count x = s.done.count x + (s.clients.filterMap cRun).count x + (s.workers.filterMap id).count x
  known : ∀ c ∈ s.clients, ∀ f, cWait c = some f → f < s.spawned
  out : ∀ f, Client.blocked f ∈ s.clients → f ∉ s.queue
  ready : ∀ p ∈ s.returned, p.2 ∈ s.done

private theorem Inv.step {s s' : State} {a : Act} (h : Inv s) (hst : Pool.step s a = some s') : Inv s' := by
  unfold Pool.step at hst
  split at hst
  · -- spawn
    split at hst
    · injection hst with hst
      subst hst
      refine ⟨?_, h.account, ?_, ?_, h.ready⟩
      · show s.started ++ (s.queue ++ [s.spawned]) = List.range (s.spawned + 1)
        rw [← List.append_assoc, h.order, List.range_succ]
      · intro c hc f hf
        exact Nat.lt_succ_of_lt (h.known c hc f hf)
      · intro f hf hm
        rcases List.mem_append.1 hm with hm | hm
        · exact h.out f hf hm
        · have := h.known _ hf f rfl
          simp at hm
          omega
    · cases hst
  · -- wait
    split at hst
    · next c f hc =>
      injection hst with hst
      subst hst
      refine ⟨h.order, ?_, ?_, ?_, h.ready⟩
      · intro x
        have := count_filterMap_set cRun x (.look f) hc.1
        have h2 := h.account x
        simp [cRun] at this
        dsimp only
        omega
      · intro cl hcl g hg
        rcases mem_of_set' hcl with h1 | rfl
        · exact h.known cl h1 g hg
        · simp only [cWait, Option.some.injEq] at hg
          dsimp only
          omega
      · intro g hg
        rcases mem_of_set' hg with h1 | h1
        · exact h.out g h1
        · cases h1
    · cases hst
  · next c =>
    split at hst
    · next f hc =>
      split at hst
      · next hd =>
        injection hst with hst
        subst hst
        refine ⟨h.order, ?_, ?_, ?_, ?_⟩
        · intro x
          have := count_filterMap_set cRun x .free hc
          have h2 := h.account x
          simp [cRun] at this
          dsimp only
          omega
        · intro cl hcl g hg
          rcases mem_of_set' hcl with h1 | rfl
          · exact h.known cl h1 g hg
          · cases hg
        · intro g hg
          rcases mem_of_set' hg with h1 | h1
          · exact h.out g h1
          · cases h1
        · intro p hp
          rcases List.mem_append.1 hp with hp | hp
          · exact h.ready p hp
          · simp at hp
            subst hp
            exact hd
      · injection hst with hst
        subst hst
        refine ⟨h.order, ?_, ?_, ?_, h.ready⟩
        · intro x
          have := count_filterMap_set cRun x (.try_ f) hc
          have h2 := h.account x
          simp [cRun] at this
          dsimp only
          omega
        · intro cl hcl g hg
          rcases mem_of_set' hcl with h1 | rfl
          · exact h.known cl h1 g hg
          · exact h.known _ (List.mem_of_getElem? hc) g hg
        · intro g hg
          rcases mem_of_set' hg with h1 | h1
          · exact h.out g h1
          · cases h1
    · next f hc =>
      split at hst
      · next x q hq =>
        injection hst with hst
        subst hst
        refine ⟨?_, ?_, ?_, ?_, h.ready⟩
        · have := h.order
          rw [hq] at this
          simpa using this
        · intro y
          have := count_filterMap_set cRun y (.running f x) hc
          have h2 := h.account y
          simp [cRun] at this
          dsimp only
          rw [List.count_append]
          omega
        · intro cl hcl g hg
          rcases mem_of_set' hcl with h1 | rfl
          · exact h.known cl h1 g hg
          · exact h.known _ (List.mem_of_getElem? hc) g hg
        · intro g hg hm
          rcases mem_of_set' hg with h1 | h1
          · exact h.out g h1 (by rw [hq]; exact List.mem_cons_of_mem _ hm)
          · cases h1
      · next hq =>
        injection hst with hst
        subst hst
        refine ⟨h.order, ?_, ?_, ?_, h.ready⟩
        · intro x
          have := count_filterMap_set cRun x (.blocked f) hc
          have h2 := h.account x
          simp [cRun] at this
          dsimp only
          omega
        · intro cl hcl g hg
          rcases mem_of_set' hcl with h1 | rfl
          · exact h.known cl h1 g hg
          · exact h.known _ (List.mem_of_getElem? hc) g hg
        · intro g hg
          show g ∉ s.queue
          rw [hq]
          simp
    · next f x hc =>
      injection hst with hst
      subst hst
      refine ⟨h.order, ?_, ?_, ?_, ?_⟩
      · intro y
        have := count_filterMap_set cRun y (.look f) hc
        have h2 := h.account y
        simp [cRun] at this
        dsimp only
        rw [List.count_append]
        omega
      · intro cl hcl g hg
        rcases mem_of_set' hcl with h1 | rfl
        · exact h.known cl h1 g hg
        · exact h.known _ (List.mem_of_getElem? hc) g hg
      · intro g hg
        rcases mem_of_set' hg with h1 | h1
        · exact h.out g h1
        · cases h1
      · intro p hp
        exact List.mem_append_left _ (h.ready p hp)
    · next f hc =>
      split at hst
      · next hd =>
        injection hst with hst
        subst hst
        refine ⟨h.order, ?_, ?_, ?_, ?_⟩
        · intro x
          have := count_filterMap_set cRun x .free hc
          have h2 := h.account x
          simp [cRun] at this
          dsimp only
          omega
        · intro cl hcl g hg
          rcases mem_of_set' hcl with h1 | rfl
          · exact h.known cl h1 g hg
          · cases hg
        · intro g hg
          rcases mem_of_set' hg with h1 | h1
          · exact h.out g h1
          · cases h1
        · intro p hp
          rcases List.mem_append.1 hp with hp | hp
          · exact h.ready p hp
          · simp at hp
            subst hp
            exact hd
      · cases hst
    · cases hst
  · next w =>
    split at hst
    · next x hw =>
      injection hst with hst
      subst hst
      refine ⟨h.order, ?_, h.known, h.out, ?_⟩
      · intro y
        have := count_filterMap_set id y none hw
        have h2 := h.account y
        simp at this
        dsimp only
        rw [List.count_append]
        omega
      · intro p hp
        exact List.mem_append_left _ (h.ready p hp)
    · next hw =>
      split at hst
      · next x q hq =>
        injection hst with hst
        subst hst
        refine ⟨?_, ?_, h.known, ?_, h.ready⟩
        · have := h.order
          rw [hq] at this
          simpa using this
        · intro y
          have := count_filterMap_set id y (some x) hw
          have h2 := h.account y
          simp at this
          dsimp only
          rw [List.count_append]
          omega
        · intro g hg hm
          exact h.out g hg (by rw [hq]; exact List.mem_cons_of_mem _ hm)
      · cases hst
    · cases hst

private theorem inv_init (w c : Nat) : Inv (init w c) := by
  refine ⟨rfl, ?_, ?_, ?_, ?_⟩
  · intro x
    have h1 : (List.replicate c Client.free).filterMap cRun = [] := by
      rw [List.filterMap_eq_nil_iff]
      intro a ha
      rw [List.eq_of_mem_replicate ha]
      rfl
    have h2 : (List.replicate w (none : Option Nat)).filterMap id = [] := by
      rw [List.filterMap_eq_nil_iff]
      intro a ha
      rw [List.eq_of_mem_replicate ha]
      rfl
    simp [init, h1, h2]
  · intro cl hcl f hf
    rw [List.eq_of_mem_replicate hcl] at hf
    cases hf
  · intro f hf
    cases List.eq_of_mem_replicate hf
  · intro p hp
    cases hp

private theorem Inv.run {s s' : State} (h : Inv s) {as : List Act} (hr : Pool.run s as = some s') : Inv s' := by
  induction as generalizing s with
  | nil =>
    injection hr with hr
    subst hr
    exact h
  | cons a as ih =>
    rw [Pool.run] at hr
    cases hs : Pool.step s a with
    | none => rw [hs] at hr; cases hr
    | some s1 =>
      rw [hs] at hr
      exact ih (h.step hs) hr

private theorem reach {w c : Nat} {as : List Act} {s : State} (h : Pool.run (Pool.init w c) as = some s) : Inv s := (inv_init w c).run h

/-- C37: for any number of workers and clients and any interleaving, tasks are started in the order they were spawned, none twice,
and those not started are in the queue. -/
theorem C37_started_once (w c : Nat) (as : List Act) (s : State) (h : Pool.run (Pool.init w c) as = some s) :
    s.started ++ s.queue = List.range s.spawned ∧ s.started.Nodup := by
  have h1 := (reach h).order
  have h2 : (s.started ++ s.queue).Nodup := by rw [h1]; exact List.nodup_range
  exact ⟨h1, (List.nodup_append.1 h2).1⟩

private theorem done_le {s : State} (h : Inv s) (x : Nat) : s.done.count x ≤ s.started.count x := by
  have := h.account x
  omega

/-- C37: every task ends at most once, and only after it was started. -/
theorem C37_done_once (w c : Nat) (as : List Act) (s : State) (h : Pool.run (Pool.init w c) as = some s) :
    s.done.Nodup ∧ ∀ x ∈ s.done, x ∈ s.started := by
  have h1 := (C37_started_once w c as s h).2
  constructor
  · rw [List.nodup_iff_count]
    intro x
    exact Nat.le_trans (done_le (reach h) x) (List.nodup_iff_count.1 h1 x)
  · intro x hx
    rw [← List.count_pos_iff] at hx ⊢
    exact Nat.lt_of_lt_of_le hx (done_le (reach h) x)

/-- C37: a wait that returned waited for a task that has ended. -/
theorem C37_returned_ready (w c : Nat) (as : List Act) (s : State) (h : Pool.run (Pool.init w c) as = some s) (cl f : Nat)
    (hr : (cl, f) ∈ s.returned) : f ∈ s.done := (reach h).ready _ hr

/-! ### Waiting ends -/

/-- What clients and workers can do by themselves: everything except new calls from outside. -/
def internal : Act → Bool
  | .client _ => true
  | .worker _ => true
  | _ => false

/-- A client's distance from being free. -/
private def weight : Client → Nat
  | .free => 0
  | .blocked _ => 1
  | .try_ _ => 2
  | .look _ => 3
  | .running _ _ => 4

/-- The work left. -/
private def work (s : State) : Nat :=
  10 * s.queue.length + (s.workers.map fun w => if w.isSome then 1 else 0).sum + (s.clients.map weight).sum

private theorem work_step {s s' : State} {a : Act} (hi : internal a = true) (hst : Pool.step s a = some s') : work s' < work s := by
  unfold Pool.step at hst
  split at hst
  · cases hi
  · cases hi
  · next c =>
    split at hst
    · next f hc =>
      split at hst
      · injection hst with hst
        subst hst
        have := sum_set weight .free hc
        simp only [weight] at this
        simp only [work]
        omega
      · injection hst with hst
        subst hst
        have := sum_set weight (.try_ f) hc
        simp only [weight] at this
        simp only [work]
        omega
    · next f hc =>
      split at hst
      · next x q hq =>
        injection hst with hst
        subst hst
        have := sum_set weight (.running f x) hc
        simp only [weight] at this
        simp only [work, hq, List.length_cons]
        omega
      · injection hst with hst
        subst hst
        have := sum_set weight (.blocked f) hc
        simp only [weight] at this
        simp only [work]
        omega
    · next f x hc =>
      injection hst with hst
      subst hst
      have := sum_set weight (.look f) hc
      simp only [weight] at this
      simp only [work]
      omega
    · next f hc =>
      split at hst
      · injection hst with hst
        subst hst
        have := sum_set weight .free hc
        simp only [weight] at this
        simp only [work]
        omega
      · cases hst
    · cases hst
  · next w =>
    split at hst
    · next x hw =>
      injection hst with hst
      subst hst
      have := sum_set (fun w : Option Nat => if w.isSome then 1 else 0) none hw
      simp only [Option.isSome_some, Option.isSome_none, if_true, Bool.false_eq_true, if_false] at this
      simp only [work]
      omega
    · next hw =>
      split at hst
      · next x q hq =>
        injection hst with hst
        subst hst
        have := sum_set (fun w : Option Nat => if w.isSome then 1 else 0) (some x) hw
        simp only [Option.isSome_some, Option.isSome_none, if_true, Bool.false_eq_true, if_false] at this
        simp only [work, hq, List.length_cons]
        omega
      · cases hst
    · cases hst

/-- C37: the threads cannot go on forever by themselves: from any state there is a bound on the length of every run without new
spawns and waits. -/
theorem C37_terminates (s : State) : ∃ N, ∀ as s', (∀ a ∈ as, internal a = true) → Pool.run s as = some s' → as.length ≤ N := by
  refine ⟨work s, fun as => ?_⟩
  induction as generalizing s with
  | nil => intro s' _ _; exact Nat.zero_le _
  | cons a as ih =>
    intro s' hint hr
    rw [Pool.run] at hr
    cases hs : Pool.step s a with
    | none => rw [hs] at hr; cases hr
    | some s1 =>
      rw [hs] at hr
      have h1 := work_step (hint a (List.mem_cons_self ..)) hs
      have h2 := ih s1 s' (fun b hb => hint b (List.mem_cons_of_mem _ hb)) hr
      rw [List.length_cons]
      omega

/-- C37: as long as a client has not come back from waiting, some thread can go on: there is no deadlock, with any number of
workers (also none). -/
theorem C37_no_deadlock (w c : Nat) (as : List Act) (s : State) (h : Pool.run (Pool.init w c) as = some s)
    (hw : ∃ cl ∈ s.clients, cl ≠ Client.free) : ∃ a s', internal a = true ∧ Pool.step s a = some s' := by
  have hinv := reach h
  obtain ⟨cl, hm, hne⟩ := hw
  obtain ⟨i, hi⟩ := List.mem_iff_getElem?.1 hm
  cases cl with
  | free => exact absurd rfl hne
  | look f =>
    by_cases hd : f ∈ s.done
    · exact ⟨.client i, _, rfl, by simp only [Pool.step, hi, if_pos hd]; rfl⟩
    · exact ⟨.client i, _, rfl, by simp only [Pool.step, hi, if_neg hd]; rfl⟩
  | try_ f =>
    cases hq : s.queue with
    | nil => exact ⟨.client i, _, rfl, by simp only [Pool.step, hi, hq]; rfl⟩
    | cons x q => exact ⟨.client i, _, rfl, by simp only [Pool.step, hi, hq]; rfl⟩
  | running f x => exact ⟨.client i, _, rfl, by simp only [Pool.step, hi]; rfl⟩
  | blocked f =>
    by_cases hd : f ∈ s.done
    · exact ⟨.client i, _, rfl, by simp only [Pool.step, hi, if_pos hd]; rfl⟩
    · have h1 : f < s.spawned := hinv.known _ hm f rfl
      have h2 : f ∈ s.started ++ s.queue := by
        rw [hinv.order]
        exact List.mem_range.2 h1
      have h3 : f ∈ s.started := by
        rcases List.mem_append.1 h2 with h3 | h3
        · exact h3
        · exact absurd h3 (hinv.out f hm)
      have h4 := hinv.account f
      have h5 : s.done.count f = 0 := List.count_eq_zero.2 hd
      have h6 := List.count_pos_iff.2 h3
      have h7 : 0 < (s.clients.filterMap cRun).count f ∨ 0 < (s.workers.filterMap id).count f := by omega
      rcases h7 with h7 | h7
      · obtain ⟨cl', hm', hx⟩ := List.mem_filterMap.1 (List.count_pos_iff.1 h7)
        obtain ⟨j, hj⟩ := List.mem_iff_getElem?.1 hm'
        cases cl' with
        | running g x => exact ⟨.client j, _, rfl, by simp only [Pool.step, hj]; rfl⟩
        | free => cases hx
        | look _ => cases hx
        | try_ _ => cases hx
        | blocked _ => cases hx
      · obtain ⟨wk, hm', hx⟩ := List.mem_filterMap.1 (List.count_pos_iff.1 h7)
        obtain ⟨j, hj⟩ := List.mem_iff_getElem?.1 hm'
        cases wk with
        | none => cases hx
        | some x => exact ⟨.worker j, _, rfl, by simp only [Pool.step, hj]; rfl⟩

/-- C37: so every schedule ends every wait: a run without new calls that cannot be continued has all clients back, and (with
`C37_terminates`) there is no infinite one. -/
theorem C37_wait_ends (w c : Nat) (as bs : List Act) (s s' : State) (h : Pool.run (Pool.init w c) as = some s)
    (h' : Pool.run s bs = some s') (hmax : ∀ a, internal a = true → Pool.step s' a = none) : ∀ cl ∈ s'.clients, cl = Client.free := by
  have hr : Pool.run (Pool.init w c) (as ++ bs) = some s' := by
    clear hmax
    induction as generalizing w c with
    | nil => injection h with h; subst h; exact h'
    | cons a as ih =>
      clear ih
      have gen : ∀ (as : List Act) (s0 : State), Pool.run s0 as = some s → Pool.run s0 (as ++ bs) = some s' := by
        intro as
        induction as with
        | nil => intro s0 h0; injection h0 with h0; subst h0; exact h'
        | cons a as ih =>
          intro s0 h0
          rw [List.cons_append, Pool.run]
          rw [Pool.run] at h0
          cases hs : Pool.step s0 a with
          | none => rw [hs] at h0; cases h0
          | some s1 => rw [hs] at h0; exact ih s1 h0
      exact gen _ _ h
  intro cl hcl
  cases Decidable.em (cl = Client.free) with
  | inl h => exact h
  | inr hne =>
    obtain ⟨a, s'', hi, hst⟩ := C37_no_deadlock w c _ s' hr ⟨cl, hcl, hne⟩
    rw [hmax a hi] at hst
    cases hst

/-! ### Thread numbers -/

private theorem worker_nums (l : List (Option Nat)) : ∀ k, (∀ x ∈ (l.zipIdx k).filterMap (fun p => p.1.map fun _ => workerNum p.2), k + 1 ≤ x) ∧
    (∀ x ∈ (l.zipIdx k).filterMap (fun p => p.1.map fun _ => workerNum p.2), x ≤ k + l.length) ∧
    ((l.zipIdx k).filterMap (fun p => p.1.map fun _ => workerNum p.2)).Nodup := by
  induction l with
  | nil => intro k; simp
  | cons a l ih =>
    intro k
    obtain ⟨h1, h2, h3⟩ := ih (k + 1)
    rw [List.zipIdx_cons, List.filterMap_cons]
    cases a with
    | none =>
      exact ⟨fun x hx => Nat.le_of_succ_le (h1 x hx), fun x hx => by have := h2 x hx; simp; omega, h3⟩
    | some b =>
      simp only [Option.map_some]
      refine ⟨?_, ?_, ?_⟩
      · intro x hx
        rcases List.mem_cons.1 hx with rfl | hx
        · exact Nat.le_refl _
        · exact Nat.le_of_succ_le (h1 x hx)
      · intro x hx
        rcases List.mem_cons.1 hx with rfl | hx
        · simp [workerNum]
        · have := h2 x hx
          simp
          omega
      · refine List.nodup_cons.2 ⟨fun hm => ?_, h3⟩
        have := h1 _ hm
        simp only [workerNum] at this
        omega

private theorem len_step {s s' : State} {a : Act} (hst : Pool.step s a = some s') :
    s'.clients.length = s.clients.length ∧ s'.workers.length = s.workers.length := by
  unfold Pool.step at hst
  repeat' split at hst
  all_goals first
    | cases hst; done
    | (injection hst with hst; subst hst; simp)

private theorem len_run {s s' : State} {as : List Act} (hr : Pool.run s as = some s') :
    s'.clients.length = s.clients.length ∧ s'.workers.length = s.workers.length := by
  induction as generalizing s with
  | nil =>
    injection hr with hr
    subst hr
    exact ⟨rfl, rfl⟩
  | cons a as ih =>
    rw [Pool.run] at hr
    cases hs : Pool.step s a with
    | none => rw [hs] at hr; cases hr
    | some s1 =>
      rw [hs] at hr
      have h1 := len_step hs
      have h2 := ih hr
      exact ⟨h2.1.trans h1.1, h2.2.trans h1.2⟩

/-- C37: with one client, tasks that run at the same time see different thread numbers, all below `NumThreads`: buffers of one
element per thread are never shared and never indexed out of range. -/
theorem C37_thread_numbers_partial (w : Nat) (as : List Act) (s : State) (h : Pool.run (Pool.init w 1) as = some s) :
    s.busy.Nodup ∧ ∀ x ∈ s.busy, x < (Pool.mk true w).numThreads := by
  have hl := len_run h
  obtain ⟨h1, h2, h3⟩ := worker_nums s.workers 0
  have hwl : s.workers.length = w := by simpa [Pool.init] using hl.2
  obtain ⟨cl, hcl⟩ : ∃ cl, s.clients = [cl] := List.length_eq_one_iff.1 (by simpa [Pool.init] using hl.1)
  unfold State.busy
  rw [hcl]
  constructor
  · cases cl with
    | running f x =>
      simp only [List.filterMap_cons, List.filterMap_nil, List.singleton_append]
      refine List.nodup_cons.2 ⟨fun hm => ?_, h3⟩
      have := h1 _ hm
      omega
    | free => simpa using h3
    | look _ => simpa using h3
    | try_ _ => simpa using h3
    | blocked _ => simpa using h3
  · intro x hx
    simp only [Pool.numThreads]
    rcases List.mem_append.1 hx with hx | hx
    · cases cl <;> simp at hx
      omega
    · have := h2 x hx
      omega

/-- C37, not so: two clients that wait at the same time run tasks under the same thread number 0, so that the two tasks share the
buffers of thread 0. -/
theorem C37_two_clients_violated : ∃ as s, Pool.run (Pool.init 0 2) as = some s ∧ s.busy = [0, 0] :=
  ⟨[.spawn 0, .spawn 0, .spawn 1, .wait 0 0, .wait 1 2, .client 0, .client 1, .client 0, .client 1], _, rfl, rfl⟩

/-- C37: starting: with a positive hardware concurrency, the number of threads (with the caller) is the number asked for when it is
between one and the hardware concurrency, and the hardware concurrency otherwise; a running pool only changes when restarted. -/
theorem C37_start (hw : Nat) (hhw : 0 < hw) (p : Pool) (hp : p.active = false → p.threads = 0) (n : Nat) (restart : Bool) :
    ∃ q, start hw p n restart = some q ∧ q.active = true ∧
      (p.active = true ∧ restart = false → q = p) ∧
      (p.active = false ∨ restart = true → q.numThreads = if 1 ≤ n ∧ n ≤ hw then n else hw) := by
  obtain ⟨act, thr⟩ := p
  have hm : (if n ≤ 0 ∨ n > hw then hw else n) = if 1 ≤ n ∧ n ≤ hw then n else hw := by
    split <;> split <;> omega
  have hpos : (if 1 ≤ n ∧ n ≤ hw then n else hw) ≠ 0 := by
    split <;> omega
  unfold start
  simp only [hm]
  generalize (if 1 ≤ n ∧ n ≤ hw then n else hw) = m at hpos
  have h1 : m - 1 + 1 = m := by omega
  cases act with
  | false =>
    have h0 : thr = 0 := hp rfl
    subst h0
    refine ⟨⟨true, m - 1⟩, ?_, rfl, by simp, fun _ => h1⟩
    simp [hpos]
  | true =>
    cases restart with
    | false => exact ⟨⟨true, thr⟩, by simp, rfl, fun _ => rfl, by simp⟩
    | true => exact ⟨⟨true, m - 1⟩, by simp [stop, hpos], rfl, by simp, fun _ => h1⟩

/-- C37, not so: where the hardware concurrency is unknown (0), the pool cannot be created: the number of workers wraps. -/
theorem C37_unknown_hardware_violated : create 0 = none := rfl

/-! ### The hypotheses hold -/

/-- One worker, one client: two tasks, one run by the worker, one by the waiting client. -/
example : ∃ s, Pool.run (Pool.init 1 1)
    [.spawn 0, .spawn 0, .worker 0, .wait 0 0, .client 0, .client 0, .client 0, .client 0, .client 0] = some s ∧
    s.clients = [.blocked 0] ∧ s.workers = [some 0] ∧ s.done = [1] := ⟨_, rfl, rfl, rfl, rfl⟩

example : ∃ s, Pool.run (Pool.init 1 1)
    [.spawn 0, .worker 0, .wait 0 0, .client 0, .client 0, .worker 0, .client 0] = some s ∧
    s.returned = [(0, 0)] ∧ ∀ a, internal a = true → Pool.step s a = none := by
  refine ⟨_, rfl, rfl, ?_⟩
  intro a ha
  cases a with
  | spawn _ => cases ha
  | wait _ _ => cases ha
  | client c => cases c <;> rfl
  | worker w => cases w <;> rfl

end Dal
