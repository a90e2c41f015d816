import Verif.Script.CompileLemmas
import Mathlib.Algebra.Order.Field.Rat

/-! # Properties C29 (compiled evaluation) and C30 (constant marking) -/

namespace Dal
open Dal.Script
variable {D : Type}

/-- The future events after `ConstProcess` on the whole product. -/
def marked (o : Ops D) (past future : List (Stmts Nat D)) : List (Stmts Nat D) :=
  (constEvents o (constInit o) (past ++ future)).2.drop past.length

theorem marked_eq (o : Ops D) (past future : List (Stmts Nat D)) :
    marked o past future = (constEvents o (constEvents o (constInit o) past).1 future).2 := by
  rw [marked, constEvents_append, List.drop_left' (constEvents_length o _ past)]

/-- The state left by the past events agrees with the marks made on them. -/
theorem past_sound (o : Ops D) (cv : Nat → D) (psp : Sample D) (past : List (Stmts Nat D))
    (hp : ∀ ev ∈ past, FreshSs cv ev) :
    SoundC (constEvents o (constInit o) past).1 (pastEvaluate o cv psp past) :=
  constEvents_past o cv psp past _ _ (by intro i v h; simpa [constInit] using h) hp

/-! ### C30 -/

/-- C30: whenever constant marking gives an expression the value `v`, then whenever an evaluation of
the future events (from the state the past events leave, on any scenario) comes to that expression, its
value is `v`. -/
theorem C30_marks_sound (o : Ops D) (cv : Nat → D) (psp : Sample D) (past future : List (Stmts Nat D))
    (hp : ∀ ev ∈ past, FreshSs cv ev) (hf : ∀ ev ∈ future, FreshSs cv ev)
    (scenario : List (Sample D)) (x : Expr Nat D) (sp : Sample D) (σ : Nat → D)
    (hr : ReachEv o cv x ((marked o past future).zip scenario) (pastEvaluate o cv psp past) sp σ)
    (v : D) (hv : x.kval = some v) : evalE o cv sp σ x = v := by
  rw [marked_eq] at hr
  exact constEvents_reach o cv future scenario _ _ (past_sound o cv psp past hp) hf x sp σ hr v hv

/-- C30: an expression reached with two different values, on any two scenarios, is not marked. -/
theorem C30_varying_not_marked (o : Ops D) (cv : Nat → D) (psp : Sample D) (past future : List (Stmts Nat D))
    (hp : ∀ ev ∈ past, FreshSs cv ev) (hf : ∀ ev ∈ future, FreshSs cv ev)
    (sc sc' : List (Sample D)) (x : Expr Nat D) (sp sp' : Sample D) (σ σ' : Nat → D)
    (hr : ReachEv o cv x ((marked o past future).zip sc) (pastEvaluate o cv psp past) sp σ)
    (hr' : ReachEv o cv x ((marked o past future).zip sc') (pastEvaluate o cv psp past) sp' σ')
    (hne : evalE o cv sp σ x ≠ evalE o cv sp' σ' x) : x.kval = none := by
  cases h : x.kval with
  | none => rfl
  | some v =>
    exact absurd ((C30_marks_sound o cv psp past future hp hf sc x sp σ hr v h).trans
      (C30_marks_sound o cv psp past future hp hf sc' x sp' σ' hr' v h).symm) hne

/-- C30: marking changes no result. -/
theorem C30_marks_inert (o : Ops D) (cv : Nat → D) (past future : List (Stmts Nat D))
    (scenario : List (Sample D)) (σ : Nat → D) :
    evaluate o cv ((marked o past future).zip scenario) σ = evaluate o cv (future.zip scenario) σ := by
  rw [marked_eq]
  generalize (constEvents o (constInit o) past).1 = vc
  induction future generalizing scenario σ vc with
  | nil => rfl
  | cons ev es ih =>
    cases scenario with
    | nil => simp [evaluate]
    | cons sp sps =>
      simp only [constEvents, List.zip_cons_cons, evaluate, List.foldl_cons]
      rw [constSs_exec]
      exact ih sps _ _

/-- `y = 2` in the past; `x = y + 1` then `IF SPOT > 0 THEN y = 5` then `z = x + y` in the future. -/
def samplePast : Stmts Nat Rat := .cons (.assign ⟨1, false⟩ (.const 2)) .nil
/-- See `samplePast`. -/
def sampleFuture : Stmts Nat Rat :=
  .cons (.assign ⟨0, false⟩ (.bin .add (.var 1 (some 0)) (.const 1) none))
    (.cons (.ite (.cmp .sup .spot ⟨0, false, 0, 0⟩ {}) (.cons (.assign ⟨1, false⟩ (.const 5)) .nil) false .nil [] {})
      (.cons (.assign ⟨2, false⟩ (.bin .add (.var 0 (some 0)) (.var 1 (some 0)) none)) .nil))

example : FreshSs (fun _ => (0 : Rat)) samplePast ∧ FreshSs (fun _ => (0 : Rat)) sampleFuture := by
  simp [FreshSs, FreshS, FreshE, FreshC, samplePast, sampleFuture]

example : (marked ratOps [samplePast] [sampleFuture]) =
    [.cons (.assign ⟨0, false⟩ (.bin .add (.var 1 (some 2)) (.const 1) (some 3)))
      (.cons (.ite (.cmp .sup .spot ⟨0, false, 0, 0⟩ {}) (.cons (.assign ⟨1, false⟩ (.const 5)) .nil) false .nil [] {})
        (.cons (.assign ⟨2, false⟩ (.bin .add (.var 0 (some 3)) (.var 1 none) none)) .nil))] := by
  have h : ratOps.add 2 1 = 3 := by decide +kernel
  simp [marked, constEvents, constSs, constS, constE, constC, samplePast, sampleFuture, constInit, setC, Expr.kval,
    evalBin, h]

example : ∃ (x : Expr Nat Rat) (σ : Nat → Rat), x.kval = some 3 ∧
    ReachEv ratOps (fun _ => 0) x ((marked ratOps [samplePast] [sampleFuture]).zip [⟨7, 1⟩])
      (pastEvaluate ratOps (fun _ => 0) ⟨30, 1⟩ [samplePast]) ⟨7, 1⟩ σ := by
  refine ⟨.bin .add (.var 1 (some 2)) (.const 1) (some 3),
    pastEvaluate ratOps (fun _ => 0) ⟨30, 1⟩ [samplePast], rfl, ?_⟩
  have h : ratOps.add 2 1 = 3 := by decide +kernel
  simp [marked, constEvents, constSs, constS, constE, constC, samplePast, sampleFuture, constInit, setC, Expr.kval,
    evalBin, h]
  exact .here (.head (.assign .self))

/-! ### C29 -/

/-- Every event, executed in turn, tests no condition after an `IF ... ELSE` whose condition held. -/
def NoTestAfterElse (o : Ops D) (cv : Nat → D) : List (Stmts Nat D × Sample D) → (Nat → D) → Prop
  | [], _ => True
  | (ev, sp) :: es, σ => (elseSs o cv sp ev σ false).isSome ∧ NoTestAfterElse o cv es (execs o cv sp ev σ)

/-- Running the streams of one event. -/
theorem event_run (o : Ops D) (hcm : CommOps o) (eps : D) (cv : Nat → D) (sp : Sample D) (ev : Stmts Nat D)
    (σ : Nat → D) (hm : ∀ x σ', Reachs o cv sp x ev σ σ' → ∀ v, x.kval = some v → evalE o cv sp σ' x = v)
    (hfo : FoldSs o eps ev) (hel : (elseSs o cv sp ev σ false).isSome) (hd : roomSs ev ≤ 128) (ht : truthsSs ev ≤ 128) :
    ∃ k r, r.σ = execs o cv sp ev σ ∧ ∀ fuel, k ≤ fuel →
      run o (compileEvent o eps ev).ns (compileEvent o eps ev).cs sp fuel (compileEvent o eps ev).ns.length 0
        ⟨[], {}, σ⟩ = some r := by
  obtain ⟨b, hb⟩ := Option.isSome_iff_exists.mp hel
  obtain ⟨u', -, hst⟩ := steps_Ss (N := (compileEvent o eps ev).ns) (C := (compileEvent o eps ev).cs) hcm eps cv ev
    (compileEvent o eps ev).ns.length {} 0 σ b hm hfo (by simpa using hb) (fun i _ _ => rfl) List.prefix_rfl le_rfl hd ht
  obtain ⟨k, hk⟩ := Steps.done hst
  exact ⟨k, _, rfl, hk⟩

/-- C29 (the full claim needs no condition on `IF ... ELSE`, nor on folded comparisons, nor on the room on the stacks, see
`C29_after_else_violated`, `C29_folded_violated`, `C29_deep_condition_violated`; it also needs that `+`, `*`, `MAX` and `MIN` commute, which
floating-point numbers satisfy except for NaN operands and signed zeros of `MAX` and `MIN`): for every product, every scenario
and the state left by the past events, running the compiled streams gives the variables that
interpreting the tree gives. -/
theorem C29_compiled_eq_interpreted_partial (o : Ops D) (hcm : CommOps o) (eps : D) (cv : Nat → D)
    (psp : Sample D) (past future : List (Stmts Nat D))
    (hp : ∀ ev ∈ past, FreshSs cv ev) (hf : ∀ ev ∈ future, FreshSs cv ev) (scenario : List (Sample D))
    (hfold : ∀ ev ∈ marked o past future, FoldSs o eps ev)
    (helse : NoTestAfterElse o cv (future.zip scenario) (pastEvaluate o cv psp past))
    (hroom : ∀ ev ∈ future, roomSs ev ≤ 128 ∧ truthsSs ev ≤ 128) :
    ∃ k, ∀ fuel, k ≤ fuel →
      evaluateCompiled o fuel (((marked o past future).map (compileEvent o eps)).zip scenario)
        (pastEvaluate o cv psp past) =
      some (evaluate o cv (future.zip scenario) (pastEvaluate o cv psp past)) := by
  rw [marked_eq] at hfold ⊢
  have hs := past_sound o cv psp past hp
  generalize (constEvents o (constInit o) past).1 = vc at *
  generalize pastEvaluate o cv psp past = σ at *
  induction future generalizing scenario σ vc with
  | nil => exact ⟨0, fun fuel _ => rfl⟩
  | cons ev es ih =>
    cases scenario with
    | nil => exact ⟨0, fun fuel _ => by simp [evaluateCompiled, evaluate]⟩
    | cons sp sps =>
      simp only [constEvents, List.map_cons, List.zip_cons_cons, NoTestAfterElse] at hfold helse ⊢
      have hfe := hf ev List.mem_cons_self
      have hsound := constSs_sound o cv sp ev false vc σ hs hfe
      rw [constSs_exec] at hsound
      obtain ⟨k2, hk2⟩ := ih (fun e he => hf e (List.mem_cons_of_mem _ he)) sps
        (fun e he => hroom e (List.mem_cons_of_mem _ he)) (constSs o false vc ev).1
        (fun e he => hfold e (List.mem_cons_of_mem _ he)) (execs o cv sp ev σ) helse.2 hsound
      have hel : (elseSs o cv sp (constSs o false vc ev).2 σ false).isSome := by
        rw [elseSs_const]; exact helse.1
      obtain ⟨k1, r, hr, hk1⟩ := event_run o hcm eps cv sp (constSs o false vc ev).2 σ
        (fun x σ' h => constSs_reach o cv sp ev false vc σ hs hfe x σ' h) (hfold _ List.mem_cons_self) hel
        (by rw [roomSs_const]; exact (hroom ev List.mem_cons_self).1) (by rw [truthsSs_const]; exact (hroom ev List.mem_cons_self).2)
      refine ⟨max k1 k2, fun fuel hfuel => ?_⟩
      rw [evaluateCompiled, hk1 fuel (by omega)]
      simp only
      rw [hr, constSs_exec, hk2 fuel (by omega)]
      rfl

mutual
/-- No `ELSE` in a statement. -/
def noElse : Stmt Nat D → Bool
  | .assign _ _ => true
  | .pays _ _ => true
  | .ite _ t he _ _ _ => !he && noElses t
  | .collect b => noElses b
/-- No `ELSE` in statements. -/
def noElses : Stmts Nat D → Bool
  | .nil => true
  | .cons s ss => noElse s && noElses ss
end

mutual
theorem elseS_noElse (o : Ops D) (cv : Nat → D) (sp : Sample D) : (s : Stmt Nat D) → (σ : Nat → D) →
    noElse s = true → elseS o cv sp s σ false = some false
  | .assign _ _, σ, _ => by simp only [elseS]
  | .pays _ _, σ, _ => by simp only [elseS]
  | .ite c t he e _ _, σ, h => by
    simp only [noElse, Bool.and_eq_true, Bool.not_eq_true'] at h
    obtain ⟨rfl, ht⟩ := h
    simp only [elseS, Bool.false_eq_true, if_false]
    rw [elseSs_noElse o cv sp t σ ht]
    simp
  | .collect b, σ, h => by simp only [elseS]; exact elseSs_noElse o cv sp b σ (by simpa [noElse] using h)
theorem elseSs_noElse (o : Ops D) (cv : Nat → D) (sp : Sample D) : (ss : Stmts Nat D) → (σ : Nat → D) →
    noElses ss = true → elseSs o cv sp ss σ false = some false
  | .nil, σ, _ => by simp only [elseSs]
  | .cons s ss, σ, h => by
    simp only [noElses, Bool.and_eq_true] at h
    simp only [elseSs]
    rw [elseS_noElse o cv sp s σ h.1]
    exact elseSs_noElse o cv sp ss _ h.2
end

/-- C29 for scripts without `ELSE`: compiled and interpreted evaluation agree on every scenario (the
remaining conditions are those of `C29_compiled_eq_interpreted_partial`). -/
theorem C29_no_else_partial (o : Ops D) (hcm : CommOps o) (eps : D) (cv : Nat → D)
    (psp : Sample D) (past future : List (Stmts Nat D))
    (hp : ∀ ev ∈ past, FreshSs cv ev) (hf : ∀ ev ∈ future, FreshSs cv ev) (scenario : List (Sample D))
    (hfold : ∀ ev ∈ marked o past future, FoldSs o eps ev) (hne : ∀ ev ∈ future, noElses ev = true)
    (hroom : ∀ ev ∈ future, roomSs ev ≤ 128 ∧ truthsSs ev ≤ 128) :
    ∃ k, ∀ fuel, k ≤ fuel →
      evaluateCompiled o fuel (((marked o past future).map (compileEvent o eps)).zip scenario)
        (pastEvaluate o cv psp past) =
      some (evaluate o cv (future.zip scenario) (pastEvaluate o cv psp past)) := by
  refine C29_compiled_eq_interpreted_partial o hcm eps cv psp past future hp hf scenario hfold ?_ hroom
  generalize pastEvaluate o cv psp past = σ
  clear hp hf hfold hroom
  induction future generalizing scenario σ with
  | nil => trivial
  | cons ev es ih =>
    cases scenario with
    | nil => trivial
    | cons sp sps =>
      exact ⟨by rw [elseSs_noElse o cv sp ev σ (hne ev List.mem_cons_self)]; rfl,
        ih sps (fun e he => hne e (List.mem_cons_of_mem _ he)) _⟩

theorem ratOps_comm : CommOps ratOps where
  add := fun x y => add_comm x y
  mul := fun x y => mul_comm x y
  max := fun x y => by
    simp only [evalBin, ratOps, decide_eq_true_eq]
    split_ifs with h1 h2 h2
    · exact absurd (lt_trans h1 h2) (lt_irrefl _)
    · rfl
    · rfl
    · exact le_antisymm (not_lt.mp h2) (not_lt.mp h1)
  min := fun x y => by
    simp only [evalBin, ratOps, decide_eq_true_eq]
    split_ifs with h1 h2 h2
    · exact absurd (lt_trans h1 h2) (lt_irrefl _)
    · rfl
    · rfl
    · exact le_antisymm (not_lt.mp h1) (not_lt.mp h2)

example : roomSs sampleFuture ≤ 128 ∧ truthsSs sampleFuture ≤ 128 := by decide +kernel

example : noElses sampleFuture = true ∧ ∀ ev ∈ marked ratOps [samplePast] [sampleFuture], FoldSs ratOps (1/1000) ev := by
  refine ⟨rfl, ?_⟩
  simp [marked, constEvents, constSs, constS, constE, constC, samplePast, sampleFuture, constInit, setC, Expr.kval,
    evalBin, FoldSs, FoldS, FoldC]

/-- `IF SPOT > 0 THEN x = 1 ELSE x = 2 ENDIF`, as last test of its event. -/
def elseLast : Stmts Nat Rat :=
  .cons (.ite (.cmp .sup .spot ⟨0, false, 0, 0⟩ {}) (.cons (.assign ⟨0, false⟩ (.const 1)) .nil) true
    (.cons (.assign ⟨0, false⟩ (.const 2)) .nil) [] {}) .nil

example : roomSs elseLast ≤ 128 ∧ truthsSs elseLast ≤ 128 := by decide +kernel

example : NoTestAfterElse ratOps (fun _ => 0) [(elseLast, ⟨7, 1⟩)] (fun _ => 0) := by
  refine ⟨?_, trivial⟩
  decide +kernel

/-- `IF SPOT > 0 THEN x = 1 ELSE x = 2 ENDIF IF SPOT > 0 THEN x = 3 ENDIF`. -/
def afterElse : Stmts Nat Rat :=
  .cons (.ite (.cmp .sup .spot ⟨0, false, 0, 0⟩ {}) (.cons (.assign ⟨0, false⟩ (.const 1)) .nil) true
    (.cons (.assign ⟨0, false⟩ (.const 2)) .nil) [] {})
    (.cons (.ite (.cmp .sup .spot ⟨0, false, 0, 0⟩ {}) (.cons (.assign ⟨0, false⟩ (.const 3)) .nil) false .nil [] {}) .nil)

/-- C29 violated: after an `IF ... ELSE` whose condition holds, testing another condition in the same
event writes before the condition stack (undefined behaviour), while interpreting gives `x = 3`. -/
theorem C29_after_else_violated :
    (∀ fuel, evaluateCompiled ratOps fuel [(compileEvent ratOps 0 afterElse, ⟨7, 1⟩)] (fun _ => 0) = none) ∧
    evaluate ratOps (fun _ => 0) [(afterElse, ⟨7, 1⟩)] (fun _ => 0) 0 = 3 := by
  constructor
  · intro fuel
    match fuel with
    | 0 => rfl
    | 1 => rfl
    | 2 => rfl
    | 3 => rfl
    | 4 => rfl
    | 5 => rfl
    | 6 => rfl
    | n + 7 => rfl
  · decide +kernel

/-- `SPOT > 0 AND (SPOT > 0 AND (...))`, with `n` connectives. -/
def deepCond (c : D) : Nat → Cond Nat D
  | 0 => .cmp .sup .spot ⟨c, false, c, c⟩ {}
  | n + 1 => .and (.cmp .sup .spot ⟨c, false, c, c⟩ {}) (deepCond c n) {}

/-- `IF` with that condition. -/
def deepIf (c : D) (n : Nat) : Stmts Nat D := .cons (.ite (deepCond c n) (.cons (.assign ⟨0, false⟩ (.const c)) .nil) false .nil [] {}) .nil

private theorem run_goto (o : Ops D) (N : List Word) (C : List D) (sp : Sample D) (n i j : Nat) (s s' : RunSt D) (hi : i < n)
    (ha : act o N C sp i s = some (.goto j s')) (fuel : Nat) (r : RunSt D) (h : run o N C sp fuel n i s = some r) :
    s'.fits ∧ ∃ g, run o N C sp g n j s' = some r := by
  cases fuel with
  | zero => cases h
  | succ f =>
    rw [run, if_pos hi, ha] at h
    simp only at h
    by_cases hf : s'.fits
    · rw [if_pos hf] at h; exact ⟨hf, f, h⟩
    · rw [if_neg hf] at h; cases h

private theorem leaf_run (o : Ops D) (N : List Word) (C : List D) (sp : Sample D) (n i : Nat) (B : List Bool) (σ : Nat → D) (hi : i + 1 < n)
    (h0 : N[i]? = some (.op .spot)) (h1 : N[i + 1]? = some (.op .sup)) (fuel : Nat) (r : RunSt D)
    (h : run o N C sp fuel n i ⟨[], ⟨B, 0⟩, σ⟩ = some r) :
    B.length + 1 ≤ 128 ∧ ∃ g b, run o N C sp g n (i + 2) ⟨[], ⟨b :: B, 0⟩, σ⟩ = some r := by
  obtain ⟨-, g, hg⟩ := run_goto o N C sp n i (i + 1) _ ⟨[sp.spot], ⟨B, 0⟩, σ⟩ (by omega) (by rw [act, h0]; rfl) fuel r h
  obtain ⟨hf, k, hk⟩ := run_goto o N C sp n (i + 1) (i + 2) _ ⟨[], ⟨o.lt o.zero sp.spot :: B, 0⟩, σ⟩ hi (by rw [act, h1]; rfl) g r hg
  exact ⟨hf.2, k, _, hk⟩

private theorem deep_run (o : Ops D) (eps c : D) (N : List Word) (C : List D) (sp : Sample D) (n k : Nat) : ∀ (s : Streams D) (B : List Bool) (σ : Nat → D),
    Has N s.ns.length (compC o eps s (deepCond c k)) → (compC o eps s (deepCond c k)).ns.length ≤ n → 128 < B.length + k + 1 →
    ∀ fuel, run o N C sp fuel n s.ns.length ⟨[], ⟨B, 0⟩, σ⟩ = none := by
  induction k with
  | zero =>
    intro s B σ hN hn hB fuel
    have hlen : ((s.op .spot).op .sup).ns.length = s.ns.length + 2 := by simp [Streams.op]
    have hN' : Has N s.ns.length ((s.op .spot).op .sup) := hN
    have hn' : ((s.op .spot).op .sup).ns.length ≤ n := hn
    obtain ⟨h1, h2⟩ := has_op hN' (by simp [Streams.op])
    obtain ⟨-, h3⟩ := has_op h1 le_rfl
    have hl : (s.op .spot).ns.length = s.ns.length + 1 := by simp [Streams.op]
    rw [hl] at h2
    cases hr : run o N C sp fuel n s.ns.length ⟨[], ⟨B, 0⟩, σ⟩ with
    | none => rfl
    | some r =>
      have := (leaf_run o N C sp n _ B σ (by omega) h3 h2 fuel r hr).1
      omega
  | succ k ih =>
    intro s B σ hN hn hB fuel
    have hp := compC_pre o eps (deepCond c k) ((s.op .spot).op .sup)
    have hN0 : Has N s.ns.length ((compC o eps ((s.op .spot).op .sup) (deepCond c k)).op .and) := hN
    have hn0 : ((compC o eps ((s.op .spot).op .sup) (deepCond c k)).op .and).ns.length ≤ n := hn
    have hlen : ((s.op .spot).op .sup).ns.length = s.ns.length + 2 := by simp [Streams.op]
    have hle := hp.1.length_le
    have hla : ((compC o eps ((s.op .spot).op .sup) (deepCond c k)).op .and).ns.length =
      (compC o eps ((s.op .spot).op .sup) (deepCond c k)).ns.length + 1 := by simp [Streams.op]
    obtain ⟨hN1, -⟩ := has_op hN0 (by omega)
    have hN2 := hN1.pre hp.1
    obtain ⟨h1, h2⟩ := has_op hN2 (by simp [Streams.op])
    obtain ⟨-, h3⟩ := has_op h1 le_rfl
    have hl : (s.op .spot).ns.length = s.ns.length + 1 := by simp [Streams.op]
    rw [hl] at h2
    cases hr : run o N C sp fuel n s.ns.length ⟨[], ⟨B, 0⟩, σ⟩ with
    | none => rfl
    | some r =>
      obtain ⟨-, g, b, hg⟩ := leaf_run o N C sp n _ B σ (by omega) h3 h2 fuel r hr
      have := ih ((s.op .spot).op .sup) (b :: B) σ (hN1.weaken (by omega)) (by omega) (by simp only [List.length_cons]; omega) g
      rw [hlen] at this
      rw [this] at hg
      cases hg

/-- C29 violated: a condition of 129 comparisons joined to the right writes outside the stack of truth values when compiled, for interpreting it one truth value at a time is enough. -/
theorem C29_deep_condition_violated (o : Ops D) (eps c : D) (cv : Nat → D) (sp : Sample D) (σ : Nat → D) (n : Nat) (hn : 128 ≤ n) :
    (∀ fuel, evaluateCompiled o fuel [(compileEvent o eps (deepIf c n), sp)] σ = none) ∧
    evaluate o cv [(deepIf c n, sp)] σ 0 = if o.lt o.zero sp.spot then c else σ 0 := by
  constructor
  · intro fuel
    rw [evaluateCompiled]
    have hr := deep_run o eps c (compileEvent o eps (deepIf c n)).ns (compileEvent o eps (deepIf c n)).cs sp
      (compileEvent o eps (deepIf c n)).ns.length n {} [] σ ?_ ?_ (by simp only [List.length_nil]; omega) fuel
    · rw [show run o (compileEvent o eps (deepIf c n)).ns (compileEvent o eps (deepIf c n)).cs sp fuel
        (compileEvent o eps (deepIf c n)).ns.length 0 ⟨[], {}, σ⟩ = none from hr]
    · intro i _ hi
      simp only [compileEvent, deepIf, compSs, compS, Bool.false_eq_true, if_false]
      rw [List.getElem?_set_ne (by omega)]
      exact get_of_prefix (List.IsPrefix.trans ((pre_op _ .iff).trans (pre_arg _ 0)) (compSs_pre o eps (.cons (.assign ⟨0, false⟩ (.const c)) .nil) _).1) hi
    · simp only [compileEvent, deepIf, compSs, compS, Bool.false_eq_true, if_false, List.length_set]
      exact (List.IsPrefix.trans ((pre_op _ .iff).trans (pre_arg _ 0)) (compSs_pre o eps (.cons (.assign ⟨0, false⟩ (.const c)) .nil) _).1).length_le
  · have he : ∀ m, evalC o cv sp σ (deepCond c m) = o.lt o.zero sp.spot := by
      intro m
      induction m with
      | zero => rfl
      | succ m ih =>
        have key : ∀ b : Bool, (if b then b else false) = b := by decide
        rw [deepCond, evalC, ih]
        exact key (o.lt o.zero sp.spot)
    simp only [evaluate, List.foldl_cons, List.foldl_nil, deepIf, execs, exec, he, evalE]
    cases o.lt o.zero sp.spot <;> simp [upd]

/-- `IF -1e-15 >= 0 THEN x = 1 ENDIF`, with the constant written `0 - 1e-15`. -/
def tinyNegative : Stmts Nat Rat :=
  .cons (.ite (.cmp .supEq (.bin .sub (.const 0) (.const (1 / 1000000000000000)) none) ⟨0, false, 0, 0⟩ {})
    (.cons (.assign ⟨0, false⟩ (.const 1)) .nil) false .nil [] {}) .nil

/-- C29 violated: `>=` between constants is folded with a tolerance (`EPSILON = 2e-14`) that the interpreter
does not have, so the compiled script takes a branch the interpreted one does not. -/
theorem C29_folded_violated :
    ((evaluateCompiled ratOps 10 (((marked ratOps [] [tinyNegative]).map
        (compileEvent ratOps (2 / 100000000000000))).zip [⟨7, 1⟩]) (fun _ => 0)).map (· 0)) = some 1 ∧
    evaluate ratOps (fun _ => 0) [(tinyNegative, ⟨7, 1⟩)] (fun _ => 0) 0 = 0 := by
  constructor <;> decide +kernel

end Dal
