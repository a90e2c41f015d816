import Verif.Sim.TameLemmas

/-! # C113: every tame script is processed, and is worth what it says -/

namespace Dal
open Dal.Report Dal.Script Dal.Seasoned

/-- C113: processing never fails for a tame script with at least one variable; the constants are reported in the order in which they appear. -/
theorem C113_prepared (fuzzy : Bool) (payoff : List Char) (cval : List Char → ℝ) (prog : List (PStmts ℝ)) (ht : ∀ e ∈ prog, Tames e)
    (hp : ∃ n, (n, none) ∈ prog.flatMap (Stmts.names cval)) : ∃ q, prepare fuzzy payoff cval prog = some q ∧ q.events.length = prog.length := by
  obtain ⟨h1, -, -, h4⟩ := events_spec cval prog ({} : Indexer (List Char) ℝ) good_empty
  obtain ⟨c1, c2⟩ := const_filled _ h1
  obtain ⟨n, hn⟩ := hp
  obtain ⟨f, g, s1, s2, -⟩ := C28_slots cval prog
  have hpay : ∃ i, payoffIdx payoff (indexed cval prog).1.varNames = some i := by
    unfold payoffIdx
    split
    · exact ⟨_, rfl⟩
    · have : (indexed cval prog).1.varNames ≠ [] := by
        intro h0
        have := s2 n hn
        rw [h0] at this
        cases this
      rw [if_neg this]
      exact ⟨_, rfl⟩
  obtain ⟨i, hi⟩ := hpay
  have hd : ∃ r, domEvents realOps fuzzy (ifEvents {} (indexed cval prog).2).2 domInit = some r ∧ ∀ i, DomOk (r.2 i) := by
    rw [s1]
    exact C32_total (K := ℝ) (· ^ ·) Real.log Real.sqrt Real.exp fuzzy _ (divs_events f g prog {} ht)
  obtain ⟨r, hr, -⟩ := hd
  refine ⟨⟨(indexed cval prog).1.varNames, (indexed cval prog).1.consts.map (·.1), (indexed cval prog).1.consts.map (·.2.2), i, r.1.map ccSs, (ifEvents {} (indexed cval prog).2).1.maxLvl⟩, ?_, ?_⟩
  · unfold prepare
    dsimp only
    rw [show payoffIdx payoff (({} : Indexer (List Char) ℝ).events cval prog).1.varNames = some i from hi, c1, c2]
    dsimp only
    rw [show domEvents realOps fuzzy (ifEvents {} (({} : Indexer (List Char) ℝ).events cval prog).2).2 domInit = some r from hr]
  · dsimp only
    obtain ⟨r1, r2, -, e2, e3, e4⟩ := domEvents_append realOps fuzzy (ifEvents {} (indexed cval prog).2).2 [] domInit r (by rw [List.append_nil]; exact hr)
    rw [← Option.some.inj e2] at e3
    rw [e3, List.append_nil, List.length_map, e4, ifEvents_length, s1, List.length_map]

/-- C113, the value: on every path with positive numeraires the processed script — indices, domains, constant conditions removed — has exactly the value that the script over names describes:
all variables are zero at the start, the events happen in order, statements one after the other, `pays` adds the discounted amount. -/
theorem C113_value (fuzzy : Bool) (payoff : List Char) (cval : List Char → ℝ) (prog : List (PStmts ℝ)) (ht : ∀ e ∈ prog, Tames e)
    (hp : (payoff, none) ∈ prog.flatMap (Stmts.names cval)) (ha : Agree cval (prog.flatMap (Stmts.names cval))) :
    ∃ q, prepare fuzzy payoff cval prog = some q ∧ q.events.length = prog.length ∧ ∀ path : List (Script.Sample ℝ), path.length = prog.length → (∀ sp ∈ path, 0 < sp.numeraire) →
      evaluate realOps (fun k => q.values.getD k 0) (q.events.zip path) (fun _ => 0) q.payoff = worth [] [] prog path payoff := by
  obtain ⟨q, hq, hl⟩ := C113_prepared fuzzy payoff cval prog ht ⟨payoff, hp⟩
  refine ⟨q, hq, hl, fun path hpath hn => ?_⟩
  have h := prepareAll_eq fuzzy payoff cval [] prog q hq (fun _ => 0) rfl
  have hx : Seasoned.Fine (before [] (([] : List (PStmts ℝ)).map fun _ => (30 : ℝ)) ++ after prog path) fun _ => 0 := by
    refine tame_happened _ _ fun e he => ?_
    simp only [before, after, List.zip_nil_left, List.map_nil, List.nil_append, List.mem_map] at he
    obtain ⟨x, hx, rfl⟩ := he
    exact ht x.1 (List.of_mem_zip hx).1
  have key := C111_value_partial fuzzy payoff cval [] prog _ h hp ha (fun e he => tame_variables e (ht e he)) path hpath hn hx
  rw [exactFrom] at key
  dsimp only at key
  rw [List.length_nil, List.drop_zero] at key
  have h0 : (fun k => ((List.range q.vars.length).map fun _ => (0 : ℝ)).getD k 0) = fun _ => 0 := by
    funext k
    rw [List.getD_eq_getElem?_getD, List.getElem?_map]
    cases (List.range q.vars.length)[k]? <;> rfl
  rw [h0] at key
  exact key

/-- The hypotheses at work: `x = SPOT() / 4  IF x > K THEN y PAYS MAX(x - K, 0) END`, on two dates. -/
example : ∃ q, prepare true ['y'] (fun _ => 5) (List.replicate 2 (.cons (.assign ⟨['x'], false⟩ (.bin .div .spot (.const 4) none))
      (.cons (.ite (.cmp .sup (.bin .sub (.var ['x'] none) (.constVar ['K'] 5) none) ⟨-1, false, 0, 0⟩ {})
        (.cons (.pays ⟨['y'], false⟩ (.bin .max (.bin .sub (.var ['x'] none) (.constVar ['K'] 5) none) (.const 0) none)) .nil) false .nil [] {}) .nil))) = some q ∧
    evaluate realOps (fun k => q.values.getD k 0) (q.events.zip [⟨24, 1⟩, ⟨28, 2⟩]) (fun _ => 0) q.payoff = 2 := by
  obtain ⟨q, h1, -, h2⟩ := C113_value true ['y'] (fun _ => 5) (List.replicate 2 (.cons (.assign ⟨['x'], false⟩ (.bin .div .spot (.const 4) none))
      (.cons (.ite (.cmp .sup (.bin .sub (.var ['x'] none) (.constVar ['K'] 5) none) ⟨-1, false, 0, 0⟩ {})
        (.cons (.pays ⟨['y'], false⟩ (.bin .max (.bin .sub (.var ['x'] none) (.constVar ['K'] 5) none) (.const 0) none)) .nil) false .nil [] {}) .nil)))
    (by intro e he; rw [List.eq_of_mem_replicate he]; simp [Tames, Tame, TameC, TameE, Number])
    (by simp [List.replicate, Stmts.names, Stmt.names, Lhs.names])
    (by intro n c h; simp [List.replicate, Stmts.names, Stmt.names, Lhs.names, Expr.names, Cond.names] at h; exact h.2)
  refine ⟨q, h1, (h2 [⟨24, 1⟩, ⟨28, 2⟩] rfl (by intro s hs; simp at hs; rcases hs with rfl | rfl <;> norm_num)).trans ?_⟩
  norm_num [Seasoned.worth, Seasoned.story, Seasoned.before, Seasoned.after, Seasoned.runs, Seasoned.run, Seasoned.holds, Seasoned.value, List.replicate, Function.update_apply]
  rw [if_neg (by decide), if_neg (by decide)]
  norm_num

end Dal
