import Verif.Script.EvalStackModel
import Verif.Script.RoomSpec

/-! # C80: the stacks of the evaluators

Specification: the room an expression needs is counted on its tree; within 128 the evaluators on stacks do what the interpreter without stacks (`Ast.lean`) does. -/

namespace Dal
open Dal.Script
variable {D : Type}

private theorem pushD_eq (s : EvalSt D) (x : D) : s.pushD x = if s.d.length + 1 ≤ 128 then some { s with d := x :: s.d } else none := by
  unfold EvalSt.pushD push128
  by_cases h : s.d.length < 128
  · rw [if_pos h, if_pos (by omega)]; rfl
  · rw [if_neg h, if_neg (by omega)]; rfl

private theorem pushB_ok (s : EvalSt D) (x : Bool) (h : s.b.length < 128) : s.pushB x = some { s with b := x :: s.b } := by
  unfold EvalSt.pushB push128
  rw [if_pos h]; rfl

/-- C80, expressions: evaluating an expression on a stack pushes the value of the expression and leaves all else alone when there is room for it, and otherwise writes outside the
stack. -/
theorem C80_expression (o : Ops D) (cv : Nat → D) (sp : Sample D) (e : Expr Nat D) : ∀ s : EvalSt D,
    visitE o cv sp e s = if s.d.length + roomE e ≤ 128 then some { s with d := evalE o cv sp s.σ e :: s.d } else none := by
  induction e with
  | bin op l r k ihl ihr =>
    intro s
    rw [visitE, ihl, roomE]
    by_cases h1 : s.d.length + roomE l ≤ 128
    · rw [if_pos h1, Option.bind_some, ihr]
      by_cases h2 : s.d.length + 1 + roomE r ≤ 128
      · rw [if_pos (by simpa using h2), Option.bind_some, if_pos (by omega)]; rfl
      · rw [if_neg (by simpa using h2), if_neg (by omega)]; rfl
    · rw [if_neg h1, if_neg (by omega)]; rfl
  | un op a k ih =>
    intro s
    rw [visitE, ih, roomE]
    by_cases h : s.d.length + roomE a ≤ 128
    · rw [if_pos h, if_pos h]; rfl
    · rw [if_neg h, if_neg h]; rfl
  | extra m x k ihm _ => intro s; rw [visitE, ihm, roomE]; rfl
  | const c => intro s; exact pushD_eq s c
  | var i k => intro s; exact pushD_eq s _
  | constVar i c => intro s; exact pushD_eq s _
  | spot => intro s; exact pushD_eq s _

/-- C80, conditions: a condition needs one cell for truth values however it is nested, and then its value is pushed. -/
theorem C80_condition (o : Ops D) (cv : Nat → D) (sp : Sample D) (c : Cond Nat D) : ∀ s : EvalSt D, s.d.length + roomC c ≤ 128 → s.b.length < 128 →
    visitC o cv sp c s = some { s with b := evalC o cv sp s.σ c :: s.b } := by
  induction c with
  | cmp op e a f =>
    intro s h hb
    rw [visitC, C80_expression, if_pos (by simpa [roomC] using h), Option.bind_some]
    exact pushB_ok _ _ hb
  | and l r f ihl ihr =>
    intro s h hb
    rw [roomC] at h
    rw [visitC, ihl s (by omega) hb, Option.bind_some, evalC]
    cases hl : evalC o cv sp s.σ l with
    | true => dsimp only; exact ihr s (by omega) hb
    | false => rfl
  | or l r f ihl ihr =>
    intro s h hb
    rw [roomC] at h
    rw [visitC, ihl s (by omega) hb, Option.bind_some, evalC]
    cases hl : evalC o cv sp s.σ l with
    | false => dsimp only; exact ihr s (by omega) hb
    | true => rfl
  | not a f ih =>
    intro s h hb
    rw [visitC, ih s h hb, Option.bind_some, evalC]
  | tt => intro s h hb; exact pushB_ok s true hb
  | ff => intro s h hb; exact pushB_ok s false hb

mutual
private theorem stmt_ok (o : Ops D) (cv : Nat → D) (sp : Sample D) : ∀ (st : Stmt Nat D) (s : EvalSt D), s.d.length + roomS st ≤ 128 → s.b.length < 128 →
    visitS o cv sp false st s = some { s with σ := exec o cv sp st s.σ }
  | .assign x e, s, h, hb => by
    rw [visitS, C80_expression, if_pos (by simpa [roomS] using h), Option.bind_some, exec]
  | .pays x e, s, h, hb => by
    rw [visitS, C80_expression, if_pos (by simpa [roomS] using h), Option.bind_some, exec]
    rfl
  | .ite c t he e _ _, s, h, hb => by
    rw [roomS] at h
    rw [visitS, C80_condition o cv sp c s (by omega) hb, Option.bind_some, exec]
    cases evalC o cv sp s.σ c with
    | true => exact stmts_ok o cv sp t s (by omega) hb
    | false =>
      cases he with
      | true => exact stmts_ok o cv sp e s (by omega) hb
      | false => rfl
  | .collect b, s, h, hb => by
    rw [visitS, exec]
    exact stmts_ok o cv sp b s h hb
private theorem stmts_ok (o : Ops D) (cv : Nat → D) (sp : Sample D) : ∀ (ss : Stmts Nat D) (s : EvalSt D), s.d.length + roomSs ss ≤ 128 → s.b.length < 128 →
    visitSs o cv sp false ss s = some { s with σ := execs o cv sp ss s.σ }
  | .nil, s, _, _ => rfl
  | .cons st ss, s, h, hb => by
    rw [roomSs] at h
    rw [visitSs, stmt_ok o cv sp st s (by omega) hb, Option.bind_some, execs]
    exact stmts_ok o cv sp ss _ (by dsimp only; omega) hb
end

private theorem events_ok (o : Ops D) (cv : Nat → D) : ∀ (evs : List (Stmts Nat D × Sample D)) (s : EvalSt D), (∀ ev ∈ evs, s.d.length + roomSs ev.1 ≤ 128) → s.b.length < 128 →
    visitEvents o cv false evs s = some { s with σ := evaluate o cv evs s.σ } := by
  intro evs
  induction evs with
  | nil => intro s _ _; rfl
  | cons ev evs ih =>
    intro s h hb
    rw [visitEvents, stmts_ok o cv ev.2 ev.1 s (h ev (List.mem_cons_self ..)) hb, Option.bind_some]
    exact ih ⟨s.d, s.b, execs o cv ev.2 ev.1 s.σ⟩ (fun e he => h e (List.mem_cons_of_mem _ he)) hb

/-- C80, evaluation: when no expression of a script needs more than 128 cells, evaluating it on the stacks gives what the interpreter gives, with every number of events and
statements. -/
theorem C80_evaluate (o : Ops D) (cv : Nat → D) (evs : List (Stmts Nat D × Sample D)) (σ : Nat → D) (h : ∀ ev ∈ evs, roomSs ev.1 ≤ 128) :
    evaluateSt o cv evs σ = some (evaluate o cv evs σ) := by
  unfold evaluateSt
  rw [events_ok o cv evs _ (fun ev he => by rw [List.length_nil, Nat.zero_add]; exact h ev he) (by simp)]
  rfl

/-- A left chain: `a0 op a1 op a2 …` as it is written without parentheses. -/
def leftChain (op : BinOp) (a : Expr Nat D) (as : List (Expr Nat D)) : Expr Nat D := as.foldl (fun l r => .bin op l r none) a

/-- C80: a chain of any length needs at most one cell more than its members. -/
theorem C80_chain (op : BinOp) (n : Nat) : ∀ (as : List (Expr Nat D)) (a : Expr Nat D), roomE a ≤ n + 1 → (∀ x ∈ as, roomE x ≤ n) → roomE (leftChain op a as) ≤ n + 1 := by
  intro as
  induction as with
  | nil => intro a h _; exact h
  | cons x as ih =>
    intro a h hx
    refine ih _ ?_ fun y hy => hx y (List.mem_cons_of_mem _ hy)
    rw [roomE]
    have := hx x (List.mem_cons_self ..)
    omega

/-- `c + (c + (… + c))` with `n` sums. -/
def rightNested (c : D) : Nat → Expr Nat D
  | 0 => .const c
  | n + 1 => .bin .add (.const c) (rightNested c n) none

/-- C80 fails for deep nesting: a script with 128 sums nested to the right writes outside the stack; with 127 it does not. -/
theorem C80_deep_violated (o : Ops D) (cv : Nat → D) (sp : Sample D) (σ : Nat → D) (c : D) (x : Lhs Nat) (n : Nat) :
    evaluateSt o cv [(.cons (.assign x (rightNested c n)) .nil, sp)] σ = none ↔ 128 ≤ n := by
  have hroom : ∀ n, roomE (rightNested c n) = n + 1 := by
    intro n
    induction n with
    | zero => rfl
    | succ n ih => rw [rightNested, roomE, ih, roomE]; omega
  constructor
  · intro h
    by_contra hn
    rw [C80_evaluate o cv _ σ (fun ev he => by
      rw [List.mem_singleton] at he
      subst he
      simp only [roomSs, roomS, hroom]
      omega)] at h
    cases h
  · intro hn
    unfold evaluateSt
    rw [visitEvents, visitSs, visitS, C80_expression, if_neg (by rw [hroom]; simp; omega)]
    rfl

/-! ## Events in the past -/

mutual
/-- The payments a past statement makes. -/
def paidS (o : Ops D) (cv : Nat → D) (sp : Sample D) : Stmt Nat D → (Nat → D) → Nat
  | .assign _ _, _ => 0
  | .pays _ _, _ => 1
  | .ite c t he e _ _, σ => if evalC o cv sp σ c then paidSs o cv sp t σ else if he then paidSs o cv sp e σ else 0
  | .collect b, σ => paidSs o cv sp b σ
/-- The payments past statements make. -/
def paidSs (o : Ops D) (cv : Nat → D) (sp : Sample D) : Stmts Nat D → (Nat → D) → Nat
  | .nil, _ => 0
  | .cons s ss, σ => paidS o cv sp s σ + paidSs o cv sp ss (pastExec o cv sp s σ)
end

/-- The payments in past events. -/
def paid (o : Ops D) (cv : Nat → D) (sp : Sample D) : List (Stmts Nat D) → (Nat → D) → Nat
  | [], _ => 0
  | ev :: evs, σ => paidSs o cv sp ev σ + paid o cv sp evs (pastExecs o cv sp ev σ)

mutual
private theorem past_stmt (o : Ops D) (cv : Nat → D) (sp : Sample D) : ∀ (st : Stmt Nat D) (s : EvalSt D), s.d.length + paidS o cv sp st s.σ + roomS st ≤ 128 → s.b.length < 128 →
    ∃ d, visitS o cv sp true st s = some ⟨d, s.b, pastExec o cv sp st s.σ⟩ ∧ d.length = s.d.length + paidS o cv sp st s.σ
  | .assign x e, s, h, hb => by
    rw [visitS, C80_expression, if_pos (by simp only [roomS, paidS] at h; omega), Option.bind_some]
    exact ⟨_, rfl, rfl⟩
  | .pays x e, s, h, hb => by
    rw [visitS, C80_expression, if_pos (by simp only [roomS, paidS] at h; omega), Option.bind_some]
    exact ⟨_, rfl, rfl⟩
  | .ite c t he e _ _, s, h, hb => by
    rw [roomS, paidS] at h
    rw [visitS, C80_condition o cv sp c s (by omega) hb, Option.bind_some, pastExec, paidS]
    cases hc : evalC o cv sp s.σ c with
    | true =>
      rw [hc, if_pos rfl] at h
      exact past_stmts o cv sp t s (by omega) hb
    | false =>
      rw [hc, if_neg (by decide)] at h
      cases he with
      | true => rw [if_pos rfl] at h; exact past_stmts o cv sp e s (by omega) hb
      | false => exact ⟨s.d, rfl, rfl⟩
  | .collect b, s, h, hb => by
    rw [visitS, pastExec, paidS]
    exact past_stmts o cv sp b s h hb
private theorem past_stmts (o : Ops D) (cv : Nat → D) (sp : Sample D) : ∀ (ss : Stmts Nat D) (s : EvalSt D), s.d.length + paidSs o cv sp ss s.σ + roomSs ss ≤ 128 → s.b.length < 128 →
    ∃ d, visitSs o cv sp true ss s = some ⟨d, s.b, pastExecs o cv sp ss s.σ⟩ ∧ d.length = s.d.length + paidSs o cv sp ss s.σ
  | .nil, s, _, _ => ⟨s.d, rfl, rfl⟩
  | .cons st ss, s, h, hb => by
    rw [roomSs, paidSs] at h
    obtain ⟨d, h1, h2⟩ := past_stmt o cv sp st s (by omega) hb
    obtain ⟨d', h3, h4⟩ := past_stmts o cv sp ss ⟨d, s.b, pastExec o cv sp st s.σ⟩ (by dsimp only; omega) hb
    refine ⟨d', ?_, by dsimp only at h4; rw [paidSs]; omega⟩
    rw [visitSs, h1, Option.bind_some, h3, pastExecs]
end

/-- C80, the past: when the payments made in the past and the room of every expression together are within 128, past evaluation on the stacks gives the variables of the
interpreter. Missing: more payments, see `C80_past_violated`. -/
theorem C80_past_partial (o : Ops D) (cv : Nat → D) (sp : Sample D) (past : List (Stmts Nat D))
    (h : ∀ ev ∈ past, paid o cv sp past (fun _ => o.zero) + roomSs ev ≤ 128) : pastEvaluateSt o cv sp past = some (pastEvaluate o cv sp past) := by
  have key : ∀ (evs : List (Stmts Nat D)) (s : EvalSt D), (∀ ev ∈ evs, s.d.length + paid o cv sp evs s.σ + roomSs ev ≤ 128) → s.b.length < 128 →
      ∃ d, visitEvents o cv true (evs.map fun ev => (ev, sp)) s = some ⟨d, s.b, evs.foldl (fun σ ev => pastExecs o cv sp ev σ) s.σ⟩ := by
    intro evs
    induction evs with
    | nil => intro s _ _; exact ⟨s.d, rfl⟩
    | cons ev evs ih =>
      intro s h hb
      have h0 := h ev (List.mem_cons_self ..)
      rw [paid] at h0
      obtain ⟨d, h1, h2⟩ := past_stmts o cv sp ev s (by omega) hb
      obtain ⟨d', h3⟩ := ih ⟨d, s.b, pastExecs o cv sp ev s.σ⟩ (fun e he => by
        have := h e (List.mem_cons_of_mem _ he)
        rw [paid] at this
        dsimp only
        omega) hb
      refine ⟨d', ?_⟩
      rw [List.map_cons, visitEvents, h1, Option.bind_some, h3]
      rfl
  obtain ⟨d, hd⟩ := key past ⟨[], [], fun _ => o.zero⟩ (fun ev he => by have := h ev he; simpa using this) (by simp)
  unfold pastEvaluateSt
  rw [hd]
  rfl

/-- C80 fails for payments in the past: each leaves its amount on the stack, so a product with more than 128 past payments writes outside it, however simple they are. -/
theorem C80_past_violated (o : Ops D) (cv : Nat → D) (sp : Sample D) (x : Lhs Nat) (c : D) (n : Nat) :
    pastEvaluateSt o cv sp (List.replicate n (.cons (.pays x (.const c)) .nil)) = none ↔ 128 < n := by
  have key : ∀ (n : Nat) (s : EvalSt D), s.d.length ≤ 128 →
      (visitEvents o cv true ((List.replicate n (Stmts.cons (.pays x (.const c)) .nil)).map fun ev => (ev, sp)) s = none ↔ 128 < s.d.length + n) := by
    intro n
    induction n with
    | zero =>
      intro s h
      constructor
      · intro h'; cases h'
      · intro h'; omega
    | succ n ih =>
      intro s h
      rw [List.replicate_succ, List.map_cons, visitEvents, visitSs, visitS, C80_expression, roomE]
      by_cases h1 : s.d.length + 1 ≤ 128
      · rw [if_pos h1, Option.bind_some, if_pos rfl, Option.bind_some, visitSs, Option.bind_some, ih _ (by simpa using h1)]
        simp only [List.length_cons]
        omega
      · rw [if_neg h1]
        constructor
        · intro _; omega
        · intro _; rfl
  unfold pastEvaluateSt
  rw [Option.map_eq_none_iff, key n _ (by simp)]
  simp

example : pastEvaluateSt ratOps (fun _ => 0) ⟨30, 1⟩ (List.replicate 100 (.cons (.pays ⟨0, false⟩ (.const 1)) .nil)) ≠ none := fun h =>
  absurd ((C80_past_violated ratOps (fun _ => 0) ⟨30, 1⟩ ⟨0, false⟩ 1 100).1 h) (by decide)

/-- Hypotheses of the positive theorems for a script with a chain of a thousand terms. -/
example : evaluateSt ratOps (fun _ => 0) [(.cons (.assign ⟨0, false⟩ (leftChain .add (.const 1) (List.replicate 1000 .spot))) .nil, ⟨5, 1⟩)] (fun _ => 0) =
    some (evaluate ratOps (fun _ => 0) [(.cons (.assign ⟨0, false⟩ (leftChain .add (.const 1) (List.replicate 1000 .spot))) .nil, ⟨5, 1⟩)] (fun _ => 0)) :=
  C80_evaluate _ _ _ _ fun ev he => by
    rw [List.mem_singleton] at he
    subst he
    have := C80_chain (D := Rat) .add 1 (List.replicate 1000 .spot) (.const 1) (by decide) (fun x hx => by rw [List.eq_of_mem_replicate hx]; decide)
    simp only [roomSs, roomS]
    omega

end Dal
