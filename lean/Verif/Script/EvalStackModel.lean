import Verif.Script.CompileModel

/-! # The stacks of the evaluators

`EvaluatorBase_` (script/visitor/evaluator.hpp), `PastEvaluator_` (script/visitor/pastevaluator.hpp) and the stacks they work on (`StaticStack_`, math/stacks.hpp:131-165), which
have room for 128 entries and do not check it.  `none` is an access outside the array.  Numbers, nodes and variables are those of `Ast.lean`. -/

namespace Dal.Script
variable {D : Type}

/-- `StaticStack_::Push`, stacks.hpp:137; the top comes first. -/
def push128 {A : Type} (s : List A) (x : A) : Option (List A) := if s.length < 128 then some (x :: s) else none

/-- The stacks and the variables, evaluator.hpp:20-25. -/
structure EvalSt (D : Type) where
  d : List D
  b : List Bool
  σ : Nat → D

/-- Pushing a number. -/
def EvalSt.pushD (s : EvalSt D) (x : D) : Option (EvalSt D) := (push128 s.d x).map fun d => { s with d := d }

/-- Pushing a truth value. -/
def EvalSt.pushB (s : EvalSt D) (x : Bool) : Option (EvalSt D) := (push128 s.b x).map fun b => { s with b := b }

/-- Expressions, evaluator.hpp:107-173 and 258-275. -/
def visitE (o : Ops D) (cv : Nat → D) (sp : Sample D) : Expr Nat D → EvalSt D → Option (EvalSt D)
  | .bin op l r _, s => (visitE o cv sp l s).bind fun s => (visitE o cv sp r s).bind fun s =>
    match s.d with
    | y :: x :: d => some { s with d := evalBin o op x y :: d }
    | _ => none
  | .un op a _, s => (visitE o cv sp a s).bind fun s =>
    match s.d with
    | x :: d => some { s with d := evalUn o op x :: d }
    | _ => none
  | .extra m _ _, s => visitE o cv sp m s
  | .const c, s => s.pushD c
  | .var i _, s => s.pushD (s.σ i)
  | .constVar i _, s => s.pushD (cv i)
  | .spot, s => s.pushD sp.spot

/-- Conditions, evaluator.hpp:176-213 and 271-272. -/
def visitC (o : Ops D) (cv : Nat → D) (sp : Sample D) : Cond Nat D → EvalSt D → Option (EvalSt D)
  | .cmp op e _ _, s => (visitE o cv sp e s).bind fun s =>
    match s.d with
    | x :: d => ({ s with d := d } : EvalSt D).pushB (evalCmp o op x)
    | _ => none
  | .and l r _, s => (visitC o cv sp l s).bind fun s =>
    match s.b with
    | true :: b => visitC o cv sp r { s with b := b }
    | false :: _ => some s
    | [] => none
  | .or l r _, s => (visitC o cv sp l s).bind fun s =>
    match s.b with
    | false :: b => visitC o cv sp r { s with b := b }
    | true :: _ => some s
    | [] => none
  | .not a _, s => (visitC o cv sp a s).bind fun s =>
    match s.b with
    | x :: b => some { s with b := (!x) :: b }
    | [] => none
  | .tt, s => s.pushB true
  | .ff, s => s.pushB false

mutual
/-- Statements, evaluator.hpp:216-255; `past`: those of the past evaluator, pastevaluator.hpp:22-25, which leaves the amount of a payment on the stack. -/
def visitS (o : Ops D) (cv : Nat → D) (sp : Sample D) (past : Bool) : Stmt Nat D → EvalSt D → Option (EvalSt D)
  | .assign x e, s => (visitE o cv sp e s).bind fun s =>
    match s.d with
    | v :: d => some { s with d := d, σ := upd s.σ x.v v }
    | [] => none
  | .pays x e, s => (visitE o cv sp e s).bind fun s =>
    if past then some s
    else match s.d with
      | v :: d => some { s with d := d, σ := upd s.σ x.v (o.add (s.σ x.v) (o.div v sp.numeraire)) }
      | [] => none
  | .ite c t he e _ _, s => (visitC o cv sp c s).bind fun s =>
    match s.b with
    | true :: b => visitSs o cv sp past t { s with b := b }
    | false :: b => if he then visitSs o cv sp past e { s with b := b } else some { s with b := b }
    | [] => none
  | .collect b, s => visitSs o cv sp past b s
/-- Statements in order. -/
def visitSs (o : Ops D) (cv : Nat → D) (sp : Sample D) (past : Bool) : Stmts Nat D → EvalSt D → Option (EvalSt D)
  | .nil, s => some s
  | .cons st ss, s => (visitS o cv sp past st s).bind fun s => visitSs o cv sp past ss s
end

/-- Events in order, event.hpp:118-127. -/
def visitEvents (o : Ops D) (cv : Nat → D) (past : Bool) : List (Stmts Nat D × Sample D) → EvalSt D → Option (EvalSt D)
  | [], s => some s
  | ev :: evs, s => (visitSs o cv ev.2 past ev.1 s).bind fun s => visitEvents o cv past evs s

/-- `Evaluate`, event.hpp:118-127, after `Init`, evaluator.hpp:85-93, which empties the stacks. -/
def evaluateSt (o : Ops D) (cv : Nat → D) (evs : List (Stmts Nat D × Sample D)) (σ : Nat → D) : Option (Nat → D) :=
  (visitEvents o cv false evs ⟨[], [], σ⟩).map EvalSt.σ

/-- `PastEvaluate`, event.cpp:103-107: new stacks, variables at 0. -/
def pastEvaluateSt (o : Ops D) (cv : Nat → D) (sp : Sample D) (past : List (Stmts Nat D)) : Option (Nat → D) :=
  (visitEvents o cv true (past.map fun ev => (ev, sp)) ⟨[], [], fun _ => o.zero⟩).map EvalSt.σ

end Dal.Script
