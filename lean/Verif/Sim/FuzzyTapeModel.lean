import Verif.Sim.TapeModel
import Verif.Script.CondModel

/-!
# Simulations with `Number_` through the smoothed evaluator: what the tape records

Source: `dal/script/visitor/fuzzy.hpp` 15–261, `dal/script/visitor/evaluator.hpp` 81–275, `dal/script/event.hpp` 76–81 and 118–127, `dal/script/simulation.hpp` 38–58 and 229–252,
`dal/math/aad/expr.hpp` 448–620.

The stacks, the variables and the stores hold numbers, that is positions on the tape, as in `TapeModel`. The constant variables are numbers too, before the mark.

Simplifications: those of `TapeModel`. The indices of the constant variables that do not exist and the stores before they are written stand for a leaf of value zero. A division by a double
that is zero and a negation are undefined (`none`), as in `CondModel`. The number of rows of the stores is not bounded.
-/

namespace Dal.TapeRun

open Dal.Adj Dal.Script

/-- The bodies of `VisitBinary` (`evaluator.hpp` 112–146); the larger and the smaller number are copies. -/
noncomputable def vBin (lib : Lib) (op : BinOp) (t : Tape) (a b : Nat) : Tape × Nat :=
  match op with
  | .add => t.expr lib (.bin .add (.num a) (.num b))
  | .sub => t.expr lib (.bin .sub (.num a) (.num b))
  | .mul => t.expr lib (.bin .mult (.num a) (.num b))
  | .div => t.expr lib (.bin .div (.num a) (.num b))
  | .pow => t.expr lib (.bin .pow (.num a) (.num b))
  | .max => (t, if t.env a < t.env b then b else a)
  | .min => (t, if t.env b < t.env a then b else a)

/-- The bodies of `VisitUnary` (`evaluator.hpp` 154–173); the unary minus is `expr.hpp` 451–454. -/
noncomputable def vUn (lib : Lib) (op : UnOp) (t : Tape) (x : Nat) : Tape × Nat :=
  match op with
  | .uplus => (t, x)
  | .uminus => t.expr lib (.un .subDL 0 (.num x))
  | .log => t.expr lib (.un .log 0 (.num x))
  | .sqrt => t.expr lib (.un .sqrt 0 (.num x))
  | .exp => t.expr lib (.un .exp 0 (.num x))

/-- Expressions (`evaluator.hpp` 107–173 and 258–275): a constant becomes a leaf; variables, constant variables and the spot are copied. -/
noncomputable def vE (lib : Lib) (cv : Nat → Nat) (sp : Script.Sample Nat) (σ : Nat → Nat) : Expr Nat ℝ → Tape → Tape × Nat
  | .bin op l r _, t =>
    let a := vE lib cv sp σ l t
    let b := vE lib cv sp σ r a.1
    vBin lib op b.1 a.2 b.2
  | .un op e _, t =>
    let a := vE lib cv sp σ e t
    vUn lib op a.1 a.2
  | .extra m _ _, t => vE lib cv sp σ m t
  | .const c, t => t.leaf c
  | .var k _, t => (t, σ k)
  | .constVar k _, t => (t, cv k)
  | .spot, t => (t, sp.spot)

/-- `CSpr(x, eps)` (`fuzzy.hpp` 15–24). -/
noncomputable def vCspr (lib : Lib) (t : Tape) (x : Nat) (eps : ℝ) : Option (Tape × Nat) :=
  if t.env x < -(eps / 2) then some (t.leaf 0) else if eps / 2 < t.env x then some (t.leaf 1)
  else if eps = 0 then none else some (t.expr lib (.un .divDR eps (.un .addD (eps / 2) (.num x))))

/-- `CSpr(x, lb, rb)` (`fuzzy.hpp` 26–33). -/
noncomputable def vCspr2 (lib : Lib) (t : Tape) (x : Nat) (lb rb : ℝ) : Option (Tape × Nat) :=
  if t.env x < lb then some (t.leaf 0) else if rb < t.env x then some (t.leaf 1)
  else if rb - lb = 0 then none else some (t.expr lib (.un .divDR (rb - lb) (.un .subDR lb (.num x))))

/-- `BFly(x, eps)` (`fuzzy.hpp` 35–42). -/
noncomputable def vBfly (lib : Lib) (t : Tape) (x : Nat) (eps : ℝ) : Option (Tape × Nat) :=
  if t.env x < -(eps / 2) ∨ eps / 2 < t.env x then some (t.leaf 0)
  else if eps / 2 = 0 then none else some (t.expr lib (.un .divDR (eps / 2) (.un .subDL (eps / 2) (.un .fabs 0 (.num x)))))

/-- `BFly(x, lb, rb)` (`fuzzy.hpp` 44–51). -/
noncomputable def vBfly2 (lib : Lib) (t : Tape) (x : Nat) (lb rb : ℝ) : Option (Tape × Nat) :=
  if t.env x < lb ∨ rb < t.env x then some (t.leaf 0)
  else if t.env x < 0 then if lb = 0 then none else some (t.expr lib (.un .subDL 1 (.un .divDR lb (.num x))))
  else if rb = 0 then none else some (t.expr lib (.un .subDL 1 (.un .divDR rb (.num x))))

/-- Conditions (`fuzzy.hpp` 191–261); the right degree is popped first. -/
noncomputable def vC (lib : Lib) (cv : Nat → Nat) (sp : Script.Sample Nat) (defEps : ℝ) (σ : Nat → Nat) : Cond Nat ℝ → Tape → Option (Tape × Nat)
  | .cmp op e a _, t =>
    let x := vE lib cv sp σ e t
    let eps := if a.eps < 0 then defEps else a.eps
    match op with
    | .equal => if a.discrete then vBfly2 lib x.1 x.2 a.lb a.rb else vBfly lib x.1 x.2 eps
    | .sup => if a.discrete then vCspr2 lib x.1 x.2 a.lb a.rb else vCspr lib x.1 x.2 eps
    | .supEq => if a.discrete then vCspr2 lib x.1 x.2 a.lb a.rb else vCspr lib x.1 x.2 eps
  | .and l r _, t =>
    match vC lib cv sp defEps σ l t with
    | none => none
    | some x =>
      match vC lib cv sp defEps σ r x.1 with
      | none => none
      | some y => some (y.1.expr lib (.bin .mult (.num y.2) (.num x.2)))
  | .or l r _, t =>
    match vC lib cv sp defEps σ l t with
    | none => none
    | some x =>
      match vC lib cv sp defEps σ r x.1 with
      | none => none
      | some y => some (y.1.expr lib (.bin .sub (.bin .add (.num y.2) (.num x.2)) (.bin .mult (.num y.2) (.num x.2))))
  | .not _ _, _ => none
  | .tt, t => some (t.leaf 1)
  | .ff, t => some (t.leaf 0)

/-- The loop that sets the affected variables to their blends (`fuzzy.hpp` 181–183), one node each (`affectedVars_` has no repetition). -/
noncomputable def vBlend (lib : Lib) (dt : Nat) (s1 σ : Nat → Nat) : List Nat → Tape → (Nat → Nat) → Tape × (Nat → Nat)
  | [], t, σ' => (t, σ')
  | j :: af, t, σ' =>
    let r := t.expr lib (.bin .add (.bin .mult (.num dt) (.num (s1 j))) (.bin .mult (.un .subDL 1 (.num dt)) (.num (σ j))))
    vBlend lib dt s1 σ af r.1 (upd σ' j r.2)

mutual
/-- Statements (`fuzzy.hpp` 135–188, `evaluator.hpp` 238–255); `lvl` is `nestedIfLvl_` before the statement and `eps` is `EPSILON`. -/
noncomputable def vS (lib : Lib) (cv : Nat → Nat) (sp : Script.Sample Nat) (defEps eps : ℝ) : Stmt Nat ℝ → Nat → Tape → FSt Nat → Option (Tape × FSt Nat)
  | .assign x e, _, t, s =>
    let r := vE lib cv sp s.σ e t
    some (r.1, { s with σ := upd s.σ x.v r.2 })
  | .pays x e, _, t, s =>
    let r := vE lib cv sp s.σ e t
    let q := tPays lib r.1 (s.σ x.v) r.2 sp.numeraire
    some (q.1, { s with σ := upd s.σ x.v q.2 })
  | .ite c b he e af _, lvl, t, s =>
    match vC lib cv sp defEps s.σ c t with
    | none => none
    | some dt =>
      if 1 - eps < dt.1.env dt.2 then vSs lib cv sp defEps eps b (lvl + 1) dt.1 s
      else if dt.1.env dt.2 < eps then
        if he then vSs lib cv sp defEps eps e (lvl + 1) dt.1 s else some (dt.1, s)
      else
        match vSs lib cv sp defEps eps b (lvl + 1) dt.1 { s with s0 := setRow s.s0 lvl af s.σ } with
        | none => none
        | some a =>
          match (if he then vSs lib cv sp defEps eps e (lvl + 1) a.1 { a.2 with s1 := setRow a.2.s1 lvl af a.2.σ, σ := setVars a.2.σ af (a.2.s0 lvl) }
            else some (a.1, { a.2 with s1 := setRow a.2.s1 lvl af a.2.σ, σ := setVars a.2.σ af (a.2.s0 lvl) })) with
          | none => none
          | some d =>
            let r := vBlend lib dt.2 (d.2.s1 lvl) d.2.σ af d.1 d.2.σ
            some (r.1, { d.2 with σ := r.2 })
  | .collect b, lvl, t, s => vSs lib cv sp defEps eps b lvl t s
/-- Statements in order. -/
noncomputable def vSs (lib : Lib) (cv : Nat → Nat) (sp : Script.Sample Nat) (defEps eps : ℝ) : Stmts Nat ℝ → Nat → Tape → FSt Nat → Option (Tape × FSt Nat)
  | .nil, _, t, s => some (t, s)
  | .cons st ss, lvl, t, s =>
    match vS lib cv sp defEps eps st lvl t s with
    | none => none
    | some r => vSs lib cv sp defEps eps ss lvl r.1 r.2
end

/-- The loop of `Evaluate` over the events (`event.hpp` 122–126). -/
noncomputable def vEvents (lib : Lib) (cv : Nat → Nat) (defEps eps : ℝ) : List (Stmts Nat ℝ × Script.Sample Nat) → Tape → FSt Nat → Option (Tape × FSt Nat)
  | [], t, s => some (t, s)
  | ev :: evs, t, s =>
    match vSs lib cv ev.2 defEps eps ev.1 0 t s with
    | none => none
    | some r => vEvents lib cv defEps eps evs r.1 r.2

/-- `Evaluate` (`event.hpp` 118–127) after `Init` (`evaluator.hpp` 82–89); the constant variables are at the positions from 4 on (`simulation.hpp` 43–47). -/
noncomputable def vEvaluate (lib : Lib) (defEps eps : ℝ) (nConsts : Nat) (vars : List ℝ) (evs : List (Stmts Nat ℝ × Script.Sample Nat)) (t : Tape) : Option (Tape × (Nat → Nat)) :=
  let z := t.nodes.length + vars.length
  match vEvents lib (fun k => if k < nConsts then 4 + k else z) defEps eps evs (tInit t vars).1 ⟨(tInit t vars).2, fun _ _ => z, fun _ _ => z⟩ with
  | none => none
  | some r => some (r.1, r.2.σ)

/-- What is simulated: the statements of the events, the initial variables, the index of the payoff, the smoothing factor and `EPSILON`. -/
structure Scripted where
  events : List (Stmts Nat ℝ)
  vars : List ℝ
  payoff : Nat
  defEps : ℝ
  eps : ℝ

/-- One path (`simulation.hpp` 233–241): rewinding to the mark, the path, the evaluation, and the propagation of the payoff to the mark. The result is the payoff and the adjoints. -/
noncomputable def vOne (lib : Lib) (eps : ℝ) (nConsts : Nat) (p : Scripted) (bs : Base) (today : Bool) (gauss : Nat → ℝ) (adj : Nat → ℝ) : Option (ℝ × (Nat → ℝ)) :=
  let sc := tScenario lib bs today gauss
  match vEvaluate lib p.defEps p.eps nConsts p.vars (p.events.zip sc.2) sc.1 with
  | none => none
  | some (t, σ) =>
    match propagateFrom eps t.nodes (σ p.payoff) bs.tape.nodes.length (fun k => if k < bs.tape.nodes.length then adj k else 0) with
    | none => none
    | some adj' => some (t.env (σ p.payoff), adj')

/-- All paths: the sum of the payoffs and the adjoints. -/
noncomputable def vPaths (lib : Lib) (eps : ℝ) (nConsts : Nat) (p : Scripted) (bs : Base) (today : Bool) : List (Nat → ℝ) → ℝ → (Nat → ℝ) → Option (ℝ × (Nat → ℝ))
  | [], sum, adj => some (sum, adj)
  | g :: gs, sum, adj =>
    match vOne lib eps nConsts p bs today g adj with
    | none => none
    | some r => vPaths lib eps nConsts p bs today gs (sum + r.1) r.2

/-- One task (`simulation.hpp` 229–252): the sum of the payoffs, and the risks of the parameters and of the constant variables. -/
noncomputable def vSimulate (lib : Lib) (eps : ℝ) (p : Scripted) (b : Models.BS ℝ) (consts product : List ℝ) (nPaths : Nat) (gs : List (Nat → ℝ)) : Option (ℝ × List ℝ) :=
  match TimeLine.bsAllocate product with
  | none => none
  | some (line, flags) =>
    let bs := base lib b consts line product
    match vPaths lib eps consts.length p bs (flags.headD false) gs 0 (fun _ => 0) with
    | none => none
    | some (sum, adj) =>
      match propagate eps bs.tape.nodes (bs.tape.nodes.length - 1) 0 adj with
      | none => none
      | some adj' => some (sum, (List.range (4 + consts.length)).map fun j => adj' j / nPaths)

/-- All tasks (`simulation.hpp` 187–271): the payoffs and the risks of the tasks are added up; the tasks of a thread share its slot, and the slots are added at the end. -/
noncomputable def vTasks (lib : Lib) (eps : ℝ) (p : Scripted) (b : Models.BS ℝ) (consts product : List ℝ) (nPaths : Nat) : List (List (Nat → ℝ)) → Option (ℝ × List ℝ)
  | [] => some (0, List.replicate (4 + consts.length) 0)
  | gs :: rest =>
    match vSimulate lib eps p b consts product nPaths gs, vTasks lib eps p b consts product nPaths rest with
    | some x, some y => some (x.1 + y.1, List.zipWith (· + ·) x.2 y.2)
    | _, _ => none

end Dal.TapeRun
