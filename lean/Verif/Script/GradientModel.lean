import Verif.Script.Ast
import Verif.Sim.DupireModel
import Mathlib.Analysis.SpecialFunctions.Pow.Real

/-!
# Scripts evaluated with numbers on the tape

Source: `dal/math/aad/expr.hpp`, `dal/script/visitor/evaluator.hpp`.

`Evaluator_<AAD::Number_>` runs the same visitor as `Evaluator_<double>`, with the operators of `expr.hpp` instead of those of `double`.

Simplifications: doubles are real numbers. A `Number_` is its value and its derivative in one direction; that the adjoints of the tape are such derivatives is C43. Division by zero,
and the logarithm and the root of a negative number, have the values of Lean.
-/

namespace Dal
open Dal.Models

/-- The operations of the evaluator on real numbers. -/
noncomputable def realOps : Script.Ops ℝ where
  zero := 0
  add := (· + ·)
  sub := (· - ·)
  mul := (· * ·)
  div := (· / ·)
  pow := (· ^ ·)
  neg := fun x => -x
  log := Real.log
  sqrt := Real.sqrt
  exp := Real.exp
  lt := fun x y => decide (x < y)
  le := fun x y => decide (x ≤ y)
  eq := fun x y => decide (x = y)

/-- The operators on `Number_` that the evaluator uses: the derivatives of `expr.hpp` 42–66 and 161–177, the unary minus of 451–454, the comparisons of the values of 376–446. -/
noncomputable def dualOps : Script.Ops Dual where
  zero := ⟨0, 0⟩
  add := fun a b => ⟨a.v + b.v, a.d + b.d⟩
  sub := fun a b => ⟨a.v - b.v, a.d + -1 * b.d⟩
  mul := fun a b => ⟨a.v * b.v, b.v * a.d + a.v * b.d⟩
  div := fun a b => ⟨a.v / b.v, 1 / b.v * a.d + -a.v / b.v / b.v * b.d⟩
  pow := fun a b => ⟨a.v ^ b.v, b.v * a.v ^ b.v / a.v * a.d + Real.log a.v * a.v ^ b.v * b.d⟩
  neg := fun a => ⟨0 - a.v, -1 * a.d⟩
  log := fun a => ⟨Real.log a.v, 1 / a.v * a.d⟩
  sqrt := fun a => ⟨Real.sqrt a.v, 0.5 / Real.sqrt a.v * a.d⟩
  exp := fun a => ⟨Real.exp a.v, Real.exp a.v * a.d⟩
  lt := fun a b => decide (a.v < b.v)
  le := fun a b => decide (a.v ≤ b.v)
  eq := fun a b => decide (a.v = b.v)

namespace Script

/-- A double as a `Number_` without a derivative (`expr.hpp` 495). -/
def lift (x : ℝ) : Dual := ⟨x, 0⟩

/-- The tree has doubles; the evaluator turns them into `Number_` (`evaluator.hpp` 269). -/
def Expr.lift {ν : Type} : Expr ν ℝ → Expr ν Dual
  | .bin op l r k => .bin op l.lift r.lift (k.map Script.lift)
  | .un op a k => .un op a.lift (k.map Script.lift)
  | .extra m x k => .extra m.lift x.lift (k.map Script.lift)
  | .const c => .const (Script.lift c)
  | .var v k => .var v (k.map Script.lift)
  | .constVar v c => .constVar v (Script.lift c)
  | .spot => .spot

/-- The same for conditions (`evaluator.hpp` 176–213). -/
def Cond.lift {ν : Type} : Cond ν ℝ → Cond ν Dual
  | .cmp op e a f => .cmp op e.lift ⟨Script.lift a.eps, a.discrete, Script.lift a.lb, Script.lift a.rb⟩ f
  | .and l r f => .and l.lift r.lift f
  | .or l r f => .or l.lift r.lift f
  | .not a f => .not a.lift f
  | .tt => .tt
  | .ff => .ff

mutual
/-- The same for statements (`evaluator.hpp` 216–255). -/
def Stmt.lift {ν : Type} : Stmt ν ℝ → Stmt ν Dual
  | .assign x e => .assign x e.lift
  | .pays x e => .pays x e.lift
  | .ite c t he e af f => .ite c.lift t.lift he e.lift af f
  | .collect b => .collect b.lift
/-- The same for lists of statements. -/
def Stmts.lift {ν : Type} : Stmts ν ℝ → Stmts ν Dual
  | .nil => .nil
  | .cons s ss => .cons s.lift ss.lift
end

end Script
end Dal
