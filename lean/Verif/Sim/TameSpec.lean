import Verif.Sim.SeasonedSpec

/-! # C113: scripts that can always be valued

A syntactic condition on scripts over names: one look at the text decides it. -/

namespace Dal.Seasoned
open Dal.Script
variable {ν : Type}

/-- A number or a constant that is not zero. -/
def Number : Expr ν ℝ → Prop
  | .const c => c ≠ 0
  | .constVar _ c => c ≠ 0
  | _ => False

/-- Expressions without `LOG`, whose calls of `MAX` and `MIN` have two arguments, and which divide by non-zero numbers and constants only. -/
def TameE : Expr ν ℝ → Prop
  | .bin op l r _ => TameE l ∧ TameE r ∧ (op = .div → Number r)
  | .un op a _ => TameE a ∧ op ≠ .log
  | .extra _ _ _ => False
  | .const _ => True
  | .var _ _ => True
  | .constVar _ _ => True
  | .spot => True

/-- Conditions on such expressions. -/
def TameC : Cond ν ℝ → Prop
  | .cmp _ e _ _ => TameE e
  | .and l r _ => TameC l ∧ TameC r
  | .or l r _ => TameC l ∧ TameC r
  | .not c _ => TameC c
  | .tt => False
  | .ff => False

mutual
/-- Statements with such expressions that assign to variables, never to constants. -/
def Tame : Stmt ν ℝ → Prop
  | .assign x e => x.isConst = false ∧ TameE e
  | .pays x e => x.isConst = false ∧ TameE e
  | .ite c t _ e _ _ => TameC c ∧ Tames t ∧ Tames e
  | .collect b => Tames b
/-- Statements in order. -/
def Tames : Stmts ν ℝ → Prop
  | .nil => True
  | .cons s ss => Tame s ∧ Tames ss
end

end Dal.Seasoned
