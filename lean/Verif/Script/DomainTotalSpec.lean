import Verif.Script.Ast

/-! # C32, C113: the scripts that can be analysed -/

namespace Dal.Script

variable {K : Type} [Zero K]

/-- What may stand under a division: a number or a constant other than zero, or the spot. -/
def Divisor : Expr Nat K → Prop
  | .const c => c ≠ 0
  | .constVar _ c => c ≠ 0
  | .spot => True
  | _ => False

/-- A call of two arguments, possibly with further ones added. -/
def Call : Expr Nat K → Prop
  | .bin _ _ _ _ => True
  | .extra m _ _ => Call m
  | _ => False

/-- The divisions in an expression are harmless. -/
def DivsE : Expr Nat K → Prop
  | .bin op l r _ => DivsE l ∧ DivsE r ∧ (op = .div → Divisor r)
  | .un _ a _ => DivsE a
  | .extra m x _ => Call m ∧ DivsE m ∧ DivsE x
  | _ => True

/-- The divisions in a condition are harmless. -/
def DivsC : Cond Nat K → Prop
  | .cmp _ e _ _ => DivsE e
  | .and l r _ => DivsC l ∧ DivsC r
  | .or l r _ => DivsC l ∧ DivsC r
  | .not c _ => DivsC c
  | .tt => False
  | .ff => False

mutual
/-- The divisions in a statement are harmless. -/
def DivsS : Stmt Nat K → Prop
  | .assign _ e => DivsE e
  | .pays _ e => DivsE e
  | .ite c t _ e _ _ => DivsC c ∧ DivsSs t ∧ DivsSs e
  | .collect b => DivsSs b
/-- The divisions in some statements are harmless. -/
def DivsSs : Stmts Nat K → Prop
  | .nil => True
  | .cons s ss => DivsS s ∧ DivsSs ss
end

end Dal.Script
