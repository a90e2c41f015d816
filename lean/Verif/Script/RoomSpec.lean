import Verif.Script.Ast

/-! # The room expressions and conditions need on the evaluation stacks

Counted on the tree, for C29 and C80. -/

namespace Dal
open Dal.Script
variable {D : Type}

/-- The number of cells an expression needs: the left argument stays while the right one is evaluated. -/
def roomE : Expr Nat D → Nat
  | .bin _ l r _ => max (roomE l) (roomE r + 1)
  | .un _ a _ => roomE a
  | .extra m _ _ => roomE m
  | .const _ => 1
  | .var _ _ => 1
  | .constVar _ _ => 1
  | .spot => 1

/-- The most an expression in a condition needs. -/
def roomC : Cond Nat D → Nat
  | .cmp _ e _ _ => roomE e
  | .and l r _ => max (roomC l) (roomC r)
  | .or l r _ => max (roomC l) (roomC r)
  | .not a _ => roomC a
  | .tt => 0
  | .ff => 0

/-- The number of truth values a condition needs when both sides of a connective are evaluated. -/
def truthsC : Cond Nat D → Nat
  | .cmp _ _ _ _ => 1
  | .and l r _ => max (truthsC l) (truthsC r + 1)
  | .or l r _ => max (truthsC l) (truthsC r + 1)
  | .not a _ => truthsC a
  | .tt => 1
  | .ff => 1

mutual
/-- The most an expression in a statement needs. -/
def roomS : Stmt Nat D → Nat
  | .assign _ e => roomE e
  | .pays _ e => roomE e
  | .ite c t _ e _ _ => max (roomC c) (max (roomSs t) (roomSs e))
  | .collect b => roomSs b
/-- The most an expression in statements needs. -/
def roomSs : Stmts Nat D → Nat
  | .nil => 0
  | .cons s ss => max (roomS s) (roomSs ss)
end

mutual
/-- The most a condition in a statement needs. -/
def truthsS : Stmt Nat D → Nat
  | .assign _ _ => 0
  | .pays _ _ => 0
  | .ite c t _ e _ _ => max (truthsC c) (max (truthsSs t) (truthsSs e))
  | .collect b => truthsSs b
/-- The most a condition in statements needs. -/
def truthsSs : Stmts Nat D → Nat
  | .nil => 0
  | .cons s ss => max (truthsS s) (truthsSs ss)
end

end Dal
