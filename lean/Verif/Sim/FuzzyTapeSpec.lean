import Verif.Script.Ast
import Mathlib.Data.Real.Basic

/-! # Which variables are never copies of parameters -/

namespace Dal.TapeRun
open Dal.Script

/-- The value of the expression is a number made on the path, if the variables `F` hold such numbers: a copy of a constant variable is not, and `S` says whether the spot is. -/
def Own (S : Prop) (F : Nat → Prop) : Expr Nat ℝ → Prop
  | .bin .max l r _ => Own S F l ∧ Own S F r
  | .bin .min l r _ => Own S F l ∧ Own S F r
  | .bin _ _ _ _ => True
  | .un .uplus a _ => Own S F a
  | .un _ _ _ => True
  | .extra m _ _ => Own S F m
  | .const _ => True
  | .var k _ => F k
  | .constVar _ _ => False
  | .spot => S

mutual
/-- What the statement assigns to the variables `F` are numbers made on the path. -/
def OwnS (S : Prop) (F : Nat → Prop) : Stmt Nat ℝ → Prop
  | .assign x e => F x.v → Own S F e
  | .pays _ _ => True
  | .ite _ t _ e _ _ => OwnSs S F t ∧ OwnSs S F e
  | .collect b => OwnSs S F b
/-- The same for lists of statements. -/
def OwnSs (S : Prop) (F : Nat → Prop) : Stmts Nat ℝ → Prop
  | .nil => True
  | .cons s ss => OwnS S F s ∧ OwnSs S F ss
end

end Dal.TapeRun
