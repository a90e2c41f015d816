import Mathlib.Logic.Function.Basic

/-! # The script syntax tree and its interpreter (script/node.hpp, script/visitor/evaluator.hpp)

Nodes carry the attributes the preprocessors write on them (`isConst_`/`constVal_`, `alwaysTrue_`,
`alwaysFalse_`, `affectedVars_`, ...).  Variables are referred to by a type `ν`: names after parsing,
indices after indexing.  Numbers are an abstract type `D` with the operations of `Ops`, so no property
of floating-point arithmetic is assumed unless a theorem says so.  The evaluation stacks, whose
capacity (128) the code never checks, are replaced by recursion here; C80 (`EvalStackModel.lean`) relates this to evaluation on
the stacks. -/

namespace Dal.Script

/-- `NodeAdd_`, ..., `NodeMin_`, node.hpp:35-41. -/
inductive BinOp
  | add | sub | mul | div | pow | max | min
  deriving DecidableEq, Repr

/-- `NodeUPlus_`, ..., `NodeExp_`, node.hpp:44-50. -/
inductive UnOp
  | uplus | uminus | log | sqrt | exp
  deriving DecidableEq, Repr

/-- `NodeEqual_`, `NodeSup_`, `NodeSupEqual_`, node.hpp:63-67: comparisons of an expression with 0. -/
inductive CmpOp
  | equal | sup | supEq
  deriving DecidableEq, Repr

/-- The operations on numbers used by the evaluators. -/
structure Ops (D : Type) where
  zero : D
  add : D → D → D
  sub : D → D → D
  mul : D → D → D
  div : D → D → D
  pow : D → D → D
  neg : D → D
  log : D → D
  sqrt : D → D
  exp : D → D
  lt : D → D → Bool
  le : D → D → Bool
  eq : D → D → Bool

/-- Expression nodes, node.hpp:17-117.  `k` is `some v` when `isConst_` is set with `constVal_ = v`.
`extra m x k` is the `MAX`/`MIN` node `m` with one more argument `x` (the parser accepts more than
two, parser.cpp:89-96). -/
inductive Expr (ν D : Type)
  | bin (op : BinOp) (l r : Expr ν D) (k : Option D)
  | un (op : UnOp) (a : Expr ν D) (k : Option D)
  | extra (m x : Expr ν D) (k : Option D)
  | const (c : D)
  | var (v : ν) (k : Option D)
  | constVar (v : ν) (c : D)
  | spot

/-- `isConst_` and `constVal_` of a node. -/
def Expr.kval {ν D : Type} : Expr ν D → Option D
  | .bin _ _ _ k => k
  | .un _ _ k => k
  | .extra _ _ k => k
  | .const c => some c
  | .var _ k => k
  | .constVar _ c => some c
  | .spot => none

/-- `alwaysTrue_` and `alwaysFalse_`, node.hpp:26-29. -/
structure Flags where
  always : Bool := false
  never : Bool := false
  deriving DecidableEq, Repr

/-- `CompNode_`, node.hpp:54-61. -/
structure CmpAttr (D : Type) where
  eps : D
  discrete : Bool
  lb : D
  rb : D

/-- Condition nodes, node.hpp:63-96. -/
inductive Cond (ν D : Type)
  | cmp (op : CmpOp) (e : Expr ν D) (a : CmpAttr D) (f : Flags)
  | and (l r : Cond ν D) (f : Flags)
  | or (l r : Cond ν D) (f : Flags)
  | not (a : Cond ν D) (f : Flags)
  | tt
  | ff

/-- The left-hand side of an assignment or payment: the parser may put a constant name there
(parser.cpp:350), although every visitor treats it as a variable. -/
structure Lhs (ν : Type) where
  v : ν
  isConst : Bool := false

/- Statement nodes, node.hpp:121-136.  In `ite c t e`, `e` is `none` when `firstElse_ = -1`; this is
encoded by the Boolean `he`. -/
mutual
/-- A statement. -/
inductive Stmt (ν D : Type)
  | assign (x : Lhs ν) (e : Expr ν D)
  | pays (x : Lhs ν) (e : Expr ν D)
  | ite (c : Cond ν D) (t : Stmts ν D) (he : Bool) (e : Stmts ν D) (affected : List Nat) (f : Flags)
  | collect (b : Stmts ν D)
/-- A list of statements. -/
inductive Stmts (ν D : Type)
  | nil
  | cons (s : Stmt ν D) (ss : Stmts ν D)
end

/-- A market sample: `(*scenario_)[curEvt_]`. -/
structure Sample (D : Type) where
  spot : D
  numeraire : D

variable {D : Type}

/-- `VisitBinary` bodies, evaluator.hpp:114-146. -/
def evalBin (o : Ops D) (op : BinOp) (x y : D) : D :=
  match op with
  | .add => o.add x y
  | .sub => o.sub x y
  | .mul => o.mul x y
  | .div => o.div x y
  | .pow => o.pow x y
  | .max => if o.lt x y then y else x
  | .min => if o.lt y x then y else x

/-- `VisitUnary` bodies, evaluator.hpp:154-173. -/
def evalUn (o : Ops D) (op : UnOp) (x : D) : D :=
  match op with
  | .uplus => x
  | .uminus => o.neg x
  | .log => o.log x
  | .sqrt => o.sqrt x
  | .exp => o.exp x

/-- `VisitCondition` bodies, evaluator.hpp:181-191. -/
def evalCmp (o : Ops D) (op : CmpOp) (x : D) : Bool :=
  match op with
  | .equal => o.eq x o.zero
  | .sup => o.lt o.zero x
  | .supEq => o.le o.zero x

/-- Expressions, evaluator.hpp:107-173 and 258-275; only the first two arguments are visited. -/
def evalE (o : Ops D) (cv : Nat → D) (sp : Sample D) (σ : Nat → D) : Expr Nat D → D
  | .bin op l r _ => evalBin o op (evalE o cv sp σ l) (evalE o cv sp σ r)
  | .un op a _ => evalUn o op (evalE o cv sp σ a)
  | .extra m _ _ => evalE o cv sp σ m
  | .const c => c
  | .var i _ => σ i
  | .constVar i _ => cv i
  | .spot => sp.spot

/-- Conditions, evaluator.hpp:176-213 and 271-272. -/
def evalC (o : Ops D) (cv : Nat → D) (sp : Sample D) (σ : Nat → D) : Cond Nat D → Bool
  | .cmp op e _ _ => evalCmp o op (evalE o cv sp σ e)
  | .and l r _ => if evalC o cv sp σ l then evalC o cv sp σ r else false
  | .or l r _ => if evalC o cv sp σ l then true else evalC o cv sp σ r
  | .not a _ => !evalC o cv sp σ a
  | .tt => true
  | .ff => false

/-- Writing a variable. -/
def upd (σ : Nat → D) (i : Nat) (x : D) : Nat → D := fun j => if j = i then x else σ j

mutual
/-- Statements, evaluator.hpp:216-255 (and `NodeCollect_` through the default visit). -/
def exec (o : Ops D) (cv : Nat → D) (sp : Sample D) : Stmt Nat D → (Nat → D) → (Nat → D)
  | .assign x e, σ => upd σ x.v (evalE o cv sp σ e)
  | .pays x e, σ => upd σ x.v (o.add (σ x.v) (o.div (evalE o cv sp σ e) sp.numeraire))
  | .ite c t he e _ _, σ =>
    if evalC o cv sp σ c then execs o cv sp t σ
    else if he then execs o cv sp e σ else σ
  | .collect b, σ => execs o cv sp b σ
/-- Statements in order. -/
def execs (o : Ops D) (cv : Nat → D) (sp : Sample D) : Stmts Nat D → (Nat → D) → (Nat → D)
  | .nil, σ => σ
  | .cons s ss, σ => execs o cv sp ss (exec o cv sp s σ)
end

/-- `ScriptProduct_::Evaluate`, event.hpp:118-127: the events in order, each with its sample. -/
def evaluate (o : Ops D) (cv : Nat → D) (evs : List (Stmts Nat D × Sample D)) (σ : Nat → D) : Nat → D :=
  evs.foldl (fun s ev => execs o cv ev.2 ev.1 s) σ

/-- The operations of a type of exact numbers, used in examples. -/
def ratOps : Ops Rat where
  zero := 0
  add := (· + ·)
  sub := (· - ·)
  mul := (· * ·)
  div := (· / ·)
  pow := fun x _ => x
  neg := fun x => -x
  log := id
  sqrt := id
  exp := id
  lt := fun x y => decide (x < y)
  le := fun x y => decide (x ≤ y)
  eq := fun x y => decide (x = y)

end Dal.Script
