import Verif.Script.Ast

/-! # Model of variable indexing (script/visitor/varindexer.hpp) and of the IF processor
(script/visitor/ifprocessor.hpp) -/

namespace Dal.Script
variable {ν D : Type} [DecidableEq ν]

/-- The state of `VarIndexer_`, varindexer.hpp:16-17.  Names are compared as `String_` compares them. -/
structure Indexer (ν D : Type) where
  vars : List (ν × Nat) := []
  consts : List (ν × (Nat × D)) := []

/-- `std::map::find`. -/
def find {β : Type} (n : ν) : List (ν × β) → Option β
  | [] => none
  | (k, b) :: m => if k = n then some b else find n m

/-- `Visit(NodeVar_&)`, varindexer.hpp:51-59: the new state and the index. -/
def Indexer.visitVar (s : Indexer ν D) (n : ν) : Indexer ν D × Nat :=
  match find n s.vars with
  | none => ({ s with vars := s.vars ++ [(n, s.vars.length)] }, s.vars.length)
  | some i => (s, i)

/-- `Visit(NodeConstVar_&)`, varindexer.hpp:62-70. -/
def Indexer.visitConst (s : Indexer ν D) (n : ν) (c : D) : Indexer ν D × Nat :=
  match find n s.consts with
  | none => ({ s with consts := s.consts ++ [(n, (s.consts.length, c))] }, s.consts.length)
  | some i => (s, i.1)

/-- The indexer on an expression: arguments in order. -/
def Indexer.expr (s : Indexer ν D) : Expr ν D → Indexer ν D × Expr Nat D
  | .bin op l r k =>
    let a := s.expr l
    let b := a.1.expr r
    (b.1, .bin op a.2 b.2 k)
  | .un op a k => let x := s.expr a; (x.1, .un op x.2 k)
  | .extra m x k =>
    let a := s.expr m
    let b := a.1.expr x
    (b.1, .extra a.2 b.2 k)
  | .const c => (s, .const c)
  | .var n k => let a := s.visitVar n; (a.1, .var a.2 k)
  | .constVar n c => let a := s.visitConst n c; (a.1, .constVar a.2 c)
  | .spot => (s, .spot)

/-- The indexer on a condition. -/
def Indexer.cond (s : Indexer ν D) : Cond ν D → Indexer ν D × Cond Nat D
  | .cmp op e a f => let x := s.expr e; (x.1, .cmp op x.2 a f)
  | .and l r f =>
    let a := s.cond l
    let b := a.1.cond r
    (b.1, .and a.2 b.2 f)
  | .or l r f =>
    let a := s.cond l
    let b := a.1.cond r
    (b.1, .or a.2 b.2 f)
  | .not c f => let x := s.cond c; (x.1, .not x.2 f)
  | .tt => (s, .tt)
  | .ff => (s, .ff)

/-- The indexer on a left-hand side.  The value kept for a constant name there is the one the parser
put on the node; it is supplied by `cval`. -/
def Indexer.lhs (cval : ν → D) (s : Indexer ν D) (x : Lhs ν) : Indexer ν D × Lhs Nat :=
  if x.isConst then let a := s.visitConst x.v (cval x.v); (a.1, ⟨a.2, true⟩)
  else let a := s.visitVar x.v; (a.1, ⟨a.2, false⟩)

mutual
/-- The indexer on a statement. -/
def Indexer.stmt (cval : ν → D) (s : Indexer ν D) : Stmt ν D → Indexer ν D × Stmt Nat D
  | .assign x e =>
    let a := s.lhs cval x
    let b := a.1.expr e
    (b.1, .assign a.2 b.2)
  | .pays x e =>
    let a := s.lhs cval x
    let b := a.1.expr e
    (b.1, .pays a.2 b.2)
  | .ite c t he e af f =>
    let a := s.cond c
    let b := a.1.stmts cval t
    let d := b.1.stmts cval e
    (d.1, .ite a.2 b.2 he d.2 af f)
  | .collect b => let a := s.stmts cval b; (a.1, .collect a.2)
/-- The indexer on statements in order. -/
def Indexer.stmts (cval : ν → D) (s : Indexer ν D) : Stmts ν D → Indexer ν D × Stmts Nat D
  | .nil => (s, .nil)
  | .cons st ss =>
    let a := s.stmt cval st
    let b := a.1.stmts cval ss
    (b.1, .cons a.2 b.2)
end

/-- `VarNames`, varindexer.hpp:23-30: `v[val] = k` for each entry. -/
def Indexer.varNames (s : Indexer ν D) : List (Option ν) :=
  s.vars.foldl (fun v e => v.set e.2 (some e.1)) (List.replicate s.vars.length none)

/-- `ConstVarNames`, varindexer.hpp:32-39. -/
def Indexer.constNames (s : Indexer ν D) : List (Option ν) :=
  s.consts.foldl (fun v e => v.set e.2.1 (some e.1)) (List.replicate s.consts.length none)

/-- `ConstVarValues`, varindexer.hpp:41-48. -/
def Indexer.constValues (s : Indexer ν D) : List (Option D) :=
  s.consts.foldl (fun v e => v.set e.2.1 (some e.2.2)) (List.replicate s.consts.length none)

/-- `Visit(indexer)`, event.hpp:94-104: the past events, then the future events, in order. -/
def Indexer.events (cval : ν → D) (s : Indexer ν D) : List (Stmts ν D) → Indexer ν D × List (Stmts Nat D)
  | [] => (s, [])
  | e :: es =>
    let a := s.stmts cval e
    let b := a.1.events cval es
    (b.1, a.2 :: b.2)

/-- The loop of event.cpp:94-98. -/
def findName (payoff : ν) (i : Nat) : List (Option ν) → Option Nat
  | [] => none
  | x :: xs => if x = some payoff then some i else findName payoff (i + 1) xs

/-- `payoffIdx_` after `IndexVariables`, event.cpp:94-100 (from -1; with no variables the result is
again the 64-bit -1, `none` here). -/
def payoffIdx (payoff : ν) (names : List (Option ν)) : Option Nat :=
  match findName payoff 0 names with
  | some i => some i
  | none => if names = [] then none else some (names.length - 1)

/-! ### The IF processor -/

/-- Inserting in a `std::set<size_t>`, kept as a list without repetition. -/
def ins (i : Nat) (s : List Nat) : List Nat := if i ∈ s then s else i :: s

/-- The state of `IFProcessor_`, ifprocessor.hpp:16-24.  The capacity of the stack is not modelled. -/
structure IfState where
  stack : List (List Nat) := []
  lvl : Nat := 0
  maxLvl : Nat := 0

/-- `varStack_.Top().insert(i)`. -/
def IfState.insert (s : IfState) (i : Nat) : IfState :=
  match s.stack with
  | [] => s
  | t :: r => { s with stack := ins i t :: r }

/-- `Visit(NodeAssign_&)` and `Visit(NodePays_&)`, ifprocessor.hpp:65-81: only a `NodeVar_` on the
left is recorded. -/
def IfState.lhs (s : IfState) (x : Lhs Nat) : IfState :=
  if s.lvl ≠ 0 then if x.isConst then s else s.insert x.v else s

mutual
/-- `IFProcessor_`, ifprocessor.hpp:35-75. -/
def ifStmt (s : IfState) : Stmt Nat D → IfState × Stmt Nat D
  | .assign x e => (s.lhs x, .assign x e)
  | .pays x e => (s.lhs x, .pays x e)
  | .ite c t he e _ f =>
    let s1 : IfState := { stack := [] :: s.stack, lvl := s.lvl + 1, maxLvl := max s.maxLvl (s.lvl + 1) }
    let a := ifStmts s1 t
    let b := ifStmts a.1 e
    let af := b.1.stack.headD []
    let s2 : IfState := { b.1 with stack := b.1.stack.tail, lvl := b.1.lvl - 1 }
    (if s2.lvl ≠ 0 then af.foldl IfState.insert s2 else s2, .ite c a.2 he b.2 af f)
  | .collect b => let a := ifStmts s b; (a.1, .collect a.2)
/-- The processor on statements in order. -/
def ifStmts (s : IfState) : Stmts Nat D → IfState × Stmts Nat D
  | .nil => (s, .nil)
  | .cons st ss =>
    let a := ifStmt s st
    let b := ifStmts a.1 ss
    (b.1, .cons a.2 b.2)
end

/-- `ScriptProduct_::IFProcess`, event.cpp:109-113: the processed events and `MaxNestedIFs()`. -/
def ifEvents (s : IfState) : List (Stmts Nat D) → IfState × List (Stmts Nat D)
  | [] => (s, [])
  | e :: es =>
    let a := ifStmts s e
    let b := ifEvents a.1 es
    (b.1, a.2 :: b.2)

end Dal.Script
