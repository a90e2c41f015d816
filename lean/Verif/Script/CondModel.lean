import Verif.Script.IndexModel
import Mathlib.Algebra.Order.Field.Basic

/-! # Models of the removal of constant conditions (script/visitor/constcondprocessor.hpp) and of the
smoothed evaluator (script/visitor/fuzzy.hpp) -/

namespace Dal.Script

section Removal
variable {D : Type}

/-- `VisitBool`, constcondprocessor.hpp:53-72. -/
def ccC : Cond Nat D → Cond Nat D
  | .cmp op e a f => if f.always then .tt else if f.never then .ff else .cmp op e a f
  | .and l r f => if f.always then .tt else if f.never then .ff else .and (ccC l) (ccC r) f
  | .or l r f => if f.always then .tt else if f.never then .ff else .or (ccC l) (ccC r) f
  | .not c f => if f.always then .tt else if f.never then .ff else .not (ccC c) f
  | .tt => .tt
  | .ff => .ff

mutual
/-- `Visit(NodeIf_&)`, constcondprocessor.hpp:75-105, and the default visit of the other nodes. -/
def ccS : Stmt Nat D → Stmt Nat D
  | .assign x e => .assign x e
  | .pays x e => .pays x e
  | .ite c t he e af f =>
    if f.always then .collect (ccSs t)
    else if f.never then .collect (if he then ccSs e else .nil)
    else .ite (ccC c) (ccSs t) he (ccSs e) af f
  | .collect b => .collect (ccSs b)
/-- Statements in order. -/
def ccSs : Stmts Nat D → Stmts Nat D
  | .nil => .nil
  | .cons s ss => .cons (ccS s) (ccSs ss)
end

end Removal

section Fuzzy
variable {K : Type} [Field K] [LinearOrder K]

/-- The arithmetic of an ordered field (exact numbers instead of doubles), with any functions for the
power and the transcendental functions. -/
def fieldOps (pow : K → K → K) (log sqrt exp : K → K) : Ops K where
  zero := 0
  add := (· + ·)
  sub := (· - ·)
  mul := (· * ·)
  div := (· / ·)
  pow := pow
  neg := fun x => -x
  log := log
  sqrt := sqrt
  exp := exp
  lt := fun x y => decide (x < y)
  le := fun x y => decide (x ≤ y)
  eq := fun x y => decide (x = y)

/-- Division, undefined by zero (a double would be infinite or NaN). -/
def fdiv (x y : K) : Option K := if y = 0 then none else some (x / y)

/-- `CSpr(x, eps)`, fuzzy.hpp:15-24. -/
def cspr (x eps : K) : Option K :=
  if x < -(eps / 2) then some 0 else if eps / 2 < x then some 1 else fdiv (x + eps / 2) eps

/-- `CSpr(x, lb, rb)`, fuzzy.hpp:26-33. -/
def cspr2 (x lb rb : K) : Option K :=
  if x < lb then some 0 else if rb < x then some 1 else fdiv (x - lb) (rb - lb)

/-- `BFly(x, eps)`, fuzzy.hpp:35-42. -/
def bfly (x eps : K) : Option K :=
  if x < -(eps / 2) ∨ eps / 2 < x then some 0 else fdiv (eps / 2 - (if x < 0 then -x else x)) (eps / 2)

/-- `BFly(x, lb, rb)`, fuzzy.hpp:44-51. -/
def bfly2 (x lb rb : K) : Option K :=
  if x < lb ∨ rb < x then some 0
  else if x < 0 then (fdiv x lb).map (fun q => 1 - q) else (fdiv x rb).map (fun q => 1 - q)

/-- Conditions, fuzzy.hpp:191-261.  The method for negation is called `visitNot` (line 242), so a `NodeNot_`
is visited by the base class (evaluator.hpp:209-213, visible through `using Base::Visit`), which
complements the top of the stack of Booleans.  That stack is empty here: its `Top` is the entry at -1
(stacks.hpp:131-160), so the behaviour is undefined, `none`. -/
def fuzzyC (o : Ops K) (cv : Nat → K) (sp : Sample K) (defEps : K) (σ : Nat → K) : Cond Nat K → Option K
  | .cmp op e a _ =>
    let x := evalE o cv sp σ e
    let eps := if a.eps < 0 then defEps else a.eps
    match op with
    | .equal => if a.discrete then bfly2 x a.lb a.rb else bfly x eps
    | .sup => if a.discrete then cspr2 x a.lb a.rb else cspr x eps
    | .supEq => if a.discrete then cspr2 x a.lb a.rb else cspr x eps
  | .and l r _ =>
    match fuzzyC o cv sp defEps σ l, fuzzyC o cv sp defEps σ r with
    | some x, some y => some (y * x)
    | _, _ => none
  | .or l r _ =>
    match fuzzyC o cv sp defEps σ l, fuzzyC o cv sp defEps σ r with
    | some x, some y => some (y + x - y * x)
    | _, _ => none
  | .not _ _ => none
  | .tt => some 1
  | .ff => some 0

/-- The variables and the two temporary stores (level, variable), fuzzy.hpp:61-64. -/
structure FSt (K : Type) where
  σ : Nat → K
  s0 : Nat → Nat → K
  s1 : Nat → Nat → K

/-- Writing the entries `idx ∈ af` of row `lvl` (`affectedVars_` has no repetition, being copied from a set). -/
def setRow (s : Nat → Nat → K) (lvl : Nat) (af : List Nat) (v : Nat → K) : Nat → Nat → K :=
  fun l j => if l = lvl ∧ j ∈ af then v j else s l j

/-- Writing the variables `idx ∈ af`. -/
def setVars (σ : Nat → K) (af : List Nat) (v : Nat → K) : Nat → K := fun j => if j ∈ af then v j else σ j

mutual
/-- Statements, fuzzy.hpp:135-188; `lvl` is `nestedIfLvl_` before the statement and `eps` is `EPSILON`.
Assignments and payments are those of the sharp evaluator.  The number of rows of the stores is not
bounded here. -/
def fuzzyS (o : Ops K) (cv : Nat → K) (sp : Sample K) (defEps eps : K) : Stmt Nat K → Nat → FSt K → Option (FSt K)
  | .assign x e, _, s => some { s with σ := upd s.σ x.v (evalE o cv sp s.σ e) }
  | .pays x e, _, s => some { s with σ := upd s.σ x.v (o.add (s.σ x.v) (o.div (evalE o cv sp s.σ e) sp.numeraire)) }
  | .ite c t he e af _, lvl, s =>
    match fuzzyC o cv sp defEps s.σ c with
    | none => none
    | some dt =>
      if 1 - eps < dt then fuzzySs o cv sp defEps eps t (lvl + 1) s
      else if dt < eps then
        if he then fuzzySs o cv sp defEps eps e (lvl + 1) s else some s
      else
        match fuzzySs o cv sp defEps eps t (lvl + 1) { s with s0 := setRow s.s0 lvl af s.σ } with
        | none => none
        | some a =>
          let b : FSt K := { a with s1 := setRow a.s1 lvl af a.σ, σ := setVars a.σ af (a.s0 lvl) }
          match (if he then fuzzySs o cv sp defEps eps e (lvl + 1) b else some b) with
          | none => none
          | some d => some { d with σ := setVars d.σ af (fun j => dt * d.s1 lvl j + (1 - dt) * d.σ j) }
  | .collect b, lvl, s => fuzzySs o cv sp defEps eps b lvl s
/-- Statements in order. -/
def fuzzySs (o : Ops K) (cv : Nat → K) (sp : Sample K) (defEps eps : K) : Stmts Nat K → Nat → FSt K → Option (FSt K)
  | .nil, _, s => some s
  | .cons st ss, lvl, s =>
    match fuzzyS o cv sp defEps eps st lvl s with
    | none => none
    | some s' => fuzzySs o cv sp defEps eps ss lvl s'
end

end Fuzzy

end Dal.Script
