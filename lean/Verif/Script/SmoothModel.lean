import Verif.Script.CondModel
import Verif.Script.GradientModel

/-!
# The smoothed evaluator with numbers on the tape

Source: `dal/script/visitor/fuzzy.hpp`, `dal/math/aad/expr.hpp`.

`FuzzyEvaluator_<AAD::Number_>` runs the visitor of `FuzzyEvaluator_<double>`, which is `fuzzyC`, `fuzzyS` and `fuzzySs` of `CondModel`, with the operators of `expr.hpp`.

Simplifications: those of `GradientModel`. The widths and the bounds of the conditions and `EPSILON` are doubles and have no derivative. A division by zero is undefined (`none`), as for
doubles; so is a negation (see `fuzzyC`).
-/

namespace Dal.Script
open Dal.Models

/-- `fabs` of a `Number_`, expr.hpp:182-186. -/
noncomputable def dualAbs (x : Dual) : Dual := ⟨|x.v|, (if 0 < x.v then 1 else -1) * x.d⟩

/-- The division of a `Number_` by a double, undefined by zero. -/
noncomputable def dualDiv (x : Dual) (y : ℝ) : Option Dual := if y = 0 then none else some (dualOps.div x (lift y))

/-- `CSpr(x, eps)` on `Number_`, fuzzy.hpp:15-24. -/
noncomputable def dualCspr (x : Dual) (eps : ℝ) : Option Dual :=
  if x.v < -(eps / 2) then some (lift 0) else if eps / 2 < x.v then some (lift 1) else dualDiv (dualOps.add x (lift (eps / 2))) eps

/-- `CSpr(x, lb, rb)` on `Number_`, fuzzy.hpp:26-33. -/
noncomputable def dualCspr2 (x : Dual) (lb rb : ℝ) : Option Dual :=
  if x.v < lb then some (lift 0) else if rb < x.v then some (lift 1) else dualDiv (dualOps.sub x (lift lb)) (rb - lb)

/-- `BFly(x, eps)` on `Number_`, fuzzy.hpp:35-42. -/
noncomputable def dualBfly (x : Dual) (eps : ℝ) : Option Dual :=
  if x.v < -(eps / 2) ∨ eps / 2 < x.v then some (lift 0) else dualDiv (dualOps.sub (lift (eps / 2)) (dualAbs x)) (eps / 2)

/-- `BFly(x, lb, rb)` on `Number_`, fuzzy.hpp:44-51. -/
noncomputable def dualBfly2 (x : Dual) (lb rb : ℝ) : Option Dual :=
  if x.v < lb ∨ rb < x.v then some (lift 0)
  else if x.v < 0 then (dualDiv x lb).map (fun q => dualOps.sub (lift 1) q) else (dualDiv x rb).map (fun q => dualOps.sub (lift 1) q)

/-- Conditions on `Number_`, fuzzy.hpp:191-261. -/
noncomputable def smoothC (cv : Nat → Dual) (sp : Sample Dual) (defEps : ℝ) (σ : Nat → Dual) : Cond Nat ℝ → Option Dual
  | .cmp op e a _ =>
    let x := evalE dualOps cv sp σ e.lift
    let eps := if a.eps < 0 then defEps else a.eps
    match op with
    | .equal => if a.discrete then dualBfly2 x a.lb a.rb else dualBfly x eps
    | .sup => if a.discrete then dualCspr2 x a.lb a.rb else dualCspr x eps
    | .supEq => if a.discrete then dualCspr2 x a.lb a.rb else dualCspr x eps
  | .and l r _ =>
    match smoothC cv sp defEps σ l, smoothC cv sp defEps σ r with
    | some x, some y => some (dualOps.mul y x)
    | _, _ => none
  | .or l r _ =>
    match smoothC cv sp defEps σ l, smoothC cv sp defEps σ r with
    | some x, some y => some (dualOps.sub (dualOps.add y x) (dualOps.mul y x))
    | _, _ => none
  | .not _ _ => none
  | .tt => some (lift 1)
  | .ff => some (lift 0)

mutual
/-- Statements on `Number_`, fuzzy.hpp:135-188; `lvl` is `nestedIfLvl_` before the statement and `eps` is `EPSILON`. -/
noncomputable def smoothS (cv : Nat → Dual) (sp : Sample Dual) (defEps eps : ℝ) : Stmt Nat ℝ → Nat → FSt Dual → Option (FSt Dual)
  | .assign x e, _, s => some { s with σ := upd s.σ x.v (evalE dualOps cv sp s.σ e.lift) }
  | .pays x e, _, s => some { s with σ := upd s.σ x.v (dualOps.add (s.σ x.v) (dualOps.div (evalE dualOps cv sp s.σ e.lift) sp.numeraire)) }
  | .ite c t he e af _, lvl, s =>
    match smoothC cv sp defEps s.σ c with
    | none => none
    | some dt =>
      if 1 - eps < dt.v then smoothSs cv sp defEps eps t (lvl + 1) s
      else if dt.v < eps then
        if he then smoothSs cv sp defEps eps e (lvl + 1) s else some s
      else
        match smoothSs cv sp defEps eps t (lvl + 1) { s with s0 := setRow s.s0 lvl af s.σ } with
        | none => none
        | some a =>
          match (if he then smoothSs cv sp defEps eps e (lvl + 1) { a with s1 := setRow a.s1 lvl af a.σ, σ := setVars a.σ af (a.s0 lvl) }
            else some { a with s1 := setRow a.s1 lvl af a.σ, σ := setVars a.σ af (a.s0 lvl) }) with
          | none => none
          | some d => some { d with σ := setVars d.σ af (fun j => dualOps.add (dualOps.mul dt (d.s1 lvl j)) (dualOps.mul (dualOps.sub (lift 1) dt) (d.σ j))) }
  | .collect b, lvl, s => smoothSs cv sp defEps eps b lvl s
/-- Statements in order. -/
noncomputable def smoothSs (cv : Nat → Dual) (sp : Sample Dual) (defEps eps : ℝ) : Stmts Nat ℝ → Nat → FSt Dual → Option (FSt Dual)
  | .nil, _, s => some s
  | .cons st ss, lvl, s =>
    match smoothS cv sp defEps eps st lvl s with
    | none => none
    | some s' => smoothSs cv sp defEps eps ss lvl s'
end

/-- The events of a product in order, on `Number_` (script/event.hpp:118-127). -/
noncomputable def smoothEvents (cv : Nat → Dual) (defEps eps : ℝ) : List (Stmts Nat ℝ × Sample Dual) → FSt Dual → Option (FSt Dual)
  | [], s => some s
  | ev :: evs, s => (smoothSs cv ev.2 defEps eps ev.1 0 s).bind (smoothEvents cv defEps eps evs)

/-- The events of a product in order, on doubles. -/
noncomputable def fuzzyEvents (cv : Nat → ℝ) (defEps eps : ℝ) : List (Stmts Nat ℝ × Sample ℝ) → FSt ℝ → Option (FSt ℝ)
  | [], s => some s
  | ev :: evs, s => (fuzzySs realOps cv ev.2 defEps eps ev.1 0 s).bind (fuzzyEvents cv defEps eps evs)

end Dal.Script
