import Verif.Script.Ast
import Mathlib.Analysis.SpecialFunctions.Pow.Real

/-! # Products that have begun: what they are worth on a path

Scripts are trees over names here; nothing refers to indices, to the analysis of domains or to the evaluators.  `Sample` is a spot and a numeraire. -/

namespace Dal.Seasoned
open Dal.Script
variable {ν : Type} [DecidableEq ν]

/-- The value of an expression at a spot.  Constants have the value declared for them. -/
noncomputable def value (spot : ℝ) (τ : ν → ℝ) : Expr ν ℝ → ℝ
  | .bin .add l r _ => value spot τ l + value spot τ r
  | .bin .sub l r _ => value spot τ l - value spot τ r
  | .bin .mul l r _ => value spot τ l * value spot τ r
  | .bin .div l r _ => value spot τ l / value spot τ r
  | .bin .pow l r _ => value spot τ l ^ value spot τ r
  | .bin .max l r _ => max (value spot τ l) (value spot τ r)
  | .bin .min l r _ => min (value spot τ l) (value spot τ r)
  | .un .uplus a _ => value spot τ a
  | .un .uminus a _ => - value spot τ a
  | .un .log a _ => Real.log (value spot τ a)
  | .un .sqrt a _ => Real.sqrt (value spot τ a)
  | .un .exp a _ => Real.exp (value spot τ a)
  | .extra m _ _ => value spot τ m
  | .const c => c
  | .var n _ => τ n
  | .constVar _ c => c
  | .spot => spot

/-- A condition holds. -/
def holds (spot : ℝ) (τ : ν → ℝ) : Cond ν ℝ → Prop
  | .cmp .equal e _ _ => value spot τ e = 0
  | .cmp .sup e _ _ => 0 < value spot τ e
  | .cmp .supEq e _ _ => 0 ≤ value spot τ e
  | .and l r _ => holds spot τ l ∧ holds spot τ r
  | .or l r _ => holds spot τ l ∨ holds spot τ r
  | .not c _ => ¬ holds spot τ c
  | .tt => True
  | .ff => False

open Classical in
mutual
/-- A statement on a date with a spot; `num` is the numeraire, or `none` on a date in the past, when what was paid has been received already and is no part of the value. -/
noncomputable def run (num : Option ℝ) (spot : ℝ) : Stmt ν ℝ → (ν → ℝ) → (ν → ℝ)
  | .assign x e, τ => Function.update τ x.v (value spot τ e)
  | .pays x e, τ =>
    match num with
    | none => τ
    | some n => Function.update τ x.v (τ x.v + value spot τ e / n)
  | .ite c t he e _ _, τ => if holds spot τ c then runs num spot t τ else if he then runs num spot e τ else τ
  | .collect b, τ => runs num spot b τ
/-- Statements in order. -/
noncomputable def runs (num : Option ℝ) (spot : ℝ) : Stmts ν ℝ → (ν → ℝ) → (ν → ℝ)
  | .nil, τ => τ
  | .cons s ss, τ => runs num spot ss (run num spot s τ)
end

/-- An event: its statements, its spot, and its numeraire unless it is in the past. -/
abbrev Happened (ν : Type) := Stmts ν ℝ × ℝ × Option ℝ

/-- Events in order. -/
noncomputable def story (evs : List (Happened ν)) (τ : ν → ℝ) : ν → ℝ := evs.foldl (fun τ e => runs e.2.2 e.2.1 e.1 τ) τ

/-- Events in the past with the spots that were fixed. -/
def before (past : List (Stmts ν ℝ)) (history : List ℝ) : List (Happened ν) := (past.zip history).map fun e => (e.1, e.2, none)

/-- Events to come on a path. -/
def after (future : List (Stmts ν ℝ)) (path : List (Sample ℝ)) : List (Happened ν) := (future.zip path).map fun e => (e.1, e.2.spot, some e.2.numeraire)

/-- What a product is worth on a path: all variables are zero at the start, the events in the past happen at the spots that were fixed, and those to come happen on the path. -/
noncomputable def worth (past : List (Stmts ν ℝ)) (history : List ℝ) (future : List (Stmts ν ℝ)) (path : List (Sample ℝ)) (payoff : ν) : ℝ :=
  story (before past history ++ after future path) (fun _ => 0) payoff

/-! ## Scripts without the trouble that is described elsewhere -/

/-- The analysis of domains is right about an expression (C32): nothing is divided by zero, logarithms are of numbers from one on, `MAX` and `MIN` have two arguments. -/
def FineE (spot : ℝ) (τ : ν → ℝ) : Expr ν ℝ → Prop
  | .bin op l r _ => FineE spot τ l ∧ FineE spot τ r ∧ (op = .div → value spot τ r ≠ 0)
  | .un op a _ => FineE spot τ a ∧ (op = .log → 1 ≤ value spot τ a)
  | .extra _ _ _ => False
  | .const _ => True
  | .var _ _ => True
  | .constVar _ _ => True
  | .spot => True

/-- The same for the parts of a condition that matter. -/
def FineC (spot : ℝ) (τ : ν → ℝ) : Cond ν ℝ → Prop
  | .cmp _ e _ _ => FineE spot τ e
  | .and l r _ => FineC spot τ l ∧ (holds spot τ l → FineC spot τ r)
  | .or l r _ => FineC spot τ l ∧ (¬ holds spot τ l → FineC spot τ r)
  | .not c _ => FineC spot τ c
  | .tt => True
  | .ff => True

mutual
/-- The same for the parts of a statement that are executed; and constants are not assigned to. -/
def FineS (num : Option ℝ) (spot : ℝ) : Stmt ν ℝ → (ν → ℝ) → Prop
  | .assign _ e, τ => FineE spot τ e
  | .pays _ e, τ => num ≠ none → FineE spot τ e
  | .ite c t he e _ _, τ => FineC spot τ c ∧ (holds spot τ c → FineSs num spot t τ) ∧ (¬ holds spot τ c → he = true → FineSs num spot e τ)
  | .collect b, τ => FineSs num spot b τ
/-- Statements in order. -/
def FineSs (num : Option ℝ) (spot : ℝ) : Stmts ν ℝ → (ν → ℝ) → Prop
  | .nil, _ => True
  | .cons s ss, τ => FineS num spot s τ ∧ FineSs num spot ss (run num spot s τ)
end

/-- Every event is fine when it happens. -/
def Fine : List (Happened ν) → (ν → ℝ) → Prop
  | [], _ => True
  | e :: evs, τ => FineSs e.2.2 e.2.1 e.1 τ ∧ Fine evs (runs e.2.2 e.2.1 e.1 τ)

mutual
/-- No constant is assigned to. -/
def Variable : Stmt ν ℝ → Prop
  | .assign x _ => x.isConst = false
  | .pays x _ => x.isConst = false
  | .ite _ t _ e _ _ => Variables t ∧ Variables e
  | .collect b => Variables b
/-- Statements. -/
def Variables : Stmts ν ℝ → Prop
  | .nil => True
  | .cons s ss => Variable s ∧ Variables ss
end

/-- An expression without the spot. -/
def BlindE : Expr ν ℝ → Prop
  | .bin _ l r _ => BlindE l ∧ BlindE r
  | .un _ a _ => BlindE a
  | .extra m _ _ => BlindE m
  | .const _ => True
  | .var _ _ => True
  | .constVar _ _ => True
  | .spot => False

/-- A condition without the spot. -/
def BlindC : Cond ν ℝ → Prop
  | .cmp _ e _ _ => BlindE e
  | .and l r _ => BlindC l ∧ BlindC r
  | .or l r _ => BlindC l ∧ BlindC r
  | .not c _ => BlindC c
  | .tt => True
  | .ff => True

mutual
/-- A statement that does not look at the spot, except to pay. -/
def Blind : Stmt ν ℝ → Prop
  | .assign _ e => BlindE e
  | .pays _ _ => True
  | .ite c t _ e _ _ => BlindC c ∧ Blinds t ∧ Blinds e
  | .collect b => Blinds b
/-- Statements. -/
def Blinds : Stmts ν ℝ → Prop
  | .nil => True
  | .cons s ss => Blind s ∧ Blinds ss
end

end Dal.Seasoned
