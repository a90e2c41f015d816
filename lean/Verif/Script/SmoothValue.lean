import Verif.Script.SmoothModel
import Mathlib.Tactic.Ring

/-! # The values of the smoothed evaluator with derivatives are those with doubles -/

namespace Dal.Script
open Dal.Models

/-- The values of a state. -/
def FSt.values (s : FSt Dual) : FSt ℝ := ⟨fun k => (s.σ k).v, fun l k => (s.s0 l k).v, fun l k => (s.s1 l k).v⟩

/-- The values of a sample. -/
def Sample.values (sp : Sample Dual) : Sample ℝ := ⟨sp.spot.v, sp.numeraire.v⟩

theorem evalE_v (cv : Nat → Dual) (sp : Sample Dual) (σ : Nat → Dual) (e : Expr Nat ℝ) :
    (evalE dualOps cv sp σ e.lift).v = evalE realOps (fun k => (cv k).v) sp.values (fun k => (σ k).v) e := by
  induction e with
  | bin op l r k ihl ihr =>
    simp only [Expr.lift, evalE]
    rw [← ihl, ← ihr]
    cases op <;> simp only [evalBin, dualOps, realOps, decide_eq_true_eq] <;> split_ifs <;> rfl
  | un op a k ih =>
    simp only [Expr.lift, evalE]
    rw [← ih]
    cases op
    case uminus => exact zero_sub _
    all_goals rfl
  | extra m x k ih _ => exact ih
  | _ => rfl

theorem dualDiv_v (x : Dual) (y : ℝ) : (dualDiv x y).map Dual.v = fdiv x.v y := by
  unfold dualDiv fdiv
  split_ifs <;> rfl

theorem dualCspr_v (x : Dual) (eps : ℝ) : (dualCspr x eps).map Dual.v = cspr x.v eps := by
  unfold dualCspr cspr
  split_ifs
  · rfl
  · rfl
  · exact dualDiv_v _ _

theorem dualCspr2_v (x : Dual) (lb rb : ℝ) : (dualCspr2 x lb rb).map Dual.v = cspr2 x.v lb rb := by
  unfold dualCspr2 cspr2
  split_ifs
  · rfl
  · rfl
  · exact dualDiv_v _ _

theorem dualBfly_v (x : Dual) (eps : ℝ) : (dualBfly x eps).map Dual.v = bfly x.v eps := by
  unfold dualBfly bfly
  split_ifs with h1 h2
  · rfl
  · rw [dualDiv_v]; show fdiv (eps / 2 - |x.v|) _ = _; rw [abs_of_neg h2]
  · rw [dualDiv_v]; show fdiv (eps / 2 - |x.v|) _ = _; rw [abs_of_nonneg (not_lt.1 h2)]

theorem dualBfly2_v (x : Dual) (lb rb : ℝ) : (dualBfly2 x lb rb).map Dual.v = bfly2 x.v lb rb := by
  unfold dualBfly2 bfly2
  split_ifs
  · rfl
  · rw [← dualDiv_v]; cases dualDiv x lb <;> rfl
  · rw [← dualDiv_v]; cases dualDiv x rb <;> rfl

theorem smoothC_v (cv : Nat → Dual) (sp : Sample Dual) (defEps : ℝ) (σ : Nat → Dual) (c : Cond Nat ℝ) :
    (smoothC cv sp defEps σ c).map Dual.v = fuzzyC realOps (fun k => (cv k).v) sp.values defEps (fun k => (σ k).v) c := by
  induction c with
  | cmp op e a f =>
    simp only [smoothC, fuzzyC]
    rw [← evalE_v]
    cases op <;> dsimp only <;> split_ifs <;> first | exact dualBfly2_v _ _ _ | exact dualBfly_v _ _ | exact dualCspr2_v _ _ _ | exact dualCspr_v _ _
  | and l r f ihl ihr =>
    simp only [smoothC, fuzzyC]
    rw [← ihl, ← ihr]
    cases smoothC cv sp defEps σ l <;> cases smoothC cv sp defEps σ r <;> rfl
  | or l r f ihl ihr =>
    simp only [smoothC, fuzzyC]
    rw [← ihl, ← ihr]
    cases smoothC cv sp defEps σ l <;> cases smoothC cv sp defEps σ r <;> rfl
  | _ => rfl

theorem setRow_v (s : Nat → Nat → Dual) (lvl : Nat) (af : List Nat) (v : Nat → Dual) :
    (fun l k => (setRow s lvl af v l k).v) = setRow (fun l k => (s l k).v) lvl af (fun k => (v k).v) := by
  funext l k
  rw [setRow, setRow]
  split_ifs <;> rfl

theorem setVars_v (σ : Nat → Dual) (af : List Nat) (v : Nat → Dual) :
    (fun k => (setVars σ af v k).v) = setVars (fun k => (σ k).v) af (fun k => (v k).v) := by
  funext k
  rw [setVars, setVars]
  split_ifs <;> rfl

theorem upd_v (σ : Nat → Dual) (x : Nat) (v : Dual) : (fun k => (upd σ x v k).v) = upd (fun k => (σ k).v) x v.v := by
  funext k
  rw [upd, upd]
  split_ifs <;> rfl

mutual
theorem smoothS_v (cv : Nat → Dual) (sp : Sample Dual) (defEps eps : ℝ) : ∀ (st : Stmt Nat ℝ) (lvl : Nat) (s : FSt Dual),
    (smoothS cv sp defEps eps st lvl s).map FSt.values = fuzzyS realOps (fun k => (cv k).v) sp.values defEps eps st lvl s.values
  | .assign x e, lvl, s => by
    rw [smoothS, fuzzyS]
    simp only [Option.map_some, FSt.values, upd_v, evalE_v]
  | .pays x e, lvl, s => by
    rw [smoothS, fuzzyS]
    simp only [Option.map_some, FSt.values, upd_v]
    congr 2
    show upd _ _ ((s.σ x.v).v + (evalE dualOps cv sp s.σ e.lift).v / sp.numeraire.v) = _
    rw [evalE_v]
    rfl
  | .ite c b he e af f, lvl, s => by
    have hc := smoothC_v cv sp defEps s.σ c
    rw [smoothS, fuzzyS]
    rw [show fuzzyC _ _ _ _ s.values.σ c = _ from hc.symm]
    cases smoothC cv sp defEps s.σ c with
    | none => rfl
    | some dt =>
      dsimp only [Option.map_some]
      by_cases q1 : 1 - eps < dt.v
      · rw [if_pos q1, if_pos q1]
        exact smoothSs_v cv sp defEps eps b (lvl + 1) s
      rw [if_neg q1, if_neg q1]
      by_cases q2 : dt.v < eps
      · rw [if_pos q2, if_pos q2]
        cases he with
        | true => exact smoothSs_v cv sp defEps eps e (lvl + 1) s
        | false => rfl
      rw [if_neg q2, if_neg q2]
      have hA := smoothSs_v cv sp defEps eps b (lvl + 1) ⟨s.σ, setRow s.s0 lvl af s.σ, s.s1⟩
      rw [show FSt.values ⟨s.σ, setRow s.s0 lvl af s.σ, s.s1⟩ = ⟨s.values.σ, setRow s.values.s0 lvl af s.values.σ, s.values.s1⟩ by simp only [FSt.values, setRow_v]] at hA
      rw [← hA]
      cases smoothSs cv sp defEps eps b (lvl + 1) ⟨s.σ, setRow s.s0 lvl af s.σ, s.s1⟩ with
      | none => rfl
      | some a =>
        dsimp only [Option.map_some]
        have hB : (if he then smoothSs cv sp defEps eps e (lvl + 1) ⟨setVars a.σ af (a.s0 lvl), a.s0, setRow a.s1 lvl af a.σ⟩ else some ⟨setVars a.σ af (a.s0 lvl), a.s0, setRow a.s1 lvl af a.σ⟩).map FSt.values =
            if he then fuzzySs realOps (fun k => (cv k).v) sp.values defEps eps e (lvl + 1) ⟨setVars a.values.σ af (a.values.s0 lvl), a.values.s0, setRow a.values.s1 lvl af a.values.σ⟩
            else some ⟨setVars a.values.σ af (a.values.s0 lvl), a.values.s0, setRow a.values.s1 lvl af a.values.σ⟩ := by
          have heq : FSt.values ⟨setVars a.σ af (a.s0 lvl), a.s0, setRow a.s1 lvl af a.σ⟩ = ⟨setVars a.values.σ af (a.values.s0 lvl), a.values.s0, setRow a.values.s1 lvl af a.values.σ⟩ := by
            simp only [FSt.values, setRow_v, setVars_v]
          cases he with
          | true =>
            have := smoothSs_v cv sp defEps eps e (lvl + 1) ⟨setVars a.σ af (a.s0 lvl), a.s0, setRow a.s1 lvl af a.σ⟩
            rw [heq] at this
            exact this
          | false => exact congrArg some heq
        rw [← hB]
        generalize (if he = true then smoothSs cv sp defEps eps e (lvl + 1) ⟨setVars a.σ af (a.s0 lvl), a.s0, setRow a.s1 lvl af a.σ⟩ else some ⟨setVars a.σ af (a.s0 lvl), a.s0, setRow a.s1 lvl af a.σ⟩) = X
        cases X with
        | none => rfl
        | some d =>
          simp only [Option.map_some, FSt.values, setVars_v]
          rfl
  | .collect b, lvl, s => by
    rw [smoothS, fuzzyS]
    exact smoothSs_v cv sp defEps eps b lvl s
theorem smoothSs_v (cv : Nat → Dual) (sp : Sample Dual) (defEps eps : ℝ) : ∀ (st : Stmts Nat ℝ) (lvl : Nat) (s : FSt Dual),
    (smoothSs cv sp defEps eps st lvl s).map FSt.values = fuzzySs realOps (fun k => (cv k).v) sp.values defEps eps st lvl s.values
  | .nil, lvl, s => by rw [smoothSs, fuzzySs]; rfl
  | .cons st ss, lvl, s => by
    have h := smoothS_v cv sp defEps eps st lvl s
    rw [smoothSs, fuzzySs, ← h]
    cases smoothS cv sp defEps eps st lvl s with
    | none => rfl
    | some r => exact smoothSs_v cv sp defEps eps ss lvl r
end

theorem smoothEvents_v (cv : Nat → Dual) (defEps eps : ℝ) : ∀ (evs : List (Stmts Nat ℝ × Sample Dual)) (s : FSt Dual),
    (smoothEvents cv defEps eps evs s).map FSt.values = fuzzyEvents (fun k => (cv k).v) defEps eps (evs.map fun ev => (ev.1, ev.2.values)) s.values := by
  intro evs
  induction evs with
  | nil => intro s; rfl
  | cons ev evs ih =>
    intro s
    rw [smoothEvents, List.map_cons, fuzzyEvents, ← smoothSs_v]
    cases smoothSs cv ev.2 defEps eps ev.1 0 s with
    | none => rfl
    | some r => exact ih r

end Dal.Script
