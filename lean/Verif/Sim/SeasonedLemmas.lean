import Verif.Sim.SeasonedModel
import Verif.Sim.SeasonedSpec
import Verif.Script.DomainProps
import Verif.Script.EvalStackProps
import Verif.Script.IndexProps

/-! # Lemmas for products with events in the past -/

namespace Dal.Seasoned
open Dal.Script Dal.Report
variable {ν : Type} [DecidableEq ν]

theorem realOps_eq : realOps = fieldOps (K := ℝ) (· ^ ·) Real.log Real.sqrt Real.exp := rfl

/-! ### The stacks -/

theorem stack_condition {D : Type} (o : Ops D) (cv : Nat → D) (sp : Sample D) (c : Cond Nat D) : ∀ s s' : EvalSt D, visitC o cv sp c s = some s' → s' = { s with b := evalC o cv sp s.σ c :: s.b } := by
  have hpush : ∀ (s : EvalSt D) x s', s.pushB x = some s' → s' = { s with b := x :: s.b } := by
    intro s x s' h
    rw [EvalSt.pushB, push128] at h
    split at h
    · exact (Option.some.inj h).symm
    · cases h
  induction c with
  | cmp op e a f =>
    intro s s' h
    rw [visitC, C80_expression] at h
    split at h
    · exact hpush _ _ _ h
    · cases h
  | and l r f ihl ihr =>
    intro s s' h
    rw [visitC] at h
    obtain ⟨t, h1, h2⟩ := Option.bind_eq_some_iff.1 h
    rw [ihl s t h1] at h2
    rw [evalC]
    cases hl : evalC o cv sp s.σ l with
    | true => rw [hl] at h2; exact ihr s s' h2
    | false => rw [hl] at h2; exact (Option.some.inj h2).symm
  | or l r f ihl ihr =>
    intro s s' h
    rw [visitC] at h
    obtain ⟨t, h1, h2⟩ := Option.bind_eq_some_iff.1 h
    rw [ihl s t h1] at h2
    rw [evalC]
    cases hl : evalC o cv sp s.σ l with
    | false => rw [hl] at h2; exact ihr s s' h2
    | true => rw [hl] at h2; exact (Option.some.inj h2).symm
  | not a f ih =>
    intro s s' h
    rw [visitC] at h
    obtain ⟨t, h1, h2⟩ := Option.bind_eq_some_iff.1 h
    rw [ih s t h1] at h2
    exact (Option.some.inj h2).symm
  | tt => intro s s' h; exact hpush _ _ _ h
  | ff => intro s s' h; exact hpush _ _ _ h

mutual
theorem stack_stmt {D : Type} (o : Ops D) (cv : Nat → D) (sp : Sample D) : ∀ (st : Stmt Nat D) (s s' : EvalSt D), visitS o cv sp true st s = some s' →
    s'.b = s.b ∧ s'.σ = pastExec o cv sp st s.σ
  | .assign x e, s, s', h => by
    rw [visitS, C80_expression] at h
    split at h
    · rw [← Option.some.inj h]; exact ⟨rfl, rfl⟩
    · cases h
  | .pays x e, s, s', h => by
    rw [visitS, C80_expression] at h
    split at h
    · rw [← Option.some.inj h]; exact ⟨rfl, rfl⟩
    · cases h
  | .ite c t he e _ _, s, s', h => by
    rw [visitS] at h
    obtain ⟨u, h1, h2⟩ := Option.bind_eq_some_iff.1 h
    rw [stack_condition o cv sp c s u h1] at h2
    rw [pastExec]
    cases hc : evalC o cv sp s.σ c with
    | true => rw [hc] at h2; exact stack_stmts o cv sp t _ s' h2
    | false =>
      rw [hc] at h2
      cases he with
      | true => exact stack_stmts o cv sp e _ s' h2
      | false => rw [← Option.some.inj h2]; exact ⟨rfl, rfl⟩
  | .collect b, s, s', h => stack_stmts o cv sp b s s' h
theorem stack_stmts {D : Type} (o : Ops D) (cv : Nat → D) (sp : Sample D) : ∀ (ss : Stmts Nat D) (s s' : EvalSt D), visitSs o cv sp true ss s = some s' →
    s'.b = s.b ∧ s'.σ = pastExecs o cv sp ss s.σ
  | .nil, s, s', h => by rw [← Option.some.inj h]; exact ⟨rfl, rfl⟩
  | .cons st ss, s, s', h => by
    rw [visitSs] at h
    obtain ⟨u, h1, h2⟩ := Option.bind_eq_some_iff.1 h
    obtain ⟨a1, a2⟩ := stack_stmt o cv sp st s u h1
    obtain ⟨b1, b2⟩ := stack_stmts o cv sp ss u s' h2
    exact ⟨b1.trans a1, by rw [b2, a2, pastExecs]⟩
end

/-- Whatever the past evaluator returns is what the interpreter returns. -/
theorem stack_past {D : Type} (o : Ops D) (cv : Nat → D) (sp : Sample D) (past : List (Stmts Nat D)) (σ : Nat → D) (h : pastEvaluateSt o cv sp past = some σ) :
    σ = pastEvaluate o cv sp past := by
  rw [pastEvaluateSt, Option.map_eq_some_iff] at h
  obtain ⟨s', h1, rfl⟩ := h
  have key : ∀ (evs : List (Stmts Nat D)) (s s' : EvalSt D), visitEvents o cv true (evs.map fun ev => (ev, sp)) s = some s' → s'.σ = evs.foldl (fun σ ev => pastExecs o cv sp ev σ) s.σ := by
    intro evs
    induction evs with
    | nil => intro s s' h; rw [← Option.some.inj h]; rfl
    | cons ev evs ih =>
      intro s s' h
      rw [List.map_cons, visitEvents] at h
      obtain ⟨u, h1, h2⟩ := Option.bind_eq_some_iff.1 h
      rw [ih u s' h2, (stack_stmts o cv sp ev s u h1).2]
      rfl
  exact key past _ s' h1

/-! ### Names and slots -/

/-- The slots given to names, and the constants in them. -/
structure Fits (all : List (ν × Option ℝ)) (f g : ν → Nat) (cv : Nat → ℝ) : Prop where
  inj : ∀ n m, (n, none) ∈ all → (m, none) ∈ all → f n = f m → n = m
  con : ∀ n c, (n, some c) ∈ all → cv (g n) = c

/-- The variables in their slots. -/
def Same (all : List (ν × Option ℝ)) (f : ν → Nat) (σ : Nat → ℝ) (τ : ν → ℝ) : Prop := ∀ n, (n, none) ∈ all → σ (f n) = τ n

section
variable {all : List (ν × Option ℝ)} {f g : ν → Nat} {cv : Nat → ℝ} (hf : Fits all f g cv)
include hf

theorem value_eq (sp : Sample ℝ) (σ : Nat → ℝ) (τ : ν → ℝ) (hs : Same all f σ τ) : ∀ e : Expr ν ℝ, e.names ⊆ all → evalE realOps cv sp σ (e.map f g) = value sp.spot τ e := by
  intro e
  induction e with
  | bin op l r k ihl ihr =>
    intro h
    have h1 := ihl fun x hx => h (List.mem_append_left _ hx)
    have h2 := ihr fun x hx => h (List.mem_append_right _ hx)
    rw [Expr.map, evalE, h1, h2]
    cases op with
    | max =>
      show (if decide (value sp.spot τ l < value sp.spot τ r) = true then _ else _) = max _ _
      by_cases hlt : value sp.spot τ l < value sp.spot τ r
      · simp [hlt, max_eq_right hlt.le]
      · simp [hlt, max_eq_left (not_lt.1 hlt)]
    | min =>
      show (if decide (value sp.spot τ r < value sp.spot τ l) = true then _ else _) = min _ _
      by_cases hlt : value sp.spot τ r < value sp.spot τ l
      · simp [hlt, min_eq_right hlt.le]
      · simp [hlt, min_eq_left (not_lt.1 hlt)]
    | _ => rfl
  | un op a k ih =>
    intro h
    have h1 := ih h
    rw [Expr.map, evalE, h1]
    cases op <;> rfl
  | extra m x k ihm _ => intro h; exact ihm fun y hy => h (List.mem_append_left _ hy)
  | const c => intro h; rfl
  | var n k => intro h; exact hs n (h (by simp [Expr.names]))
  | constVar n c => intro h; exact hf.con n c (h (by simp [Expr.names]))
  | spot => intro h; rfl

theorem holds_iff (sp : Sample ℝ) (σ : Nat → ℝ) (τ : ν → ℝ) (hs : Same all f σ τ) : ∀ c : Cond ν ℝ, c.names ⊆ all → (evalC realOps cv sp σ (c.map f g) = true ↔ holds sp.spot τ c) := by
  intro c
  induction c with
  | cmp op e a fl =>
    intro h
    have h1 := value_eq hf sp σ τ hs e h
    rw [Cond.map, evalC, h1]
    cases op <;> exact decide_eq_true_iff
  | and l r fl ihl ihr =>
    intro h
    have h1 := ihl fun x hx => h (List.mem_append_left _ hx)
    have h2 := ihr fun x hx => h (List.mem_append_right _ hx)
    rw [Cond.map, evalC, holds, ← h1, ← h2]
    cases evalC realOps cv sp σ (l.map f g) <;> simp
  | or l r fl ihl ihr =>
    intro h
    have h1 := ihl fun x hx => h (List.mem_append_left _ hx)
    have h2 := ihr fun x hx => h (List.mem_append_right _ hx)
    rw [Cond.map, evalC, holds, ← h1, ← h2]
    cases evalC realOps cv sp σ (l.map f g) <;> simp
  | not c fl ih =>
    intro h
    rw [Cond.map, evalC, holds, ← ih h]
    cases evalC realOps cv sp σ (c.map f g) <;> simp
  | tt => intro h; simp [Cond.map, evalC, holds]
  | ff => intro h; simp [Cond.map, evalC, holds]

theorem fine_expr (sp : Sample ℝ) (σ : Nat → ℝ) (τ : ν → ℝ) (hs : Same all f σ τ) : ∀ e : Expr ν ℝ, e.names ⊆ all → FineE sp.spot τ e →
    OkE (K := ℝ) (· ^ ·) Real.log Real.sqrt Real.exp cv sp σ (e.map f g) := by
  intro e
  induction e with
  | bin op l r k ihl ihr =>
    intro h hx
    have h2 : r.names ⊆ all := fun x hx => h (List.mem_append_right _ hx)
    refine ⟨ihl (fun x hx => h (List.mem_append_left _ hx)) hx.1, ihr h2 hx.2.1, fun ho => ?_⟩
    rw [← realOps_eq, value_eq hf sp σ τ hs r h2]
    exact hx.2.2 ho
  | un op a k ih =>
    intro h hx
    refine ⟨ih h hx.1, fun ho => ?_, fun _ => Real.sqrt_nonneg _⟩
    rw [← realOps_eq, value_eq hf sp σ τ hs a h]
    exact Real.log_nonneg (hx.2 ho)
  | extra m x k ihm _ => intro h hx; cases hx
  | const c => intro h _; trivial
  | var n k => intro h _; trivial
  | constVar n c => intro h _; exact hf.con n c (h (by simp [Expr.names]))
  | spot => intro h _; trivial

theorem fine_cond (sp : Sample ℝ) (σ : Nat → ℝ) (τ : ν → ℝ) (hs : Same all f σ τ) : ∀ c : Cond ν ℝ, c.names ⊆ all → FineC sp.spot τ c →
    OkC (K := ℝ) (· ^ ·) Real.log Real.sqrt Real.exp cv sp σ (c.map f g) := by
  intro c
  induction c with
  | cmp op e a fl => intro h hx; exact fine_expr hf sp σ τ hs e h hx
  | and l r fl ihl ihr =>
    intro h hx
    have h1 : l.names ⊆ all := fun x hx => h (List.mem_append_left _ hx)
    exact ⟨ihl h1 hx.1, fun ht => ihr (fun x hx => h (List.mem_append_right _ hx)) (hx.2 ((holds_iff hf sp σ τ hs l h1).1 ht))⟩
  | or l r fl ihl ihr =>
    intro h hx
    have h1 : l.names ⊆ all := fun x hx => h (List.mem_append_left _ hx)
    refine ⟨ihl h1 hx.1, fun ht => ihr (fun x hx => h (List.mem_append_right _ hx)) (hx.2 fun hh => ?_)⟩
    have := (holds_iff hf sp σ τ hs l h1).2 hh
    rw [realOps_eq, ht] at this
    cases this
  | not c fl ih => intro h hx; exact ih h hx
  | tt => intro h _; trivial
  | ff => intro h _; trivial

theorem same_update (σ : Nat → ℝ) (τ : ν → ℝ) (hs : Same all f σ τ) (n : ν) (hn : (n, none) ∈ all) (x : ℝ) : Same all f (upd σ (f n) x) (Function.update τ n x) := by
  intro m hm
  by_cases h : m = n
  · subst h; simp [upd]
  · rw [Function.update_of_ne h, upd, if_neg fun e => h (hf.inj m n hm hn e)]
    exact hs m hm

mutual
theorem run_eq (cval : ν → ℝ) (num : Option ℝ) (sp : Sample ℝ) (hnum : ∀ n, num = some n → n = sp.numeraire) : ∀ (st : Stmt ν ℝ) (s : IfState) (σ : Nat → ℝ) (τ : ν → ℝ), Same all f σ τ →
    st.names cval ⊆ all → Variable st → Same all f (gexec realOps num.isSome cv sp (ifStmt s (st.map f g)).2 σ) (run num sp.spot st τ)
  | .assign x e, s, σ, τ, hs, h, hv => by
    have hx : (x.v, none) ∈ all := h (by rw [Stmt.names, Lhs.names, if_neg (by rw [show x.isConst = false from hv]; decide)]; simp)
    have he := value_eq hf sp σ τ hs e fun y hy => h (List.mem_append_right _ hy)
    rw [Stmt.map, ifStmt, gexec, run, he, Lhs.map, if_neg (by rw [show x.isConst = false from hv]; decide)]
    exact same_update hf σ τ hs x.v hx _
  | .pays x e, s, σ, τ, hs, h, hv => by
    have hx : (x.v, none) ∈ all := h (by rw [Stmt.names, Lhs.names, if_neg (by rw [show x.isConst = false from hv]; decide)]; simp)
    have he := value_eq hf sp σ τ hs e fun y hy => h (List.mem_append_right _ hy)
    have hl : x.map f g = ⟨f x.v, x.isConst⟩ := by rw [Lhs.map, if_neg (by rw [show x.isConst = false from hv]; decide)]
    rw [Stmt.map, ifStmt, gexec, he, hl]
    cases num with
    | none => rw [run]; exact hs
    | some n =>
      rw [if_pos (by rfl), run]
      have := same_update hf σ τ hs x.v hx (τ x.v + value sp.spot τ e / n)
      rw [hnum n rfl] at this ⊢
      show Same all f (upd σ (f x.v) (σ (f x.v) + value sp.spot τ e / sp.numeraire)) _
      rw [hs x.v hx]
      exact this
  | .ite c t he e af fl, s, σ, τ, hs, h, hv => by
    have hc := holds_iff hf sp σ τ hs c fun y hy => h (List.mem_append_left _ hy)
    have ht : t.names cval ⊆ all := fun y hy => h (List.mem_append_right _ (List.mem_append_left _ hy))
    have hee : e.names cval ⊆ all := fun y hy => h (List.mem_append_right _ (List.mem_append_right _ hy))
    rw [Stmt.map, ifStmt, run]
    dsimp only
    rw [gexec]
    by_cases hh : holds sp.spot τ c
    · rw [if_pos (hc.2 hh), if_pos hh]
      exact runs_eq cval num sp hnum t _ σ τ hs ht hv.1
    · rw [if_neg (fun k => hh (hc.1 k)), if_neg hh]
      split
      · exact runs_eq cval num sp hnum e _ σ τ hs hee hv.2
      · exact hs
  | .collect b, s, σ, τ, hs, h, hv => by
    rw [Stmt.map, ifStmt, run]
    exact runs_eq cval num sp hnum b s σ τ hs h hv
theorem runs_eq (cval : ν → ℝ) (num : Option ℝ) (sp : Sample ℝ) (hnum : ∀ n, num = some n → n = sp.numeraire) : ∀ (ss : Stmts ν ℝ) (s : IfState) (σ : Nat → ℝ) (τ : ν → ℝ), Same all f σ τ →
    ss.names cval ⊆ all → Variables ss → Same all f (gexecs realOps num.isSome cv sp (ifStmts s (ss.map f g)).2 σ) (runs num sp.spot ss τ)
  | .nil, s, σ, τ, hs, h, hv => by rw [Stmts.map, ifStmts, gexecs, runs]; exact hs
  | .cons st ss, s, σ, τ, hs, h, hv => by
    rw [Stmts.map, ifStmts, runs]
    dsimp only
    rw [gexecs]
    exact runs_eq cval num sp hnum ss _ _ _ (run_eq cval num sp hnum st s σ τ hs (fun y hy => h (List.mem_append_left _ hy)) hv.1) (fun y hy => h (List.mem_append_right _ hy)) hv.2
end

mutual
theorem fine_stmt (cval : ν → ℝ) (num : Option ℝ) (sp : Sample ℝ) (hnum : ∀ n, num = some n → n = sp.numeraire) : ∀ (st : Stmt ν ℝ) (s : IfState) (σ : Nat → ℝ) (τ : ν → ℝ), Same all f σ τ →
    st.names cval ⊆ all → Variable st → FineS num sp.spot st τ → OkS (K := ℝ) (· ^ ·) Real.log Real.sqrt Real.exp num.isSome cv sp (ifStmt s (st.map f g)).2 σ
  | .assign x e, s, σ, τ, hs, h, hv, hx => by
    rw [Stmt.map, ifStmt, OkS]
    exact fine_expr hf sp σ τ hs e (fun y hy => h (List.mem_append_right _ hy)) hx
  | .pays x e, s, σ, τ, hs, h, hv, hx => by
    rw [Stmt.map, ifStmt, OkS]
    intro hn
    exact fine_expr hf sp σ τ hs e (fun y hy => h (List.mem_append_right _ hy)) (hx (by rintro rfl; cases hn))
  | .ite c t he e af fl, s, σ, τ, hs, h, hv, hx => by
    have hcn : c.names ⊆ all := fun y hy => h (List.mem_append_left _ hy)
    have hc := holds_iff hf sp σ τ hs c hcn
    have ht : t.names cval ⊆ all := fun y hy => h (List.mem_append_right _ (List.mem_append_left _ hy))
    have hee : e.names cval ⊆ all := fun y hy => h (List.mem_append_right _ (List.mem_append_right _ hy))
    rw [Stmt.map, ifStmt]
    dsimp only
    rw [OkS, ← realOps_eq]
    refine ⟨fine_cond hf sp σ τ hs c hcn hx.1, fun hh => fine_stmts cval num sp hnum t _ σ τ hs ht hv.1 (hx.2.1 (hc.1 hh)), fun hh hhe => ?_⟩
    exact fine_stmts cval num sp hnum e _ σ τ hs hee hv.2 (hx.2.2 (fun k => by rw [hc.2 k] at hh; cases hh) hhe)
  | .collect b, s, σ, τ, hs, h, hv, hx => by
    rw [Stmt.map, ifStmt]
    exact fine_stmts cval num sp hnum b s σ τ hs h hv hx
theorem fine_stmts (cval : ν → ℝ) (num : Option ℝ) (sp : Sample ℝ) (hnum : ∀ n, num = some n → n = sp.numeraire) : ∀ (ss : Stmts ν ℝ) (s : IfState) (σ : Nat → ℝ) (τ : ν → ℝ), Same all f σ τ →
    ss.names cval ⊆ all → Variables ss → FineSs num sp.spot ss τ → OkSs (K := ℝ) (· ^ ·) Real.log Real.sqrt Real.exp num.isSome cv sp (ifStmts s (ss.map f g)).2 σ
  | .nil, s, σ, τ, hs, h, hv, hx => by rw [Stmts.map, ifStmts, OkSs]; trivial
  | .cons st ss, s, σ, τ, hs, h, hv, hx => by
    rw [Stmts.map, ifStmts]
    dsimp only
    have hn1 : st.names cval ⊆ all := fun y hy => h (List.mem_append_left _ hy)
    rw [OkSs]
    refine ⟨fine_stmt cval num sp hnum st s σ τ hs hn1 hv.1 hx.1, ?_⟩
    rw [← realOps_eq]
    exact fine_stmts cval num sp hnum ss _ _ _ (run_eq hf cval num sp hnum st s σ τ hs hn1 hv.1) (fun y hy => h (List.mem_append_right _ hy)) hv.2 hx.2
end

end

/-! ### The affected variables -/

mutual
theorem rec_stmt : ∀ st : Stmt Nat ℝ, (∀ {c t he e af f}, InStmt (.ite c t he e af f) st → ∀ x ∈ targetss t ++ targetss e, x.v ∈ af) → RecS st
  | .assign _ _, _ => trivial
  | .pays _ _, _ => trivial
  | .ite c t he e af f, h => by
    have h1 := h (InStmt.self)
    exact ⟨fun x hx => h1 x (List.mem_append_left _ hx), fun x hx => h1 x (List.mem_append_right _ hx), rec_stmts t fun hi => h (InStmt.then' hi), rec_stmts e fun hi => h (InStmt.else' hi)⟩
  | .collect b, h => rec_stmts b fun hi => h (InStmt.collect hi)
theorem rec_stmts : ∀ ss : Stmts Nat ℝ, (∀ {c t he e af f}, InStmts (.ite c t he e af f) ss → ∀ x ∈ targetss t ++ targetss e, x.v ∈ af) → RecSs ss
  | .nil, _ => trivial
  | .cons s ss, h => ⟨rec_stmt s fun hi => h (InStmts.head hi), rec_stmts ss fun hi => h (InStmts.tail hi)⟩
end

mutual
theorem in_targets {x : Stmt Nat ℝ} : ∀ st : Stmt Nat ℝ, InStmt x st → targets x ⊆ targets st
  | _, .self => fun _ h => h
  | .ite _ t _ e _ _, .then' h => fun _ hy => List.mem_append_left _ (in_targetss t h hy)
  | .ite _ t _ e _ _, .else' h => fun _ hy => List.mem_append_right _ (in_targetss e h hy)
  | .collect b, .collect h => in_targetss b h
theorem in_targetss {x : Stmt Nat ℝ} : ∀ ss : Stmts Nat ℝ, InStmts x ss → targets x ⊆ targetss ss
  | .cons s _, .head h => fun _ hy => List.mem_append_left _ (in_targets s h hy)
  | .cons _ ss, .tail h => fun _ hy => List.mem_append_right _ (in_targetss ss h hy)
end

mutual
theorem map_targets (cval : ν → ℝ) (f g : ν → Nat) : ∀ st : Stmt ν ℝ, Variable st → ∀ x ∈ targets (st.map f g), x.isConst = false ∧ ∃ n, (n, none) ∈ st.names cval ∧ x.v = f n
  | .assign y e, hv, x, hx => by
    rw [Stmt.map, targets, List.mem_singleton, Lhs.map, if_neg (by rw [show y.isConst = false from hv]; decide)] at hx
    subst hx
    exact ⟨hv, y.v, by rw [Stmt.names, Lhs.names, if_neg (by rw [show y.isConst = false from hv]; decide)]; simp, rfl⟩
  | .pays y e, hv, x, hx => by
    rw [Stmt.map, targets, List.mem_singleton, Lhs.map, if_neg (by rw [show y.isConst = false from hv]; decide)] at hx
    subst hx
    exact ⟨hv, y.v, by rw [Stmt.names, Lhs.names, if_neg (by rw [show y.isConst = false from hv]; decide)]; simp, rfl⟩
  | .ite c t he e af fl, hv, x, hx => by
    rw [Stmt.map, targets, List.mem_append] at hx
    rcases hx with hx | hx
    · obtain ⟨h1, n, h2, h3⟩ := map_targetss cval f g t hv.1 x hx
      exact ⟨h1, n, List.mem_append_right _ (List.mem_append_left _ h2), h3⟩
    · obtain ⟨h1, n, h2, h3⟩ := map_targetss cval f g e hv.2 x hx
      exact ⟨h1, n, List.mem_append_right _ (List.mem_append_right _ h2), h3⟩
  | .collect b, hv, x, hx => map_targetss cval f g b hv x hx
theorem map_targetss (cval : ν → ℝ) (f g : ν → Nat) : ∀ ss : Stmts ν ℝ, Variables ss → ∀ x ∈ targetss (ss.map f g), x.isConst = false ∧ ∃ n, (n, none) ∈ ss.names cval ∧ x.v = f n
  | .nil, _, x, hx => by rw [Stmts.map, targetss] at hx; cases hx
  | .cons s ss, hv, x, hx => by
    rw [Stmts.map, targetss, List.mem_append] at hx
    rcases hx with hx | hx
    · obtain ⟨h1, n, h2, h3⟩ := map_targets cval f g s hv.1 x hx
      exact ⟨h1, n, List.mem_append_left _ h2, h3⟩
    · obtain ⟨h1, n, h2, h3⟩ := map_targetss cval f g ss hv.2 x hx
      exact ⟨h1, n, List.mem_append_right _ h2, h3⟩
end

theorem ifEvents_targets : ∀ (evs : List (Stmts Nat ℝ)) (s : IfState), ∀ ev ∈ (ifEvents s evs).2, ∃ ev' ∈ evs, targetss ev = targetss ev' := by
  intro evs
  induction evs with
  | nil => intro s ev h; cases h
  | cons e es ih =>
    intro s ev h
    rw [ifEvents] at h
    dsimp only at h
    rcases List.mem_cons.1 h with rfl | h
    · exact ⟨e, List.mem_cons_self, ifStmts_targets e s⟩
    · obtain ⟨e', h1, h2⟩ := ih _ ev h
      exact ⟨e', List.mem_cons_of_mem _ h1, h2⟩

/-- After the `IF` processor every branch knows the variables it writes. -/
theorem rec_events (cval : ν → ℝ) (f g : ν → Nat) (evs : List (Stmts ν ℝ)) (hv : ∀ e ∈ evs, Variables e) : ∀ ev ∈ (ifEvents {} (evs.map (Stmts.map f g))).2, RecSs ev := by
  intro ev hev
  refine rec_stmts ev fun {c t he e af fl} hi x hx => ?_
  refine (C31_recorded_iff_written _ hev hi x.v).2 ⟨x, hx, ?_, rfl⟩
  have h1 : x ∈ targetss ev := in_targetss ev hi hx
  obtain ⟨e', h2, h3⟩ := ifEvents_targets _ _ ev hev
  rw [h3] at h1
  obtain ⟨e0, h4, rfl⟩ := List.mem_map.1 h2
  exact (map_targetss cval f g e0 (hv e0 h4) x h1).1

/-! ### Events in order -/

/-- Events with their samples; `false` if they are in the past. -/
abbrev Plan (ν : Type) := List (Bool × Stmts ν ℝ × Sample ℝ)

/-- What happens. -/
def Plan.happened (L : Plan ν) : List (Happened ν) := L.map fun a => (a.2.1, a.2.2.spot, if a.1 then some a.2.2.numeraire else none)

/-- The events after indexing and the `IF` processor. -/
def Plan.dated (L : Plan ν) (f g : ν → Nat) (s : IfState) : List (Dated ℝ) :=
  match L with
  | [] => []
  | a :: l => (a.1, (ifStmts s (a.2.1.map f g)).2, a.2.2) :: Plan.dated l f g (ifStmts s (a.2.1.map f g)).1

theorem Plan.dated_events (f g : ν → Nat) : ∀ (L : Plan ν) (s : IfState), (L.dated f g s).map (fun e => e.2.1) = (ifEvents s (L.map fun a => a.2.1.map f g)).2
  | [], s => rfl
  | a :: l, s => by
    rw [Plan.dated, List.map_cons, List.map_cons, ifEvents, Plan.dated_events f g l]

theorem Plan.dated_append (f g : ν → Nat) : ∀ (L M : Plan ν) (s : IfState), Plan.dated (L ++ M) f g s = L.dated f g s ++ M.dated f g (ifEvents s (L.map fun a => a.2.1.map f g)).1
  | [], M, s => rfl
  | a :: l, M, s => by
    rw [List.cons_append, Plan.dated, Plan.dated, List.cons_append, Plan.dated_append f g l, List.map_cons, ifEvents]

theorem Plan.dated_shape (f g : ν → Nat) : ∀ (L : Plan ν) (s : IfState), (L.dated f g s).map (fun e => (e.1, e.2.2)) = L.map fun a => (a.1, a.2.2)
  | [], s => rfl
  | a :: l, s => by rw [Plan.dated, List.map_cons, List.map_cons, Plan.dated_shape f g l]

/-- The parts evaluated by events are defined. -/
def OkAll (cv : Nat → ℝ) : List (Dated ℝ) → (Nat → ℝ) → Prop
  | [], _ => True
  | e :: l, σ => OkSs (K := ℝ) (· ^ ·) Real.log Real.sqrt Real.exp e.1 cv e.2.2 e.2.1 σ ∧ OkAll cv l (gexecs realOps e.1 cv e.2.2 e.2.1 σ)

theorem OkAll.pre {cv : Nat → ℝ} : ∀ {l : List (Dated ℝ)} {σ : Nat → ℝ}, OkAll cv l σ → ∀ pre ev post, l = pre ++ ev :: post →
    OkSs (K := ℝ) (· ^ ·) Real.log Real.sqrt Real.exp ev.1 cv ev.2.2 ev.2.1 (runAll (fieldOps (· ^ ·) Real.log Real.sqrt Real.exp) cv pre σ)
  | [], σ, h, pre, ev, post, e => by cases pre <;> cases e
  | a :: l, σ, h, [], ev, post, e => by
    injection e with e1 e2
    subst e1
    exact h.1
  | a :: l, σ, h, p :: pre, ev, post, e => by
    injection e with e1 e2
    subst e1
    rw [runAll_cons]
    exact OkAll.pre h.2 pre ev post e2

theorem OkAll.left {cv : Nat → ℝ} : ∀ {l m : List (Dated ℝ)} {σ : Nat → ℝ}, OkAll cv (l ++ m) σ → OkAll cv l σ
  | [], _, _, _ => trivial
  | _ :: _, _, _, h => ⟨h.1, OkAll.left h.2⟩

theorem isSome_of (b : Bool) (x : ℝ) : (if b then some x else none : Option ℝ).isSome = b := by cases b <;> rfl

section
variable {all : List (ν × Option ℝ)} {f g : ν → Nat} {cv : Nat → ℝ} (hf : Fits all f g cv)
include hf

theorem story_eq (cval : ν → ℝ) : ∀ (L : Plan ν) (s : IfState) (σ : Nat → ℝ) (τ : ν → ℝ), Same all f σ τ → (∀ a ∈ L, a.2.1.names cval ⊆ all ∧ Variables a.2.1) →
    Same all f (runAll realOps cv (L.dated f g s) σ) (story L.happened τ) := by
  intro L
  induction L with
  | nil => intro s σ τ hs _; exact hs
  | cons a l ih =>
    intro s σ τ hs h
    have h1 := h a List.mem_cons_self
    have h2 := runs_eq hf cval (if a.1 then some a.2.2.numeraire else none) a.2.2 (by intro n hn; split at hn <;> [exact (Option.some.inj hn).symm; cases hn]) a.2.1 s σ τ hs h1.1 h1.2
    rw [isSome_of] at h2
    rw [Plan.dated, runAll_cons]
    exact ih _ _ _ h2 fun b hb => h b (List.mem_cons_of_mem _ hb)

theorem fine_all (cval : ν → ℝ) : ∀ (L : Plan ν) (s : IfState) (σ : Nat → ℝ) (τ : ν → ℝ), Same all f σ τ → (∀ a ∈ L, a.2.1.names cval ⊆ all ∧ Variables a.2.1) →
    Fine L.happened τ → OkAll cv (L.dated f g s) σ := by
  intro L
  induction L with
  | nil => intro s σ τ hs _ _; trivial
  | cons a l ih =>
    intro s σ τ hs h hx
    have h1 := h a List.mem_cons_self
    have hn : ∀ n, (if a.1 then some a.2.2.numeraire else none : Option ℝ) = some n → n = a.2.2.numeraire := by
      intro n hn; split at hn <;> [exact (Option.some.inj hn).symm; cases hn]
    have h2 := runs_eq hf cval _ a.2.2 hn a.2.1 s σ τ hs h1.1 h1.2
    have h3 := fine_stmts hf cval _ a.2.2 hn a.2.1 s σ τ hs h1.1 h1.2 hx.1
    rw [isSome_of] at h2 h3
    exact ⟨h3, ih _ _ _ h2 (fun b hb => h b (List.mem_cons_of_mem _ hb)) hx.2⟩

end

/-! ### Slots -/

/-- The slots of the names of a product, and what is in the lists of the indexer. -/
theorem slots_all (cval : ν → ℝ) (evs : List (Stmts ν ℝ)) (ha : Agree cval (evs.flatMap (Stmts.names cval))) : ∃ f g : ν → Nat,
    (indexed cval evs).2 = evs.map (Stmts.map f g) ∧
    (∀ n, (n, none) ∈ evs.flatMap (Stmts.names cval) → (indexed cval evs).1.varNames[f n]? = some (some n)) ∧
    (∀ n c, (n, some c) ∈ evs.flatMap (Stmts.names cval) → (indexed cval evs).1.constValues[g n]? = some (some c)) ∧
    (∀ n, (n, none) ∈ evs.flatMap (Stmts.names cval) → payoffIdx n (indexed cval evs).1.varNames = some (f n)) := by
  obtain ⟨h1, -, h3, h4⟩ := events_spec cval evs ({} : Indexer ν ℝ) good_empty
  have hv : ∀ n, (n, none) ∈ evs.flatMap (Stmts.names cval) → (indexed cval evs).1.varNames[(indexed cval evs).1.slot n]? = some (some n) := by
    intro n hn
    obtain ⟨i, hi⟩ := h3 _ hn
    have : (indexed cval evs).1.slot n = i := by unfold Indexer.slot indexed; rw [hi]; rfl
    rw [this]
    exact varNames_get _ h1 n i hi
  refine ⟨_, _, h4 _ (Ext.refl _), hv, ?_, ?_⟩
  · intro n c hn
    obtain ⟨⟨i, v⟩, hi⟩ := h3 _ hn
    have : (indexed cval evs).1.cslot n = i := by unfold Indexer.cslot indexed; rw [hi]; rfl
    rw [this, (constNames_get _ h1 n i v hi).2]
    have hv := events_vals cval evs ({} : Indexer ν ℝ) (by intro e he; cases he) ha _ (find_mem hi)
    rw [ha n c hn]
    exact congrArg some (congrArg some hv)
  · intro n hn
    have hnd := (C28_names_nodup cval evs).1
    have hget := hv n hn
    have hfn : findName n 0 (indexed cval evs).1.varNames = some (0 + (indexed cval evs).1.slot n) := by
      refine findName_some hget ?_
      intro j hj e
      obtain ⟨hj', e'⟩ := List.getElem?_eq_some_iff.mp e
      obtain ⟨hf', e''⟩ := List.getElem?_eq_some_iff.mp hget
      have := (List.Nodup.getElem_inj_iff hnd).mp (e'.trans e''.symm)
      omega
    rw [payoffIdx, hfn]
    simp

theorem filled_get {A : Type} : ∀ (l : List (Option A)) (r : List A), filled l = some r → ∀ (i : Nat) (a : A), l[i]? = some (some a) → r[i]? = some a := by
  intro l
  induction l with
  | nil => intro r _ i a h; simp at h
  | cons x l ih =>
    intro r h i a hi
    cases x with
    | none => cases h
    | some b =>
      rw [filled, Option.map_eq_some_iff] at h
      obtain ⟨r', h1, rfl⟩ := h
      cases i with
      | zero => simpa using hi
      | succ i => simpa using ih r' h1 i a (by simpa using hi)

theorem domEvents_append (o : Ops ℝ) (fuzzy : Bool) : ∀ (l m : List (Stmts Nat ℝ)) (δ : Nat → Dom ℝ) (r : List (Stmts Nat ℝ) × (Nat → Dom ℝ)), domEvents o fuzzy (l ++ m) δ = some r →
    ∃ r1 r2, domEvents o fuzzy l δ = some r1 ∧ domEvents o fuzzy m r1.2 = some r2 ∧ r.1 = r1.1 ++ r2.1 ∧ r1.1.length = l.length := by
  intro l
  induction l with
  | nil => intro m δ r h; exact ⟨([], δ), r, rfl, h, rfl, rfl⟩
  | cons e l ih =>
    intro m δ r h
    rw [List.cons_append, domEvents] at h
    obtain ⟨a, h1, h2⟩ := Option.bind_eq_some_iff.1 h
    obtain ⟨b, h3, rfl⟩ := Option.map_eq_some_iff.1 h2
    obtain ⟨r1, r2, g1, g2, g3, g4⟩ := ih m a.2 b h3
    refine ⟨(a.1 :: r1.1, r1.2), r2, ?_, g2, ?_, ?_⟩
    · rw [domEvents, h1, Option.bind_some, g1, Option.map_some]
    · show a.1 :: b.1 = _
      rw [g3]; rfl
    · simp [g4]

/-! ### Variables that are not written -/

mutual
theorem past_frame (o : Ops ℝ) (cv : Nat → ℝ) (sp : Sample ℝ) : ∀ (s : Stmt Nat ℝ) (σ : Nat → ℝ) (i : Nat), (∀ x ∈ targets s, x.v ≠ i) → pastExec o cv sp s σ i = σ i
  | .assign x e, σ, i, h => by
    rw [pastExec, upd, if_neg fun he => h x (by simp [targets]) he.symm]
  | .pays x e, σ, i, h => rfl
  | .ite c t he e _ _, σ, i, h => by
    rw [pastExec]
    split
    · exact pasts_frame o cv sp t σ i fun x hx => h x (List.mem_append_left _ hx)
    · split
      · exact pasts_frame o cv sp e σ i fun x hx => h x (List.mem_append_right _ hx)
      · rfl
  | .collect b, σ, i, h => pasts_frame o cv sp b σ i h
theorem pasts_frame (o : Ops ℝ) (cv : Nat → ℝ) (sp : Sample ℝ) : ∀ (ss : Stmts Nat ℝ) (σ : Nat → ℝ) (i : Nat), (∀ x ∈ targetss ss, x.v ≠ i) → pastExecs o cv sp ss σ i = σ i
  | .nil, σ, i, h => rfl
  | .cons s ss, σ, i, h => by
    rw [pastExecs, pasts_frame o cv sp ss _ i fun x hx => h x (List.mem_append_right _ hx), past_frame o cv sp s σ i fun x hx => h x (List.mem_append_left _ hx)]
end

theorem past_zero (o : Ops ℝ) (cv : Nat → ℝ) (sp : Sample ℝ) (past : List (Stmts Nat ℝ)) (i : Nat) (h : ∀ ev ∈ past, ∀ x ∈ targetss ev, x.v ≠ i) : pastEvaluate o cv sp past i = o.zero := by
  have key : ∀ (l : List (Stmts Nat ℝ)) (σ : Nat → ℝ), (∀ ev ∈ l, ∀ x ∈ targetss ev, x.v ≠ i) → l.foldl (fun σ ev => pastExecs o cv sp ev σ) σ i = σ i := by
    intro l
    induction l with
    | nil => intro σ _; rfl
    | cons e l ih =>
      intro σ h
      rw [List.foldl_cons, ih _ fun ev hev => h ev (List.mem_cons_of_mem _ hev), pasts_frame o cv sp e σ i (h e List.mem_cons_self)]
  exact key past _ h

mutual
theorem past_ifs (o : Ops ℝ) (cv : Nat → ℝ) (sp : Sample ℝ) : ∀ (st : Stmt Nat ℝ) (s : IfState) (σ : Nat → ℝ), pastExec o cv sp (ifStmt s st).2 σ = pastExec o cv sp st σ
  | .assign x e, s, σ => rfl
  | .pays x e, s, σ => rfl
  | .ite c t he e _ _, s, σ => by
    rw [ifStmt]
    dsimp only
    rw [pastExec, pastExec, pasts_ifs o cv sp t, pasts_ifs o cv sp e]
  | .collect b, s, σ => pasts_ifs o cv sp b s σ
theorem pasts_ifs (o : Ops ℝ) (cv : Nat → ℝ) (sp : Sample ℝ) : ∀ (ss : Stmts Nat ℝ) (s : IfState) (σ : Nat → ℝ), pastExecs o cv sp (ifStmts s ss).2 σ = pastExecs o cv sp ss σ
  | .nil, s, σ => rfl
  | .cons st ss, s, σ => by
    rw [ifStmts]
    dsimp only
    rw [pastExecs, pastExecs, past_ifs o cv sp st, pasts_ifs o cv sp ss]
end

/-- The events in the past after the `IF` processor do what they did before. -/
theorem runAll_past (cv : Nat → ℝ) (f g : ν → Nat) (sp : Sample ℝ) : ∀ (past : List (Stmts ν ℝ)) (s : IfState) (σ : Nat → ℝ),
    runAll realOps cv (Plan.dated (past.map fun e => (false, e, sp)) f g s) σ = (past.map (Stmts.map f g)).foldl (fun σ ev => pastExecs realOps cv sp ev σ) σ
  | [], s, σ => rfl
  | e :: l, s, σ => by
    rw [List.map_cons, Plan.dated, runAll_cons, List.map_cons, List.foldl_cons, runAll_past cv f g sp l]
    dsimp only
    rw [gexecs_false, pasts_ifs]

theorem runAll_append (o : Ops ℝ) (cv : Nat → ℝ) (l m : List (Dated ℝ)) (σ : Nat → ℝ) : runAll o cv (l ++ m) σ = runAll o cv m (runAll o cv l σ) := List.foldl_append

theorem runAll_future (cv : Nat → ℝ) : ∀ (evs : List (Stmts Nat ℝ)) (L : List (Dated ℝ)) (path : List (Sample ℝ)) (σ : Nat → ℝ), L.map (fun e => (e.1, e.2.2)) = path.map (fun sp => (true, sp)) →
    evs.length = L.length → runAll realOps cv (List.zipWith (fun ev st => (ev.1, ccSs st, ev.2.2)) L evs) σ = evaluate realOps cv ((evs.map ccSs).zip path) σ
  | [], L, path, σ, h, hl => by simp [runAll, evaluate]
  | e :: evs, [], path, σ, h, hl => by cases hl
  | e :: evs, a :: L, [], σ, h, hl => by cases h
  | e :: evs, a :: L, sp :: path, σ, h, hl => by
    rw [List.map_cons, List.map_cons] at h
    injection h with h1 h2
    injection h1 with h3 h4
    rw [List.zipWith_cons_cons, runAll_cons, List.map_cons, List.zip_cons_cons]
    show runAll _ _ _ _ = evaluate realOps cv ((evs.map ccSs).zip path) (execs realOps cv sp (ccSs e) σ)
    rw [runAll_future cv evs L path _ h2 (by simpa using hl)]
    dsimp only
    rw [h3, h4, gexecs_true]

end Dal.Seasoned
