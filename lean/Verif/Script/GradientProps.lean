import Verif.Script.GradientModel
import Verif.Sim.DupireProps
import Mathlib.Analysis.SpecialFunctions.Pow.Deriv
import Mathlib.Analysis.SpecialFunctions.Sqrt

/-!
# C99: the derivatives of scripts

Specification: a parameter moves along a line, the market data, the constants and the variables before the script are functions of it, and the derivative meant is the derivative of
the value that the script computes with doubles as a function of the parameter. `Settled` says what must not happen at the point: no comparison decided by a tie that a small move
of the parameter breaks, no division by zero, no logarithm, root or power where these have no derivative.
-/

namespace Dal
open Dal.Models Dal.Script Filter Topology

/-- Zero or not, it stays so near the point. -/
def Steady (f : ℝ → ℝ) (u : ℝ) : Prop := f u ≠ 0 ∨ ∀ᶠ t in 𝓝 u, f t = 0

/-- What a binary operator needs of its arguments to have a derivative. -/
def BinSettled (op : BinOp) (f g : ℝ → ℝ) (u : ℝ) : Prop :=
  match op with
  | .div => g u ≠ 0
  | .pow => 0 < f u ∨ (f u ≠ 0 ∧ ∀ᶠ t in 𝓝 u, g t = g u)
  | .max | .min => Steady (fun t => f t - g t) u
  | _ => True

/-- What a function needs of its argument to have a derivative. -/
def UnSettled (op : UnOp) (f : ℝ → ℝ) (u : ℝ) : Prop :=
  match op with
  | .log => f u ≠ 0
  | .sqrt => 0 < f u
  | _ => True

/-- What an expression needs to have a derivative; only what is visited matters. -/
def SettledE (cv : ℝ → Nat → ℝ) (sp : ℝ → Script.Sample ℝ) (σ : ℝ → Nat → ℝ) (u : ℝ) : Expr Nat ℝ → Prop
  | .bin op l r _ => SettledE cv sp σ u l ∧ SettledE cv sp σ u r ∧
      BinSettled op (fun t => evalE realOps (cv t) (sp t) (σ t) l) (fun t => evalE realOps (cv t) (sp t) (σ t) r) u
  | .un op a _ => SettledE cv sp σ u a ∧ UnSettled op (fun t => evalE realOps (cv t) (sp t) (σ t) a) u
  | .extra m _ _ => SettledE cv sp σ u m
  | _ => True

/-- What a condition needs in order not to change near the point; only what is visited matters. -/
def SettledC (cv : ℝ → Nat → ℝ) (sp : ℝ → Script.Sample ℝ) (σ : ℝ → Nat → ℝ) (u : ℝ) : Cond Nat ℝ → Prop
  | .cmp _ e _ _ => SettledE cv sp σ u e ∧ Steady (fun t => evalE realOps (cv t) (sp t) (σ t) e) u
  | .and l r _ => SettledC cv sp σ u l ∧ (evalC realOps (cv u) (sp u) (σ u) l = true → SettledC cv sp σ u r)
  | .or l r _ => SettledC cv sp σ u l ∧ (evalC realOps (cv u) (sp u) (σ u) l = false → SettledC cv sp σ u r)
  | .not a _ => SettledC cv sp σ u a
  | _ => True

mutual
/-- What a statement needs; only the branch taken matters. -/
def SettledS (cv : ℝ → Nat → ℝ) (sp : ℝ → Script.Sample ℝ) (u : ℝ) : Stmt Nat ℝ → (ℝ → Nat → ℝ) → Prop
  | .assign _ e, σ => SettledE cv sp σ u e
  | .pays _ e, σ => SettledE cv sp σ u e ∧ (sp u).numeraire ≠ 0
  | .ite c t he e _ _, σ => SettledC cv sp σ u c ∧
      if evalC realOps (cv u) (sp u) (σ u) c then SettledSs cv sp u t σ else he = true → SettledSs cv sp u e σ
  | .collect b, σ => SettledSs cv sp u b σ
/-- What a list of statements needs. -/
def SettledSs (cv : ℝ → Nat → ℝ) (sp : ℝ → Script.Sample ℝ) (u : ℝ) : Stmts Nat ℝ → (ℝ → Nat → ℝ) → Prop
  | .nil, _ => True
  | .cons s ss, σ => SettledS cv sp u s σ ∧ SettledSs cv sp u ss (fun t => exec realOps (cv t) (sp t) s (σ t))
end

/-- What the events of a product need. -/
def Settled (cv : ℝ → Nat → ℝ) (u : ℝ) : List (Stmts Nat ℝ × (ℝ → Script.Sample ℝ)) → (ℝ → Nat → ℝ) → Prop
  | [], _ => True
  | ev :: evs, σ => SettledSs cv ev.2 u ev.1 σ ∧ Settled cv u evs (fun t => execs realOps (cv t) (ev.2 t) ev.1 (σ t))

theorem tracks_congr {f g : ℝ → ℝ} {u : ℝ} {a : Dual} (h : Tracks f u a) (he : ∀ᶠ t in 𝓝 u, g t = f t) : Tracks g u a :=
  ⟨h.1.trans he.self_of_nhds.symm, h.2.congr_of_eventuallyEq he⟩

theorem steady_sign {f : ℝ → ℝ} {u : ℝ} {d : ℝ} (hd : HasDerivAt f d u) (h : Steady f u) :
    ∀ᶠ t in 𝓝 u, (f t = 0 ↔ f u = 0) ∧ (0 < f t ↔ 0 < f u) ∧ (f t < 0 ↔ f u < 0) := by
  rcases h with h | h
  · have hc := hd.continuousAt
    rcases lt_or_gt_of_ne h with h | h
    · filter_upwards [hc.eventually (gt_mem_nhds h)] with t ht
      exact ⟨⟨fun e => absurd e ht.ne, fun e => absurd e h.ne⟩, ⟨fun e => absurd e (not_lt.2 ht.le), fun e => absurd e (not_lt.2 h.le)⟩, ⟨fun _ => h, fun _ => ht⟩⟩
    · filter_upwards [hc.eventually (lt_mem_nhds h)] with t ht
      exact ⟨⟨fun e => absurd e ht.ne', fun e => absurd e h.ne'⟩, ⟨fun _ => h, fun _ => ht⟩, ⟨fun e => absurd e (not_lt.2 ht.le), fun e => absurd e (not_lt.2 h.le)⟩⟩
  · have h0 := h.self_of_nhds
    filter_upwards [h] with t ht
    rw [ht, h0]
    simp

theorem bin_tracks {op : BinOp} {f g : ℝ → ℝ} {u : ℝ} {a b : Dual} (ha : Tracks f u a) (hb : Tracks g u b) (hs : BinSettled op f g u) :
    Tracks (fun t => evalBin realOps op (f t) (g t)) u (evalBin dualOps op a b) := by
  obtain ⟨av, ad⟩ := a
  obtain ⟨bv, bd⟩ := b
  obtain ⟨ha1, ha2⟩ := ha
  obtain ⟨hb1, hb2⟩ := hb
  dsimp only at ha1 ha2 hb1 hb2
  subst ha1 hb1
  cases op with
  | add => exact ⟨rfl, ha2.add hb2⟩
  | sub => exact ⟨rfl, (ha2.sub hb2).congr_deriv (by show ad - bd = ad + -1 * bd; ring)⟩
  | mul => exact ⟨rfl, (ha2.mul hb2).congr_deriv (by show ad * g u + f u * bd = g u * ad + f u * bd; ring)⟩
  | div =>
    have h0 : g u ≠ 0 := hs
    exact ⟨rfl, (ha2.div hb2 h0).congr_deriv (by show (ad * g u - f u * bd) / g u ^ 2 = 1 / g u * ad + -f u / g u / g u * bd; field_simp; ring)⟩
  | pow =>
    rcases hs with h | ⟨h, hc⟩
    · refine ⟨rfl, (ha2.rpow hb2 h).congr_deriv ?_⟩
      show ad * g u * f u ^ (g u - 1) + bd * f u ^ g u * Real.log (f u) = g u * f u ^ g u / f u * ad + Real.log (f u) * f u ^ g u * bd
      rw [Real.rpow_sub_one h.ne']; ring
    · have hbd : bd = 0 := hb2.unique ((hasDerivAt_const u (g u)).congr_of_eventuallyEq hc)
      subst hbd
      refine tracks_congr (f := fun t => f t ^ g u) ⟨rfl, (ha2.rpow_const (p := g u) (Or.inl h)).congr_deriv ?_⟩ ?_
      · show ad * g u * f u ^ (g u - 1) = g u * f u ^ g u / f u * ad + Real.log (f u) * f u ^ g u * 0
        rw [Real.rpow_sub_one h]; ring
      · filter_upwards [hc] with t ht
        show f t ^ g t = f t ^ g u
        rw [ht]
  | max =>
    have h := steady_sign (ha2.sub hb2) hs
    by_cases hlt : f u < g u
    · have e : evalBin dualOps .max (⟨f u, ad⟩ : Dual) ⟨g u, bd⟩ = ⟨g u, bd⟩ := by
        show (if decide (f u < g u) = true then _ else _) = _
        rw [if_pos (decide_eq_true hlt)]
      rw [e]
      refine tracks_congr (f := g) ⟨rfl, hb2⟩ ?_
      filter_upwards [h] with t ht
      show (if decide (f t < g t) = true then g t else f t) = g t
      rw [if_pos (decide_eq_true (sub_neg.1 (ht.2.2.2 (sub_neg.2 hlt))))]
    · have e : evalBin dualOps .max (⟨f u, ad⟩ : Dual) ⟨g u, bd⟩ = ⟨f u, ad⟩ := by
        show (if decide (f u < g u) = true then _ else _) = _
        rw [if_neg (by simpa using hlt)]
      rw [e]
      refine tracks_congr (f := f) ⟨rfl, ha2⟩ ?_
      filter_upwards [h] with t ht
      show (if decide (f t < g t) = true then g t else f t) = f t
      rw [if_neg (by rw [decide_eq_true_eq]; exact fun hc => hlt (sub_neg.1 (ht.2.2.1 (sub_neg.2 hc))))]
  | min =>
    have h := steady_sign (ha2.sub hb2) hs
    by_cases hlt : g u < f u
    · have e : evalBin dualOps .min (⟨f u, ad⟩ : Dual) ⟨g u, bd⟩ = ⟨g u, bd⟩ := by
        show (if decide (g u < f u) = true then _ else _) = _
        rw [if_pos (decide_eq_true hlt)]
      rw [e]
      refine tracks_congr (f := g) ⟨rfl, hb2⟩ ?_
      filter_upwards [h] with t ht
      show (if decide (g t < f t) = true then g t else f t) = g t
      rw [if_pos (decide_eq_true (sub_pos.1 (ht.2.1.2 (sub_pos.2 hlt))))]
    · have e : evalBin dualOps .min (⟨f u, ad⟩ : Dual) ⟨g u, bd⟩ = ⟨f u, ad⟩ := by
        show (if decide (g u < f u) = true then _ else _) = _
        rw [if_neg (by simpa using hlt)]
      rw [e]
      refine tracks_congr (f := f) ⟨rfl, ha2⟩ ?_
      filter_upwards [h] with t ht
      show (if decide (g t < f t) = true then g t else f t) = f t
      rw [if_neg (by rw [decide_eq_true_eq]; exact fun hc => hlt (sub_pos.1 (ht.2.1.1 (sub_pos.2 hc))))]

private theorem un_tracks {op : UnOp} {f : ℝ → ℝ} {u : ℝ} {a : Dual} (ha : Tracks f u a) (hs : UnSettled op f u) :
    Tracks (fun t => evalUn realOps op (f t)) u (evalUn dualOps op a) := by
  obtain ⟨av, ad⟩ := a
  obtain ⟨ha1, ha2⟩ := ha
  dsimp only at ha1 ha2
  subst ha1
  cases op with
  | uplus => exact ⟨rfl, ha2⟩
  | uminus => exact ⟨zero_sub _, ha2.neg.congr_deriv (by show -ad = -1 * ad; ring)⟩
  | log =>
    have h0 : f u ≠ 0 := hs
    exact ⟨rfl, (ha2.log h0).congr_deriv (by show ad / f u = 1 / f u * ad; ring)⟩
  | sqrt =>
    have h0 : 0 < f u := hs
    refine ⟨rfl, (ha2.sqrt h0.ne').congr_deriv ?_⟩
    show ad / (2 * Real.sqrt (f u)) = 0.5 / Real.sqrt (f u) * ad
    have : Real.sqrt (f u) ≠ 0 := (Real.sqrt_pos.2 h0).ne'
    field_simp
    norm_num
    ring
  | exp => exact ⟨rfl, ha2.exp.congr_deriv rfl⟩

theorem expr_tracks {cv : ℝ → Nat → ℝ} {sp : ℝ → Script.Sample ℝ} {σ : ℝ → Nat → ℝ} {u : ℝ} {cvd : Nat → Dual} {spd : Script.Sample Dual} {σd : Nat → Dual}
    (hc : ∀ i, Tracks (fun t => cv t i) u (cvd i)) (hp : Tracks (fun t => (sp t).spot) u spd.spot) (hv : ∀ i, Tracks (fun t => σ t i) u (σd i)) :
    ∀ e : Expr Nat ℝ, SettledE cv sp σ u e → Tracks (fun t => evalE realOps (cv t) (sp t) (σ t) e) u (evalE dualOps cvd spd σd e.lift)
  | .bin _ l r _, h => bin_tracks (expr_tracks hc hp hv l h.1) (expr_tracks hc hp hv r h.2.1) h.2.2
  | .un _ a _, h => un_tracks (expr_tracks hc hp hv a h.1) h.2
  | .extra m _ _, h => expr_tracks hc hp hv m h
  | .const c, _ => ⟨rfl, hasDerivAt_const u c⟩
  | .var i _, _ => hv i
  | .constVar i _, _ => hc i
  | .spot, _ => hp

private theorem cmp_near {f : ℝ → ℝ} {u d : ℝ} (op : CmpOp) (hd : HasDerivAt f d u) (h : Steady f u) : ∀ᶠ t in 𝓝 u, evalCmp realOps op (f t) = evalCmp realOps op (f u) := by
  filter_upwards [steady_sign hd h] with t ht
  cases op with
  | equal => exact decide_eq_decide.2 ht.1
  | sup => exact decide_eq_decide.2 ht.2.1
  | supEq => exact decide_eq_decide.2 (by show 0 ≤ f t ↔ 0 ≤ f u; rw [← not_lt, ← not_lt, ht.2.2])

private theorem evalE_values (cv : Nat → Dual) (sp : Script.Sample Dual) (σ : Nat → Dual) : ∀ e : Expr Nat ℝ,
    (evalE dualOps cv sp σ e.lift).v = evalE realOps (fun i => (cv i).v) ⟨sp.spot.v, sp.numeraire.v⟩ (fun i => (σ i).v) e
  | .bin op l r _ => by
    have h1 := evalE_values cv sp σ l
    have h2 := evalE_values cv sp σ r
    rw [Expr.lift, evalE, evalE, ← h1, ← h2]
    cases op with
    | max =>
      show (if decide ((evalE dualOps cv sp σ l.lift).v < (evalE dualOps cv sp σ r.lift).v) = true then _ else _ : Dual).v = if decide (_ < _) = true then _ else _
      split_ifs <;> rfl
    | min =>
      show (if decide ((evalE dualOps cv sp σ r.lift).v < (evalE dualOps cv sp σ l.lift).v) = true then _ else _ : Dual).v = if decide (_ < _) = true then _ else _
      split_ifs <;> rfl
    | _ => rfl
  | .un op a _ => by
    have h1 := evalE_values cv sp σ a
    rw [Expr.lift, evalE, evalE, ← h1]
    cases op with
    | uminus => exact zero_sub _
    | _ => rfl
  | .extra m _ _ => evalE_values cv sp σ m
  | .const _ => rfl
  | .var _ _ => rfl
  | .constVar _ _ => rfl
  | .spot => rfl

private theorem evalC_values (cv : Nat → Dual) (sp : Script.Sample Dual) (σ : Nat → Dual) : ∀ c : Cond Nat ℝ,
    evalC dualOps cv sp σ c.lift = evalC realOps (fun i => (cv i).v) ⟨sp.spot.v, sp.numeraire.v⟩ (fun i => (σ i).v) c
  | .cmp op e _ _ => by
    rw [Cond.lift, evalC, evalC, ← evalE_values]
    cases op <;> rfl
  | .and l r _ => by rw [Cond.lift, evalC, evalC, evalC_values cv sp σ l, evalC_values cv sp σ r]
  | .or l r _ => by rw [Cond.lift, evalC, evalC, evalC_values cv sp σ l, evalC_values cv sp σ r]
  | .not a _ => by rw [Cond.lift, evalC, evalC, evalC_values cv sp σ a]
  | .tt => rfl
  | .ff => rfl

private theorem upd_values (σ : Nat → Dual) (i : Nat) (x : Dual) : (fun j => (upd σ i x j).v) = upd (fun j => (σ j).v) i x.v := by
  funext j
  simp only [upd]
  split_ifs <;> rfl

mutual
private theorem exec_values (cv : Nat → Dual) (sp : Script.Sample Dual) : ∀ (s : Stmt Nat ℝ) (σ : Nat → Dual),
    (fun i => (exec dualOps cv sp s.lift σ i).v) = exec realOps (fun i => (cv i).v) ⟨sp.spot.v, sp.numeraire.v⟩ s (fun i => (σ i).v)
  | .assign x e, σ => by rw [Stmt.lift, exec, exec, upd_values, evalE_values]
  | .pays x e, σ => by rw [Stmt.lift, exec, exec, upd_values, ← evalE_values]; rfl
  | .ite c t he e _ _, σ => by
    rw [Stmt.lift, exec, exec, evalC_values]
    split_ifs
    · exact execs_values cv sp t σ
    · exact execs_values cv sp e σ
    · rfl
  | .collect b, σ => execs_values cv sp b σ
private theorem execs_values (cv : Nat → Dual) (sp : Script.Sample Dual) : ∀ (ss : Stmts Nat ℝ) (σ : Nat → Dual),
    (fun i => (execs dualOps cv sp ss.lift σ i).v) = execs realOps (fun i => (cv i).v) ⟨sp.spot.v, sp.numeraire.v⟩ ss (fun i => (σ i).v)
  | .nil, _ => rfl
  | .cons s ss, σ => by
    rw [Stmts.lift, execs, execs, execs_values cv sp ss, exec_values cv sp s]
end

/-- C99, values: running any script with `Number_` gives in every variable the value that running it with doubles gives, whatever derivatives the numbers carry. -/
theorem C99_values (cv : Nat → Dual) : ∀ (evs : List (Stmts Nat ℝ × Script.Sample Dual)) (σ : Nat → Dual) (i : Nat),
    (evaluate dualOps cv (evs.map fun ev => (ev.1.lift, ev.2)) σ i).v =
      evaluate realOps (fun i => (cv i).v) (evs.map fun ev => (ev.1, ⟨ev.2.spot.v, ev.2.numeraire.v⟩)) (fun i => (σ i).v) i
  | [], _, _ => rfl
  | ev :: evs, σ, i => by
    show (evaluate dualOps cv (evs.map fun ev => (ev.1.lift, ev.2)) (execs dualOps cv ev.2 ev.1.lift σ) i).v =
      evaluate realOps _ (evs.map fun ev => (ev.1, ⟨ev.2.spot.v, ev.2.numeraire.v⟩)) (execs realOps (fun i => (cv i).v) ⟨ev.2.spot.v, ev.2.numeraire.v⟩ ev.1 (fun i => (σ i).v)) i
    rw [C99_values cv evs, execs_values]

/-- `x = max(spot, 90)` on a spot of 100 with a derivative. -/
example : (evaluate dualOps (fun _ => ⟨0, 0⟩) [((Stmts.cons (.assign ⟨0, false⟩ (.bin .max .spot (.const 90) none)) .nil : Stmts Nat ℝ).lift, (⟨⟨100, 3⟩, ⟨1, 0⟩⟩ : Script.Sample Dual))]
    (fun _ => ⟨0, 0⟩) 0).v = 100 := by
  rw [show [((Stmts.cons (.assign ⟨0, false⟩ (.bin .max .spot (.const 90) none)) .nil : Stmts Nat ℝ).lift, (⟨⟨100, 3⟩, ⟨1, 0⟩⟩ : Script.Sample Dual))] =
    [((Stmts.cons (.assign ⟨0, false⟩ (.bin .max .spot (.const 90) none)) .nil : Stmts Nat ℝ), (⟨⟨100, 3⟩, ⟨1, 0⟩⟩ : Script.Sample Dual))].map (fun ev => (ev.1.lift, ev.2)) from rfl,
    C99_values]
  show (if decide ((100 : ℝ) < 90) = true then (90 : ℝ) else 100) = 100
  norm_num

private theorem cond_near {cv : ℝ → Nat → ℝ} {sp : ℝ → Script.Sample ℝ} {σ : ℝ → Nat → ℝ} {u : ℝ} {cvd : Nat → Dual} {spd : Script.Sample Dual} {σd : Nat → Dual}
    (hc : ∀ i, Tracks (fun t => cv t i) u (cvd i)) (hp : Tracks (fun t => (sp t).spot) u spd.spot) (hv : ∀ i, Tracks (fun t => σ t i) u (σd i)) :
    ∀ c : Cond Nat ℝ, SettledC cv sp σ u c → ∀ᶠ t in 𝓝 u, evalC realOps (cv t) (sp t) (σ t) c = evalC realOps (cv u) (sp u) (σ u) c
  | .cmp op e _ _, h => cmp_near op (expr_tracks hc hp hv e h.1).2 h.2
  | .and l r _, h => by
    have h1 := cond_near hc hp hv l h.1
    by_cases hl : evalC realOps (cv u) (sp u) (σ u) l = true
    · filter_upwards [h1, cond_near hc hp hv r (h.2 hl)] with t ht hr
      rw [evalC, evalC, ht, hr]
    · filter_upwards [h1] with t ht
      rw [evalC, evalC, ht, if_neg hl, if_neg hl]
  | .or l r _, h => by
    have h1 := cond_near hc hp hv l h.1
    by_cases hl : evalC realOps (cv u) (sp u) (σ u) l = true
    · filter_upwards [h1] with t ht
      rw [evalC, evalC, ht, if_pos hl, if_pos hl]
    · filter_upwards [h1, cond_near hc hp hv r (h.2 (by simpa using hl))] with t ht hr
      rw [evalC, evalC, ht, hr]
  | .not a _, h => by
    filter_upwards [cond_near hc hp hv a h] with t ht
    rw [evalC, evalC, ht]
  | .tt, _ => Eventually.of_forall fun _ => rfl
  | .ff, _ => Eventually.of_forall fun _ => rfl

theorem upd_tracks {σ : ℝ → Nat → ℝ} {u : ℝ} {σd : Nat → Dual} (hv : ∀ i, Tracks (fun t => σ t i) u (σd i)) (k : Nat) {f : ℝ → ℝ} {a : Dual} (h : Tracks f u a) (i : Nat) :
    Tracks (fun t => upd (σ t) k (f t) i) u (upd σd k a i) := by
  by_cases hi : i = k
  · simp only [upd, if_pos hi]; exact h
  · simp only [upd, if_neg hi]; exact hv i

mutual
private theorem stmt_tracks {cv : ℝ → Nat → ℝ} {sp : ℝ → Script.Sample ℝ} {u : ℝ} {cvd : Nat → Dual} {spd : Script.Sample Dual}
    (hc : ∀ i, Tracks (fun t => cv t i) u (cvd i)) (hp : Tracks (fun t => (sp t).spot) u spd.spot) (hn : Tracks (fun t => (sp t).numeraire) u spd.numeraire) :
    ∀ (s : Stmt Nat ℝ) (σ : ℝ → Nat → ℝ) (σd : Nat → Dual), (∀ i, Tracks (fun t => σ t i) u (σd i)) → SettledS cv sp u s σ →
      ∀ i, Tracks (fun t => exec realOps (cv t) (sp t) s (σ t) i) u (exec dualOps cvd spd s.lift σd i)
  | .assign x e, σ, σd, hv, h, i => by
    simp only [Stmt.lift, exec]
    exact upd_tracks hv x.v (expr_tracks hc hp hv e h) i
  | .pays x e, σ, σd, hv, h, i => by
    simp only [Stmt.lift, exec]
    rw [SettledS] at h
    exact upd_tracks hv x.v (bin_tracks (op := .add) (hv x.v) (bin_tracks (op := .div) (expr_tracks hc hp hv e h.1) hn h.2) trivial) i
  | .ite c t he e _ _, σ, σd, hv, h, i => by
    rw [SettledS] at h
    obtain ⟨h1, h2⟩ := h
    have hnear := cond_near hc hp hv c h1
    have hval : evalC dualOps cvd spd σd c.lift = evalC realOps (cv u) (sp u) (σ u) c := by
      rw [evalC_values, show (fun i => (cvd i).v) = cv u from funext fun i => (hc i).1, show (fun i => (σd i).v) = σ u from funext fun i => (hv i).1, hp.1, hn.1]
    rw [Stmt.lift, exec, hval]
    by_cases hb : evalC realOps (cv u) (sp u) (σ u) c = true
    · rw [if_pos hb] at h2 ⊢
      refine tracks_congr (stmts_tracks hc hp hn t σ σd hv h2 i) ?_
      filter_upwards [hnear] with s hs
      rw [exec, hs, if_pos hb]
    · rw [if_neg hb] at h2 ⊢
      cases he with
      | true =>
        rw [if_pos rfl]
        refine tracks_congr (stmts_tracks hc hp hn e σ σd hv (h2 rfl) i) ?_
        filter_upwards [hnear] with s hs
        rw [exec, hs, if_neg hb, if_pos rfl]
      | false =>
        rw [if_neg Bool.false_ne_true]
        refine tracks_congr (hv i) ?_
        filter_upwards [hnear] with s hs
        rw [exec, hs, if_neg hb, if_neg Bool.false_ne_true]
  | .collect b, σ, σd, hv, h, i => by
    simp only [Stmt.lift, exec]
    exact stmts_tracks hc hp hn b σ σd hv h i
private theorem stmts_tracks {cv : ℝ → Nat → ℝ} {sp : ℝ → Script.Sample ℝ} {u : ℝ} {cvd : Nat → Dual} {spd : Script.Sample Dual}
    (hc : ∀ i, Tracks (fun t => cv t i) u (cvd i)) (hp : Tracks (fun t => (sp t).spot) u spd.spot) (hn : Tracks (fun t => (sp t).numeraire) u spd.numeraire) :
    ∀ (ss : Stmts Nat ℝ) (σ : ℝ → Nat → ℝ) (σd : Nat → Dual), (∀ i, Tracks (fun t => σ t i) u (σd i)) → SettledSs cv sp u ss σ →
      ∀ i, Tracks (fun t => execs realOps (cv t) (sp t) ss (σ t) i) u (execs dualOps cvd spd ss.lift σd i)
  | .nil, _, _, hv, _, i => hv i
  | .cons s ss, σ, σd, hv, h, i => by
    simp only [Stmts.lift, execs]
    rw [SettledSs] at h
    exact stmts_tracks hc hp hn ss _ _ (stmt_tracks hc hp hn s σ σd hv h.1) h.2 i
end

/-- C99: for any events on any samples, the derivatives that the script computes with `Number_` are the derivatives of what it computes with doubles, for every variable and every way in
which spots, numeraires, constants and initial values depend on the parameter, at every point where nothing visited is decided by a tie. -/
theorem C99_gradient (u : ℝ) (cv : ℝ → Nat → ℝ) (cvd : Nat → Dual) (hc : ∀ i, Tracks (fun t => cv t i) u (cvd i)) :
    ∀ (evs : List (Stmts Nat ℝ × (ℝ → Script.Sample ℝ) × Script.Sample Dual)),
      (∀ ev ∈ evs, Tracks (fun t => (ev.2.1 t).spot) u ev.2.2.spot ∧ Tracks (fun t => (ev.2.1 t).numeraire) u ev.2.2.numeraire) →
      ∀ (σ : ℝ → Nat → ℝ) (σd : Nat → Dual), (∀ i, Tracks (fun t => σ t i) u (σd i)) → Settled cv u (evs.map fun ev => (ev.1, ev.2.1)) σ →
        ∀ i, Tracks (fun t => evaluate realOps (cv t) (evs.map fun ev => (ev.1, ev.2.1 t)) (σ t) i) u (evaluate dualOps cvd (evs.map fun ev => (ev.1.lift, ev.2.2)) σd i)
  | [], _, _, _, hv, _, i => hv i
  | ev :: evs, hp, σ, σd, hv, h, i => by
    have h1 := hp ev List.mem_cons_self
    exact C99_gradient u cv cvd hc evs (fun e he => hp e (List.mem_cons_of_mem _ he)) _ _ (stmts_tracks hc h1.1 h1.2 ev.1 σ σd hv h.1) h.2 i

/-- `IF spot() > K THEN x = spot() ^ 2 ELSE x = 0 ENDIF` at a spot of 100 and a strike of 90: the derivative with respect to the spot is 200. -/
private noncomputable def demo : Stmts Nat ℝ :=
  .cons (.ite (.cmp .sup (.bin .sub .spot (.constVar 0 90) none) ⟨-1, false, 0, 0⟩ {}) (.cons (.assign ⟨0, false⟩ (.bin .pow .spot (.const 2) none)) .nil) true
    (.cons (.assign ⟨0, false⟩ (.const 0)) .nil) [] {}) .nil

example : HasDerivAt (fun t => evaluate realOps (fun _ => 90) [(demo, ⟨t, 1⟩)] (fun _ => 0) 0) 200 100 := by
  have hcmp : evalC realOps (fun _ => 90) (⟨100, 1⟩ : Script.Sample ℝ) (fun _ => 0) (.cmp .sup (.bin .sub .spot (.constVar 0 90) none) ⟨-1, false, 0, 0⟩ {} : Cond Nat ℝ) = true :=
    decide_eq_true (show (0 : ℝ) < 100 - 90 by norm_num)
  have h := C99_gradient 100 (fun _ _ => 90) (fun _ => ⟨90, 0⟩) (fun _ => ⟨rfl, hasDerivAt_const _ _⟩) [(demo, fun t => ⟨t, 1⟩, ⟨⟨100, 1⟩, ⟨1, 0⟩⟩)]
    (by
      intro ev hev
      rw [List.mem_singleton] at hev
      subst hev
      exact ⟨⟨rfl, hasDerivAt_id _⟩, ⟨rfl, hasDerivAt_const _ _⟩⟩)
    (fun _ _ => 0) (fun _ => ⟨0, 0⟩) (fun _ => ⟨rfl, hasDerivAt_const _ _⟩)
    (by
      refine ⟨⟨⟨⟨⟨trivial, trivial, trivial⟩, Or.inl (show (100 : ℝ) - 90 ≠ 0 by norm_num)⟩, ?_⟩, trivial⟩, trivial⟩
      rw [if_pos hcmp]
      exact ⟨⟨trivial, trivial, Or.inl (show (0 : ℝ) < 100 by norm_num)⟩, trivial⟩) 0
  refine h.2.congr_deriv ?_
  have e : evaluate dualOps (fun _ => ⟨90, 0⟩) [(demo.lift, ⟨⟨100, 1⟩, ⟨1, 0⟩⟩)] (fun _ => ⟨0, 0⟩) 0 =
      (if decide ((0 : ℝ) < 100 - 90) = true then upd (fun _ => (⟨0, 0⟩ : Dual)) 0 (dualOps.pow ⟨100, 1⟩ ⟨2, 0⟩) else upd (fun _ => (⟨0, 0⟩ : Dual)) 0 ⟨0, 0⟩) 0 := rfl
  show (evaluate dualOps (fun _ => ⟨90, 0⟩) [(demo.lift, ⟨⟨100, 1⟩, ⟨1, 0⟩⟩)] (fun _ => ⟨0, 0⟩) 0).d = 200
  rw [e, if_pos (decide_eq_true (by norm_num))]
  show (2 : ℝ) * (100 : ℝ) ^ (2 : ℝ) / 100 * 1 + Real.log 100 * (100 : ℝ) ^ (2 : ℝ) * 0 = 200
  norm_num

end Dal
