import Verif.Sim.TapeLemmas

/-! # Lemmas on the model and its paths on the tape -/

namespace Dal.TapeRun

open Dal.Adj Dal.Script Dal.Models

theorem leaves_spec : ∀ (vs : List ℝ) (t : Tape), Ext t (t.leaves vs) ∧ (t.leaves vs).nodes.length = t.nodes.length + vs.length ∧
    ∀ (i k : Nat) (v : ℝ), vs[k]? = some v → (t.leaves vs).dual i (t.nodes.length + k) = ⟨v, if t.nodes.length + k = i then 1 else 0⟩ := by
  intro vs
  induction vs with
  | nil => intro t; exact ⟨Ext.refl t, rfl, fun i k v h => by simp at h⟩
  | cons v vs ih =>
    intro t
    obtain ⟨h1, h2, h3⟩ := ih (t.leaf v).1
    have hl : (t.leaf v).1.nodes.length = t.nodes.length + 1 := by simp [Tape.leaf]
    refine ⟨(leaf_ext t v).trans h1, by rw [Tape.leaves, h2, hl, List.length_cons]; omega, ?_⟩
    intro i k w hk
    rw [Tape.leaves]
    cases k with
    | zero =>
      simp only [List.getElem?_cons_zero, Option.some.injEq] at hk
      subst hk
      rw [h1.dual i (by omega), Tape.dual]
      congr 1
      · exact Function.update_self ..
      · show tans i (t.nodes ++ [[]]) t.nodes.length = _
        rw [tans_append, Function.update_self]
        simp [tangent]
    | succ k =>
      have := h3 i k w (by simpa using hk)
      rw [hl] at this
      rw [show t.nodes.length + (k + 1) = t.nodes.length + 1 + k by omega]
      exact this

theorem leaves_pos (i : Nat) (t : Tape) (vs : List ℝ) (hi : i < t.nodes.length) (k : Nat) (v : ℝ) (h : vs[k]? = some v) :
    (t.leaves vs).dual i (t.nodes.length + k) = Script.lift v := by
  rw [(leaves_spec vs t).2.2 i k v h, if_neg (by omega)]; rfl

/-- A step of the model on the tape. -/
structure StepOn (i : Nat) (t : Tape) (V M : Dual) (dt : ℝ) (p : Nat × Nat) : Prop where
  pos1 : p.1 < t.nodes.length
  pos2 : p.2 < t.nodes.length
  std : t.dual i p.1 = V * Num.lit (Real.sqrt dt)
  drift : t.dual i p.2 = (M - Num.lit 0.5 * V * V) * Num.lit dt

theorem StepOn.ext {i : Nat} {t t' : Tape} {V M : Dual} {dt : ℝ} {p : Nat × Nat} (h : StepOn i t V M dt p) (e : Ext t t') : StepOn i t' V M dt p :=
  ⟨lt_of_lt_of_le h.pos1 e.le, lt_of_lt_of_le h.pos2 e.le, (e.dual i h.pos1).trans h.std, (e.dual i h.pos2).trans h.drift⟩

theorem tSteps_spec (lib : Lib) (i vol mu : Nat) : ∀ (dts : List ℝ) (t : Tape), i < t.nodes.length → vol < t.nodes.length → mu < t.nodes.length →
    Ext t (tSteps lib vol mu dts t).1 ∧
      List.Forall₂ (StepOn i (tSteps lib vol mu dts t).1 (t.dual i vol) (t.dual i mu)) dts (tSteps lib vol mu dts t).2 := by
  intro dts
  induction dts with
  | nil => intro t _ _ _; exact ⟨Ext.refl t, .nil⟩
  | cons dt dts ih =>
    intro t hi hv hm
    have h1 := expr_made i lib t (.un .multD (Real.sqrt dt) (.num vol)) hi hv
    set a := t.expr lib (.un .multD (Real.sqrt dt) (.num vol)) with ha
    have e1 := h1.ext
    have hi' := lt_of_lt_of_le hi e1.le
    have hv' := lt_of_lt_of_le hv e1.le
    have hm' := lt_of_lt_of_le hm e1.le
    have h2 := expr_made i lib a.1 (.un .multD dt (.bin .sub (.num mu) (.bin .mult (.un .multD 0.5 (.num vol)) (.num vol)))) hi' ⟨hm', hv', hv'⟩
    set c := a.1.expr lib (.un .multD dt (.bin .sub (.num mu) (.bin .mult (.un .multD 0.5 (.num vol)) (.num vol)))) with hc
    have e2 := h2.ext
    obtain ⟨e3, h3⟩ := ih c.1 (lt_of_lt_of_le hi' e2.le) (lt_of_lt_of_le hv' e2.le) (lt_of_lt_of_le hm' e2.le)
    rw [e2.dual i hv', e2.dual i hm', e1.dual i hv, e1.dual i hm] at h3
    refine ⟨e1.trans (e2.trans e3), .cons ?_ h3⟩
    have hstd : a.1.dual i a.2 = t.dual i vol * Num.lit (Real.sqrt dt) := by
      rw [h1.dual]
      refine Dual.ext rfl ?_
      show _ = (t.dual i vol).d * Real.sqrt dt + (t.dual i vol).v * 0
      simp [Ex.push, Ex.value, tangent, UOp.der, Tape.dual]; ring
    have hdr : c.1.dual i c.2 = (t.dual i mu - Num.lit 0.5 * t.dual i vol * t.dual i vol) * Num.lit dt := by
      rw [h2.dual, ← e1.dual i hv, ← e1.dual i hm]
      refine Dual.ext ?_ ?_
      · show _ = (a.1.env mu - (0.5 : ℝ) * a.1.env vol * a.1.env vol) * dt
        simp only [Ex.value, UOp.eval, BOp.eval]; ring
      · show _ = ((tans i a.1.nodes mu) - (((0 : ℝ) * a.1.env vol + 0.5 * tans i a.1.nodes vol) * a.1.env vol + 0.5 * a.1.env vol * tans i a.1.nodes vol)) * dt +
          (a.1.env mu - (0.5 : ℝ) * a.1.env vol * a.1.env vol) * 0
        simp [Ex.push, Ex.value, tangent, UOp.der, UOp.eval, BOp.left, BOp.right]; ring
    exact StepOn.ext (t := c.1) ⟨lt_of_lt_of_le h1.pos e2.le, h2.pos, (e2.dual i h1.pos).trans hstd, hdr⟩ e3

/-- A numeraire on the tape. -/
structure NumOn (i : Nat) (t : Tape) (R : Dual) (T : ℝ) (p : Nat) : Prop where
  pos : p < t.nodes.length
  dual : t.dual i p = Num.exp (R * Num.lit T)

theorem NumOn.ext {i : Nat} {t t' : Tape} {R : Dual} {T : ℝ} {p : Nat} (h : NumOn i t R T p) (e : Ext t t') : NumOn i t' R T p :=
  ⟨lt_of_lt_of_le h.pos e.le, (e.dual i h.pos).trans h.dual⟩

theorem tNums_spec (lib : Lib) (i rate : Nat) : ∀ (Ts : List ℝ) (t : Tape), i < t.nodes.length → rate < t.nodes.length →
    Ext t (tNums lib rate Ts t).1 ∧ List.Forall₂ (NumOn i (tNums lib rate Ts t).1 (t.dual i rate)) Ts (tNums lib rate Ts t).2 := by
  intro Ts
  induction Ts with
  | nil => intro t _ _; exact ⟨Ext.refl t, .nil⟩
  | cons T Ts ih =>
    intro t hi hr
    have h1 := expr_made i lib t (.un .exp 0 (.un .multD T (.num rate))) hi hr
    set a := t.expr lib (.un .exp 0 (.un .multD T (.num rate))) with ha
    obtain ⟨e3, h3⟩ := ih a.1 (lt_of_lt_of_le hi h1.ext.le) (lt_of_lt_of_le hr h1.ext.le)
    rw [h1.ext.dual i hr] at h3
    refine ⟨h1.ext.trans e3, .cons (NumOn.ext (t := a.1) ⟨h1.pos, ?_⟩ e3) h3⟩
    rw [h1.dual]
    refine Dual.ext rfl ?_
    show _ = ((t.dual i rate).d * T + (t.dual i rate).v * 0) * Real.exp ((t.dual i rate).v * T)
    simp [Ex.push, Ex.value, tangent, UOp.der, UOp.eval, Tape.dual]; ring

/-- A spot on the tape. -/
structure SpotOn (m i : Nat) (t : Tape) (X : Dual) (p : Nat) : Prop where
  low : m ≤ p
  pos : p < t.nodes.length
  dual : t.dual i p = Num.exp X

theorem tPath_spec (lib : Lib) (i m : Nat) (b : BS Dual) (line gauss : Nat → ℝ) : ∀ (ps : List (Nat × Nat)) (j x : Nat) (t : Tape), i < t.nodes.length → m ≤ t.nodes.length → x < t.nodes.length →
    t.dual i x = b.logAt line gauss j →
    (∀ (k : Nat) p, ps[k]? = some p → p.1 < t.nodes.length ∧ p.2 < t.nodes.length ∧ t.dual i p.1 = b.std line (j + k) ∧ t.dual i p.2 = b.drift line (j + k)) →
    Ext t (tPath lib gauss ps j x t).1 ∧ (tPath lib gauss ps j x t).2.length = ps.length ∧
      ∀ (k : Nat) q, (tPath lib gauss ps j x t).2[k]? = some q → SpotOn m i (tPath lib gauss ps j x t).1 (b.logAt line gauss (j + k + 1)) q := by
  intro ps
  induction ps with
  | nil => intro j x t _ _ _ _ _; exact ⟨Ext.refl t, rfl, fun k q h => by simp [tPath] at h⟩
  | cons p ps ih =>
    obtain ⟨std, drift⟩ := p
    intro j x t hi hmt hx hX hps
    obtain ⟨p1, p2, p3, p4⟩ := hps 0 (std, drift) rfl
    dsimp only at p1 p2 p3 p4
    have h1 := expr_made i lib t (.bin .add (.num x) (.bin .add (.num drift) (.un .multD (gauss j) (.num std)))) hi ⟨hx, p2, p1⟩
    have hlow : m ≤ (t.expr lib (.bin .add (.num x) (.bin .add (.num drift) (.un .multD (gauss j) (.num std))))).2 := hmt
    rw [tPath]
    set a := t.expr lib (.bin .add (.num x) (.bin .add (.num drift) (.un .multD (gauss j) (.num std)))) with ha
    have e1 := h1.ext
    have hi' := lt_of_lt_of_le hi e1.le
    have h2 := expr_made i lib a.1 (.un .exp 0 (.num a.2)) hi' h1.pos
    have hclow : m ≤ (a.1.expr lib (.un .exp 0 (.num a.2))).2 := hmt.trans e1.le
    dsimp only
    set c := a.1.expr lib (.un .exp 0 (.num a.2)) with hc
    have e2 := h2.ext
    have hA : a.1.dual i a.2 = b.logAt line gauss (j + 1) := by
      show _ = b.logAt line gauss j + (b.drift line j + b.std line j * Num.lit (gauss j))
      rw [h1.dual, ← hX, ← Nat.add_zero j, ← p3, ← p4]
      refine Dual.ext rfl ?_
      show _ = (t.dual i x).d + ((t.dual i drift).d + ((t.dual i std).d * gauss (j + 0) + (t.dual i std).v * 0))
      simp [Ex.push, Ex.value, tangent, UOp.der, UOp.eval, BOp.left, BOp.right, Tape.dual]; ring
    have hC : c.1.dual i c.2 = Num.exp (b.logAt line gauss (j + 1)) := by
      rw [h2.dual, ← hA]
      refine Dual.ext rfl ?_
      show _ = (a.1.dual i a.2).d * Real.exp (a.1.dual i a.2).v
      simp [Ex.push, Ex.value, tangent, UOp.der, UOp.eval, Tape.dual]; ring
    obtain ⟨e3, h3, h4⟩ := ih (j + 1) a.2 c.1 (lt_of_lt_of_le hi' e2.le) (hmt.trans (e1.trans e2).le) (lt_of_lt_of_le h1.pos e2.le) ((e2.dual i h1.pos).trans hA) (by
      intro k p hk
      obtain ⟨q1, q2, q3, q4⟩ := hps (k + 1) p (by simpa using hk)
      have e12 := e1.trans e2
      rw [show j + 1 + k = j + (k + 1) by omega]
      exact ⟨lt_of_lt_of_le q1 e12.le, lt_of_lt_of_le q2 e12.le, (e12.dual i q1).trans q3, (e12.dual i q2).trans q4⟩)
    refine ⟨e1.trans (e2.trans e3), by simp [h3], ?_⟩
    intro k q hq
    cases k with
    | zero =>
      simp only [List.getElem?_cons_zero, Option.some.injEq] at hq
      subst hq
      exact ⟨hclow, lt_of_lt_of_le h2.pos e3.le, (e3.dual i h2.pos).trans hC⟩
    | succ k =>
      simp only [List.getElem?_cons_succ] at hq
      have := h4 k q hq
      rw [show j + 1 + k + 1 = j + (k + 1) + 1 by omega] at this
      exact this

end Dal.TapeRun
