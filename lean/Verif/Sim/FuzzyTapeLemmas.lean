import Verif.Sim.FuzzyTapeModel
import Verif.Sim.FuzzyTapeSpec
import Verif.Sim.TapePathLemmas
import Verif.Script.SmoothModel

/-! # Lemmas on the smoothed evaluator on the tape -/

namespace Dal.TapeRun

open Dal.Adj Dal.Script Dal.Models

theorem vBin_made (lib : Lib) (i : Nat) (op : BinOp) (t : Tape) (a b : Nat) (hi : i < t.nodes.length) (ha : a < t.nodes.length) (hb : b < t.nodes.length) :
    Made i t (vBin lib op t a b) (evalBin dualOps op (t.dual i a) (t.dual i b)) := by
  cases op
  case max =>
    refine ⟨Ext.refl t, ?_, ?_⟩
    · simp only [vBin]; split_ifs <;> assumption
    · simp only [vBin, evalBin, dualOps, decide_eq_true_eq, Tape.dual]; split_ifs <;> rfl
  case min =>
    refine ⟨Ext.refl t, ?_, ?_⟩
    · simp only [vBin]; split_ifs <;> assumption
    · simp only [vBin, evalBin, dualOps, decide_eq_true_eq, Tape.dual]; split_ifs <;> rfl
  all_goals
    refine made_of_eq (expr_made i lib t _ hi ⟨ha, hb⟩) rfl ?_
    simp [Ex.push, Ex.value, tangent, BOp.left, BOp.right, BOp.eval, evalBin, dualOps, Tape.dual]

theorem vUn_made (lib : Lib) (i : Nat) (op : UnOp) (t : Tape) (x : Nat) (hi : i < t.nodes.length) (hx : x < t.nodes.length) :
    Made i t (vUn lib op t x) (evalUn dualOps op (t.dual i x)) := by
  cases op
  case uplus => exact made_self i t hx
  all_goals
    refine made_of_eq (expr_made i lib t _ hi hx) rfl ?_
    simp [Ex.push, Ex.value, tangent, UOp.der, UOp.eval, evalUn, dualOps, Tape.dual]

theorem vE_made (lib : Lib) (i m : Nat) (S : Prop) (F : Nat → Prop) (cv : Nat → Nat) (sp : Script.Sample Nat) (σ : Nat → Nat) : ∀ (e : Expr Nat ℝ) (t : Tape), i < t.nodes.length → m ≤ t.nodes.length →
    (∀ k, cv k < t.nodes.length) → SampleOn t sp → (S → m ≤ sp.spot) → (∀ k, σ k < t.nodes.length) → (∀ k, F k → m ≤ σ k) →
    Made i t (vE lib cv sp σ e t) (evalE dualOps (fun k => t.dual i (cv k)) (sampleDual i t sp) (fun k => t.dual i (σ k)) e.lift) ∧ (Own S F e → m ≤ (vE lib cv sp σ e t).2) := by
  intro e
  induction e with
  | bin op l r k ihl ihr =>
    intro t hi hm hc hs hsl hσ hF
    obtain ⟨h1, o1⟩ := ihl t hi hm hc hs hsl hσ hF
    have le := h1.ext.le
    obtain ⟨h2, o2⟩ := ihr (vE lib cv sp σ l t).1 (by omega) (by omega) (fun k => lt_of_lt_of_le (hc k) le) (hs.ext h1.ext) hsl (fun k => lt_of_lt_of_le (hσ k) le) hF
    rw [sampleDual_ext hs h1.ext, σ_ext hσ h1.ext, σ_ext hc h1.ext] at h2
    have le2 := h2.ext.le
    have h3 := vBin_made lib i op (vE lib cv sp σ r (vE lib cv sp σ l t).1).1 (vE lib cv sp σ l t).2 (vE lib cv sp σ r (vE lib cv sp σ l t).1).2 (by omega) (lt_of_lt_of_le h1.pos le2) h2.pos
    rw [h2.dual, h2.ext.dual i h1.pos, h1.dual] at h3
    refine ⟨made_trans (h1.ext.trans h2.ext) h3, ?_⟩
    intro ho
    cases op
    case max =>
      simp only [vE, vBin]
      split_ifs
      · exact o2 ho.2
      · exact o1 ho.1
    case min =>
      simp only [vE, vBin]
      split_ifs
      · exact o2 ho.2
      · exact o1 ho.1
    all_goals
      show m ≤ (vE lib cv sp σ r (vE lib cv sp σ l t).1).1.nodes.length
      omega
  | un op a k ih =>
    intro t hi hm hc hs hsl hσ hF
    obtain ⟨h1, o1⟩ := ih t hi hm hc hs hsl hσ hF
    have le := h1.ext.le
    have h3 := vUn_made lib i op (vE lib cv sp σ a t).1 (vE lib cv sp σ a t).2 (by omega) h1.pos
    rw [h1.dual] at h3
    refine ⟨made_trans h1.ext h3, ?_⟩
    intro ho
    cases op
    case uplus => exact o1 ho
    all_goals
      show m ≤ (vE lib cv sp σ a t).1.nodes.length
      omega
  | extra a x k ih _ =>
    intro t hi hm hc hs hsl hσ hF
    exact ih t hi hm hc hs hsl hσ hF
  | const c =>
    intro t hi hm hc hs hsl hσ hF
    exact ⟨leaf_made i t c hi, fun _ => hm⟩
  | var v k =>
    intro t hi hm hc hs hsl hσ hF
    exact ⟨made_self i t (hσ v), fun h => hF v h⟩
  | constVar v c =>
    intro t hi hm hc hs hsl hσ hF
    exact ⟨made_self i t (hc v), fun h => h.elim⟩
  | spot =>
    intro t hi hm hc hs hsl hσ hF
    exact ⟨made_self i t hs.1, hsl⟩

/-- A number that may be undefined. -/
def MadeOr (i : Nat) (t : Tape) (r : Option (Tape × Nat)) (v : Option Dual) : Prop :=
  match r with
  | none => v = none
  | some r => ∃ w, v = some w ∧ Made i t r w

theorem madeOr_some {i : Nat} {t : Tape} {r : Tape × Nat} {w : Dual} (h : Made i t r w) : MadeOr i t (some r) (some w) := ⟨w, rfl, h⟩

theorem madeOr_none {i : Nat} {t : Tape} : MadeOr i t none none := rfl

theorem dualDiv_ne {x : Dual} {y : ℝ} (h : y ≠ 0) : dualDiv x y = some (dualOps.div x (lift y)) := by rw [dualDiv, if_neg h]

theorem vCspr_made (lib : Lib) (i : Nat) (t : Tape) (x : Nat) (eps : ℝ) (hi : i < t.nodes.length) (hx : x < t.nodes.length) : MadeOr i t (vCspr lib t x eps) (dualCspr (t.dual i x) eps) := by
  unfold vCspr dualCspr
  show MadeOr i t (if t.env x < _ then _ else _) (if t.env x < _ then _ else if _ < t.env x then _ else _)
  split_ifs with h1 h2 h3
  · exact madeOr_some (leaf_made i t 0 hi)
  · exact madeOr_some (leaf_made i t 1 hi)
  · rw [dualDiv, if_pos h3]; exact madeOr_none
  · rw [dualDiv_ne h3]
    refine madeOr_some (made_of_eq (expr_made i lib t _ hi hx) rfl ?_)
    simp [Ex.push, Ex.value, tangent, UOp.der, UOp.eval, dualOps, Tape.dual, Script.lift]

theorem vCspr2_made (lib : Lib) (i : Nat) (t : Tape) (x : Nat) (lb rb : ℝ) (hi : i < t.nodes.length) (hx : x < t.nodes.length) :
    MadeOr i t (vCspr2 lib t x lb rb) (dualCspr2 (t.dual i x) lb rb) := by
  unfold vCspr2 dualCspr2
  show MadeOr i t (if t.env x < _ then _ else _) (if t.env x < _ then _ else if _ < t.env x then _ else _)
  split_ifs with h1 h2 h3
  · exact madeOr_some (leaf_made i t 0 hi)
  · exact madeOr_some (leaf_made i t 1 hi)
  · rw [dualDiv, if_pos h3]; exact madeOr_none
  · rw [dualDiv_ne h3]
    refine madeOr_some (made_of_eq (expr_made i lib t _ hi hx) rfl ?_)
    simp [Ex.push, Ex.value, tangent, UOp.der, UOp.eval, dualOps, Tape.dual, Script.lift]

theorem vBfly_made (lib : Lib) (i : Nat) (t : Tape) (x : Nat) (eps : ℝ) (hi : i < t.nodes.length) (hx : x < t.nodes.length) : MadeOr i t (vBfly lib t x eps) (dualBfly (t.dual i x) eps) := by
  unfold vBfly dualBfly
  show MadeOr i t (if t.env x < _ ∨ _ then _ else _) (if t.env x < _ ∨ _ < t.env x then _ else _)
  split_ifs with h1 h3
  · exact madeOr_some (leaf_made i t 0 hi)
  · rw [dualDiv, if_pos h3]; exact madeOr_none
  · rw [dualDiv_ne h3]
    refine madeOr_some (made_of_eq (expr_made i lib t _ hi hx) rfl ?_)
    by_cases hp : 0 < t.env x <;> simp [Ex.push, Ex.value, tangent, UOp.der, UOp.eval, dualOps, dualAbs, Tape.dual, Script.lift, hp]

theorem vBfly2_made (lib : Lib) (i : Nat) (t : Tape) (x : Nat) (lb rb : ℝ) (hi : i < t.nodes.length) (hx : x < t.nodes.length) :
    MadeOr i t (vBfly2 lib t x lb rb) (dualBfly2 (t.dual i x) lb rb) := by
  unfold vBfly2 dualBfly2
  show MadeOr i t (if t.env x < _ ∨ _ then _ else _) (if t.env x < _ ∨ _ < t.env x then _ else if t.env x < 0 then _ else _)
  split_ifs with h1 h2 h3 h3
  · exact madeOr_some (leaf_made i t 0 hi)
  · rw [dualDiv, if_pos h3]; exact madeOr_none
  · rw [dualDiv_ne h3]
    refine madeOr_some (made_of_eq (expr_made i lib t _ hi hx) rfl ?_)
    simp [Ex.push, Ex.value, tangent, UOp.der, UOp.eval, dualOps, Tape.dual, Script.lift]
  · rw [dualDiv, if_pos h3]; exact madeOr_none
  · rw [dualDiv_ne h3]
    refine madeOr_some (made_of_eq (expr_made i lib t _ hi hx) rfl ?_)
    simp [Ex.push, Ex.value, tangent, UOp.der, UOp.eval, dualOps, Tape.dual, Script.lift]

theorem madeOr_trans {i : Nat} {t t' : Tape} {r : Option (Tape × Nat)} {v : Option Dual} (e : Ext t t') (h : MadeOr i t' r v) : MadeOr i t r v := by
  cases r with
  | none => exact h
  | some r => obtain ⟨w, h1, h2⟩ := h; exact ⟨w, h1, made_trans e h2⟩

theorem vC_made (lib : Lib) (i m : Nat) (cv : Nat → Nat) (sp : Script.Sample Nat) (defEps : ℝ) (σ : Nat → Nat) : ∀ (c : Cond Nat ℝ) (t : Tape), i < t.nodes.length → m ≤ t.nodes.length →
    (∀ k, cv k < t.nodes.length) → SampleOn t sp → (∀ k, σ k < t.nodes.length) →
    MadeOr i t (vC lib cv sp defEps σ c t) (smoothC (fun k => t.dual i (cv k)) (sampleDual i t sp) defEps (fun k => t.dual i (σ k)) c) := by
  intro c
  induction c with
  | cmp op e a f =>
    intro t hi hm hc hs hσ
    obtain ⟨h1, -⟩ := vE_made lib i m False (fun _ => False) cv sp σ e t hi hm hc hs (fun h => h.elim) hσ (fun _ h => h.elim)
    have le := h1.ext.le
    unfold vC smoothC
    rw [← h1.dual]
    dsimp only
    cases op <;> dsimp only <;> split_ifs <;> refine madeOr_trans h1.ext ?_
    all_goals first
      | exact vBfly2_made lib i _ _ _ _ (by omega) h1.pos
      | exact vBfly_made lib i _ _ _ (by omega) h1.pos
      | exact vCspr2_made lib i _ _ _ _ (by omega) h1.pos
      | exact vCspr_made lib i _ _ _ (by omega) h1.pos
  | and l r f ihl ihr =>
    intro t hi hm hc hs hσ
    have h1 := ihl t hi hm hc hs hσ
    unfold vC smoothC
    cases hx : vC lib cv sp defEps σ l t with
    | none => rw [hx] at h1; rw [show smoothC _ _ _ _ l = none from h1]; exact madeOr_none
    | some x =>
      rw [hx] at h1
      obtain ⟨w, e1, h1⟩ := h1
      have le := h1.ext.le
      have h2 := ihr x.1 (by omega) (by omega) (fun k => lt_of_lt_of_le (hc k) le) (hs.ext h1.ext) (fun k => lt_of_lt_of_le (hσ k) le)
      rw [sampleDual_ext hs h1.ext, σ_ext hσ h1.ext, σ_ext hc h1.ext] at h2
      rw [e1]
      dsimp only
      cases hy : vC lib cv sp defEps σ r x.1 with
      | none => rw [hy] at h2; rw [show smoothC _ _ _ _ r = none from h2]; exact madeOr_none
      | some y =>
        rw [hy] at h2
        obtain ⟨w', e2, h2⟩ := h2
        have le2 := h2.ext.le
        rw [e2]
        dsimp only
        have hx' := lt_of_lt_of_le h1.pos le2
        refine madeOr_some (made_trans (h1.ext.trans h2.ext) (made_of_eq (expr_made i lib y.1 _ (by omega) ⟨h2.pos, hx'⟩) ?_ ?_))
        · rw [← h2.dual, ← h1.dual, ← h2.ext.dual i h1.pos]; rfl
        · rw [← h2.dual, ← h1.dual, ← h2.ext.dual i h1.pos]
          simp [Ex.push, Ex.value, tangent, BOp.left, BOp.right, BOp.eval, dualOps, Tape.dual]
  | or l r f ihl ihr =>
    intro t hi hm hc hs hσ
    have h1 := ihl t hi hm hc hs hσ
    unfold vC smoothC
    cases hx : vC lib cv sp defEps σ l t with
    | none => rw [hx] at h1; rw [show smoothC _ _ _ _ l = none from h1]; exact madeOr_none
    | some x =>
      rw [hx] at h1
      obtain ⟨w, e1, h1⟩ := h1
      have le := h1.ext.le
      have h2 := ihr x.1 (by omega) (by omega) (fun k => lt_of_lt_of_le (hc k) le) (hs.ext h1.ext) (fun k => lt_of_lt_of_le (hσ k) le)
      rw [sampleDual_ext hs h1.ext, σ_ext hσ h1.ext, σ_ext hc h1.ext] at h2
      rw [e1]
      dsimp only
      cases hy : vC lib cv sp defEps σ r x.1 with
      | none => rw [hy] at h2; rw [show smoothC _ _ _ _ r = none from h2]; exact madeOr_none
      | some y =>
        rw [hy] at h2
        obtain ⟨w', e2, h2⟩ := h2
        have le2 := h2.ext.le
        rw [e2]
        dsimp only
        have hx' := lt_of_lt_of_le h1.pos le2
        refine madeOr_some (made_trans (h1.ext.trans h2.ext) (made_of_eq (expr_made i lib y.1 _ (by omega) ⟨⟨h2.pos, hx'⟩, h2.pos, hx'⟩) ?_ ?_))
        · rw [← h2.dual, ← h1.dual, ← h2.ext.dual i h1.pos]; rfl
        · rw [← h2.dual, ← h1.dual, ← h2.ext.dual i h1.pos]
          simp [Ex.push, Ex.value, tangent, BOp.left, BOp.right, BOp.eval, dualOps, Tape.dual]
          ring
  | not a f _ =>
    intro t _ _ _ _ _
    exact madeOr_none
  | tt =>
    intro t hi _ _ _ _
    exact madeOr_some (leaf_made i t 1 hi)
  | ff =>
    intro t hi _ _ _ _
    exact madeOr_some (leaf_made i t 0 hi)

/-! ### Statements -/

/-- The state with its numbers as values with derivatives. -/
noncomputable def fsDual (i : Nat) (t : Tape) (s : FSt Nat) : FSt Dual := ⟨fun k => t.dual i (s.σ k), fun l k => t.dual i (s.s0 l k), fun l k => t.dual i (s.s1 l k)⟩

/-- All numbers are on the tape, those of the variables `F` from position `m` on. -/
structure FOn (m : Nat) (F : Nat → Prop) (t : Tape) (s : FSt Nat) : Prop where
  σ : ∀ k, s.σ k < t.nodes.length
  s0 : ∀ l k, s.s0 l k < t.nodes.length
  s1 : ∀ l k, s.s1 l k < t.nodes.length
  σlow : ∀ k, F k → m ≤ s.σ k
  s0low : ∀ l k, F k → m ≤ s.s0 l k
  s1low : ∀ l k, F k → m ≤ s.s1 l k

theorem FOn.ext {m : Nat} {F : Nat → Prop} {t t' : Tape} {s : FSt Nat} (h : FOn m F t s) (e : Ext t t') : FOn m F t' s :=
  ⟨fun k => lt_of_lt_of_le (h.σ k) e.le, fun l k => lt_of_lt_of_le (h.s0 l k) e.le, fun l k => lt_of_lt_of_le (h.s1 l k) e.le, h.σlow, h.s0low, h.s1low⟩

theorem fsDual_ext {m : Nat} {F : Nat → Prop} {t t' : Tape} {s : FSt Nat} (h : FOn m F t s) (e : Ext t t') (i : Nat) : fsDual i t' s = fsDual i t s := by
  rw [fsDual, fsDual, σ_ext h.σ e i]
  congr 1
  · funext l k; exact e.dual i (h.s0 l k)
  · funext l k; exact e.dual i (h.s1 l k)

/-- The variables of a state replaced. -/
theorem FOn.vars {m : Nat} {F : Nat → Prop} {t : Tape} {s : FSt Nat} (h : FOn m F t s) {σ : Nat → Nat} (h1 : ∀ k, σ k < t.nodes.length) (h2 : ∀ k, F k → m ≤ σ k) : FOn m F t { s with σ := σ } :=
  ⟨h1, h.s0, h.s1, h2, h.s0low, h.s1low⟩

theorem setRow_all {P : Nat → Nat → Prop} {s : Nat → Nat → Nat} {v : Nat → Nat} (lvl : Nat) (af : List Nat) (h1 : ∀ l k, P k (s l k)) (h2 : ∀ k, P k (v k)) : ∀ l k, P k (setRow s lvl af v l k) := by
  intro l k
  rw [setRow]
  split_ifs
  · exact h2 k
  · exact h1 l k

theorem setVars_all {P : Nat → Nat → Prop} {σ v : Nat → Nat} (af : List Nat) (h1 : ∀ k, P k (σ k)) (h2 : ∀ k, P k (v k)) : ∀ k, P k (setVars σ af v k) := by
  intro k
  rw [setVars]
  split_ifs
  · exact h2 k
  · exact h1 k

theorem setRow_dual (i : Nat) (t : Tape) (s : Nat → Nat → Nat) (lvl : Nat) (af : List Nat) (v : Nat → Nat) :
    (fun l k => t.dual i (setRow s lvl af v l k)) = setRow (fun l k => t.dual i (s l k)) lvl af (fun k => t.dual i (v k)) := by
  funext l k
  rw [setRow, setRow]
  split_ifs <;> rfl

theorem setVars_dual (i : Nat) (t : Tape) (σ : Nat → Nat) (af : List Nat) (v : Nat → Nat) :
    (fun k => t.dual i (setVars σ af v k)) = setVars (fun k => t.dual i (σ k)) af (fun k => t.dual i (v k)) := by
  funext k
  rw [setVars, setVars]
  split_ifs <;> rfl

/-- The blends of the affected variables. -/
theorem vBlend_spec (lib : Lib) (i m dt : Nat) (s1 σ : Nat → Nat) (F : Nat → Prop) : ∀ (af : List Nat) (t : Tape) (σ' : Nat → Nat), i < t.nodes.length → m ≤ t.nodes.length → dt < t.nodes.length →
    (∀ k, s1 k < t.nodes.length) → (∀ k, σ k < t.nodes.length) → (∀ k, σ' k < t.nodes.length) → (∀ k, F k → m ≤ σ' k) →
    Ext t (vBlend lib dt s1 σ af t σ').1 ∧ (∀ k, (vBlend lib dt s1 σ af t σ').2 k < (vBlend lib dt s1 σ af t σ').1.nodes.length) ∧ (∀ k, F k → m ≤ (vBlend lib dt s1 σ af t σ').2 k) ∧
      (fun k => (vBlend lib dt s1 σ af t σ').1.dual i ((vBlend lib dt s1 σ af t σ').2 k)) = setVars (fun k => t.dual i (σ' k)) af
        (fun j => dualOps.add (dualOps.mul (t.dual i dt) (t.dual i (s1 j))) (dualOps.mul (dualOps.sub (lift 1) (t.dual i dt)) (t.dual i (σ j)))) := by
  intro af
  induction af with
  | nil =>
    intro t σ' _ _ _ _ _ h1 h2
    refine ⟨Ext.refl t, h1, h2, ?_⟩
    funext k
    simp [setVars, vBlend]
  | cons j af ih =>
    intro t σ' hi hm hdt hs1 hσ h1 h2
    rw [vBlend]
    have hr := expr_made i lib t (.bin .add (.bin .mult (.num dt) (.num (s1 j))) (.bin .mult (.un .subDL 1 (.num dt)) (.num (σ j)))) hi ⟨⟨hdt, hs1 j⟩, hdt, hσ j⟩
    have hpos : t.nodes.length ≤ (t.expr lib (.bin .add (.bin .mult (.num dt) (.num (s1 j))) (.bin .mult (.un .subDL 1 (.num dt)) (.num (σ j))))).2 := le_refl _
    set r := t.expr lib (.bin .add (.bin .mult (.num dt) (.num (s1 j))) (.bin .mult (.un .subDL 1 (.num dt)) (.num (σ j)))) with hrdef
    have le := hr.ext.le
    obtain ⟨q1, q2, q3, q4⟩ := ih r.1 (upd σ' j r.2) (by omega) (by omega) (by omega) (fun k => lt_of_lt_of_le (hs1 k) le) (fun k => lt_of_lt_of_le (hσ k) le)
      (upd_lt (fun k => lt_of_lt_of_le (h1 k) le) hr.pos) (by
        intro k hk
        rw [upd]
        split_ifs
        · omega
        · exact h2 k hk)
    refine ⟨hr.ext.trans q1, q2, q3, q4.trans ?_⟩
    rw [upd_dual, hr.ext.dual i hdt, hr.dual, σ_ext h1 hr.ext]
    funext k
    simp only [setVars, List.mem_cons, upd]
    by_cases hk : k ∈ af
    · rw [if_pos hk, if_pos (Or.inr hk), hr.ext.dual i (hs1 k), hr.ext.dual i (hσ k)]
    · rw [if_neg hk]
      by_cases hkj : k = j
      · subst hkj
        rw [if_pos rfl, if_pos (Or.inl rfl)]
        refine Dual.ext rfl ?_
        simp [Ex.push, Ex.value, tangent, BOp.left, BOp.right, BOp.eval, UOp.der, UOp.eval, dualOps, Tape.dual, Script.lift]
        ring
      · rw [if_neg hkj, if_neg (by simp [hk, hkj])]

/-- A state that may be undefined. -/
def StateOr (i m : Nat) (F : Nat → Prop) (t : Tape) (r : Option (Tape × FSt Nat)) (v : Option (FSt Dual)) : Prop :=
  match r with
  | none => v = none
  | some r => v = some (fsDual i r.1 r.2) ∧ Ext t r.1 ∧ FOn m F r.1 r.2

theorem stateOr_trans {i m : Nat} {F : Nat → Prop} {t t' : Tape} {r : Option (Tape × FSt Nat)} {v : Option (FSt Dual)} (e : Ext t t') (h : StateOr i m F t' r v) : StateOr i m F t r v := by
  cases r with
  | none => exact h
  | some r => exact ⟨h.1, e.trans h.2.1, h.2.2⟩

/-- What an evaluation needs of the tape. -/
structure Ready (S : Prop) (i m : Nat) (cv : Nat → Nat) (sp : Script.Sample Nat) (t : Tape) : Prop where
  low : S → m ≤ sp.spot
  sp : SampleOn t sp
  cv : ∀ k, cv k < t.nodes.length
  i : i < t.nodes.length
  m : m ≤ t.nodes.length

theorem Ready.ext {S : Prop} {i m : Nat} {cv : Nat → Nat} {sp : Script.Sample Nat} {t t' : Tape} (h : Ready S i m cv sp t) (e : Ext t t') : Ready S i m cv sp t' :=
  ⟨h.low, h.sp.ext e, fun k => lt_of_lt_of_le (h.cv k) e.le, lt_of_lt_of_le h.i e.le, h.m.trans e.le⟩

mutual
theorem vS_dual (lib : Lib) (i m : Nat) (S : Prop) (F : Nat → Prop) (cv : Nat → Nat) (sp : Script.Sample Nat) (defEps eps : ℝ) : ∀ (st : Stmt Nat ℝ) (lvl : Nat) (t : Tape) (s : FSt Nat), OwnS S F st →
    Ready S i m cv sp t → FOn m F t s →
    StateOr i m F t (vS lib cv sp defEps eps st lvl t s) (smoothS (fun k => t.dual i (cv k)) (sampleDual i t sp) defEps eps st lvl (fsDual i t s))
  | .assign x e, lvl, t, s, ho, hr, hs => by
    obtain ⟨h1, o1⟩ := vE_made lib i m S F cv sp s.σ e t hr.i hr.m hr.cv hr.sp hr.low hs.σ hs.σlow
    rw [vS, smoothS]
    refine ⟨?_, h1.ext, (hs.ext h1.ext).vars (upd_lt (fun k => lt_of_lt_of_le (hs.σ k) h1.ext.le) h1.pos) ?_⟩
    · congr 1
      have hx := fsDual_ext hs h1.ext i
      simp only [fsDual] at hx ⊢
      injection hx with x1 x2 x3
      rw [upd_dual, x1, x2, x3, h1.dual]
    · intro k hk
      simp only [upd]
      split_ifs with hkx
      · exact o1 (ho (hkx ▸ hk))
      · exact hs.σlow k hk
  | .pays x e, lvl, t, s, ho, hr, hs => by
    obtain ⟨h1, -⟩ := vE_made lib i m S F cv sp s.σ e t hr.i hr.m hr.cv hr.sp hr.low hs.σ hs.σlow
    have hr1 := hr.ext h1.ext
    have hs1 := hs.ext h1.ext
    have h2 := tPays_made lib i (vE lib cv sp s.σ e t).1 (s.σ x.v) (vE lib cv sp s.σ e t).2 sp.numeraire hr1.i (hs1.σ _) h1.pos hr1.sp.2
    have hlow : m ≤ (tPays lib (vE lib cv sp s.σ e t).1 (s.σ x.v) (vE lib cv sp s.σ e t).2 sp.numeraire).2 := hr1.m
    rw [vS, smoothS]
    have e2 := h1.ext.trans h2.ext
    refine ⟨?_, e2, (hs.ext e2).vars (upd_lt (fun k => lt_of_lt_of_le (hs.σ k) e2.le) h2.pos) ?_⟩
    · congr 1
      have hx := fsDual_ext hs e2 i
      simp only [fsDual] at hx ⊢
      injection hx with x1 x2 x3
      rw [upd_dual, x1, x2, x3, h2.dual, h1.ext.dual i (hs.σ _), h1.dual, h1.ext.dual i hr.sp.2]
      rfl
    · intro k hk
      simp only [upd]
      split_ifs
      · exact hlow
      · exact hs.σlow k hk
  | .ite c b he e af f, lvl, t, s, ho, hr, hs => by
    have hc := vC_made lib i m cv sp defEps s.σ c t hr.i hr.m hr.cv hr.sp hs.σ
    rw [vS, smoothS]
    cases hdt : vC lib cv sp defEps s.σ c t with
    | none => rw [hdt] at hc; rw [show smoothC _ _ _ (fsDual i t s).σ c = none from hc]; rfl
    | some dt =>
      rw [hdt] at hc
      obtain ⟨w, e1, h1⟩ := hc
      rw [show smoothC _ _ _ (fsDual i t s).σ c = some w from e1]
      dsimp only
      have hr1 := hr.ext h1.ext
      have hs1 := hs.ext h1.ext
      have hw : dt.1.env dt.2 = w.v := by rw [← h1.dual]; rfl
      rw [hw]
      have hcv := σ_ext hr.cv h1.ext i
      have hsp := sampleDual_ext hr.sp h1.ext i
      have hfs := fsDual_ext hs h1.ext i
      by_cases q1 : 1 - eps < w.v
      · rw [if_pos q1, if_pos q1]
        have := vSs_dual lib i m S F cv sp defEps eps b (lvl + 1) dt.1 s ho.1 hr1 hs1
        rw [hcv, hsp, hfs] at this
        exact stateOr_trans h1.ext this
      rw [if_neg q1, if_neg q1]
      by_cases q2 : w.v < eps
      · rw [if_pos q2, if_pos q2]
        cases he with
        | true =>
          have := vSs_dual lib i m S F cv sp defEps eps e (lvl + 1) dt.1 s ho.2 hr1 hs1
          rw [hcv, hsp, hfs] at this
          exact stateOr_trans h1.ext this
        | false => exact ⟨congrArg some hfs.symm, h1.ext, hs1⟩
      · rw [if_neg q2, if_neg q2]
        have hsA : FOn m F dt.1 { s with s0 := setRow s.s0 lvl af s.σ } :=
          ⟨hs1.σ, setRow_all (P := fun _ p => p < dt.1.nodes.length) lvl af hs1.s0 hs1.σ, hs1.s1, hs1.σlow,
            fun l k hk => setRow_all (P := fun k p => F k → m ≤ p) lvl af hs1.s0low hs1.σlow l k hk, hs1.s1low⟩
        have hA := vSs_dual lib i m S F cv sp defEps eps b (lvl + 1) dt.1 { s with s0 := setRow s.s0 lvl af s.σ } ho.1 hr1 hsA
        rw [hcv, hsp, show fsDual i dt.1 { s with s0 := setRow s.s0 lvl af s.σ } = ⟨(fsDual i t s).σ, setRow (fsDual i t s).s0 lvl af (fsDual i t s).σ, (fsDual i t s).s1⟩ by
          rw [← hfs]; simp only [fsDual, setRow_dual]] at hA
        refine stateOr_trans h1.ext ?_
        cases ha : vSs lib cv sp defEps eps b (lvl + 1) dt.1 { s with s0 := setRow s.s0 lvl af s.σ } with
        | none => rw [ha] at hA; rw [show smoothSs _ _ _ _ b _ _ = none from hA]; rfl
        | some a =>
          rw [ha] at hA
          obtain ⟨a1, a2, a3⟩ := hA
          rw [show smoothSs _ _ _ _ b _ _ = some _ from a1]
          dsimp only
          have hr2 := hr1.ext a2
          have hcv2 : (fun k => a.1.dual i (cv k)) = fun k => t.dual i (cv k) := (σ_ext hr1.cv a2 i).trans hcv
          have hsp2 := (sampleDual_ext hr1.sp a2 i).trans hsp
          have hsB : FOn m F a.1 { a.2 with s1 := setRow a.2.s1 lvl af a.2.σ, σ := setVars a.2.σ af (a.2.s0 lvl) } :=
            ⟨setVars_all (P := fun _ p => p < a.1.nodes.length) af a3.σ (a3.s0 lvl), a3.s0, setRow_all (P := fun _ p => p < a.1.nodes.length) lvl af a3.s1 a3.σ,
              fun k hk => setVars_all (P := fun k p => F k → m ≤ p) af a3.σlow (a3.s0low lvl) k hk, a3.s0low, fun l k hk => setRow_all (P := fun k p => F k → m ≤ p) lvl af a3.s1low a3.σlow l k hk⟩
          have hB : StateOr i m F a.1 (if he then vSs lib cv sp defEps eps e (lvl + 1) a.1 { a.2 with s1 := setRow a.2.s1 lvl af a.2.σ, σ := setVars a.2.σ af (a.2.s0 lvl) }
              else some (a.1, { a.2 with s1 := setRow a.2.s1 lvl af a.2.σ, σ := setVars a.2.σ af (a.2.s0 lvl) }))
              (if he then smoothSs (fun k => t.dual i (cv k)) (sampleDual i t sp) defEps eps e (lvl + 1)
                  ⟨setVars (fsDual i a.1 a.2).σ af ((fsDual i a.1 a.2).s0 lvl), (fsDual i a.1 a.2).s0, setRow (fsDual i a.1 a.2).s1 lvl af (fsDual i a.1 a.2).σ⟩
                else some ⟨setVars (fsDual i a.1 a.2).σ af ((fsDual i a.1 a.2).s0 lvl), (fsDual i a.1 a.2).s0, setRow (fsDual i a.1 a.2).s1 lvl af (fsDual i a.1 a.2).σ⟩) := by
            have heq : fsDual i a.1 { a.2 with s1 := setRow a.2.s1 lvl af a.2.σ, σ := setVars a.2.σ af (a.2.s0 lvl) } =
                ⟨setVars (fsDual i a.1 a.2).σ af ((fsDual i a.1 a.2).s0 lvl), (fsDual i a.1 a.2).s0, setRow (fsDual i a.1 a.2).s1 lvl af (fsDual i a.1 a.2).σ⟩ := by
              simp only [fsDual, setRow_dual, setVars_dual]
            split_ifs
            · have := vSs_dual lib i m S F cv sp defEps eps e (lvl + 1) a.1 _ ho.2 hr2 hsB
              rw [hcv2, hsp2, heq] at this
              exact this
            · exact ⟨by rw [← heq], Ext.refl _, hsB⟩
          refine stateOr_trans a2 ?_
          revert hB
          generalize (if he then vSs lib cv sp defEps eps e (lvl + 1) a.1 { a.2 with s1 := setRow a.2.s1 lvl af a.2.σ, σ := setVars a.2.σ af (a.2.s0 lvl) }
              else some (a.1, { a.2 with s1 := setRow a.2.s1 lvl af a.2.σ, σ := setVars a.2.σ af (a.2.s0 lvl) })) = X
          intro hB
          cases X with
          | none => rw [show (if he = true then smoothSs _ _ _ _ e _ _ else _) = none from hB]; rfl
          | some d =>
            obtain ⟨d1, d2, d3⟩ := hB
            rw [d1]
            dsimp only
            have hr3 := hr2.ext d2
            have hdtpos := lt_of_lt_of_le h1.pos (a2.trans d2).le
            obtain ⟨b1, b2, b3, b4⟩ := vBlend_spec lib i m dt.2 (d.2.s1 lvl) d.2.σ F af d.1 d.2.σ hr3.i hr3.m hdtpos (d3.s1 lvl) d3.σ d3.σ d3.σlow
            refine ⟨?_, d2.trans b1, (d3.ext b1).vars b2 b3⟩
            congr 1
            have hx := fsDual_ext d3 b1 i
            rw [(a2.trans d2).dual i h1.pos, h1.dual] at b4
            simp only [fsDual] at hx ⊢
            injection hx with x1 x2 x3
            rw [x2, x3, b4]
  | .collect b, lvl, t, s, ho, hr, hs => by
    rw [vS, smoothS]
    exact vSs_dual lib i m S F cv sp defEps eps b lvl t s ho hr hs
theorem vSs_dual (lib : Lib) (i m : Nat) (S : Prop) (F : Nat → Prop) (cv : Nat → Nat) (sp : Script.Sample Nat) (defEps eps : ℝ) : ∀ (st : Stmts Nat ℝ) (lvl : Nat) (t : Tape) (s : FSt Nat), OwnSs S F st →
    Ready S i m cv sp t → FOn m F t s →
    StateOr i m F t (vSs lib cv sp defEps eps st lvl t s) (smoothSs (fun k => t.dual i (cv k)) (sampleDual i t sp) defEps eps st lvl (fsDual i t s))
  | .nil, lvl, t, s, ho, hr, hs => by
    rw [vSs, smoothSs]
    exact ⟨rfl, Ext.refl t, hs⟩
  | .cons st ss, lvl, t, s, ho, hr, hs => by
    have h1 := vS_dual lib i m S F cv sp defEps eps st lvl t s ho.1 hr hs
    rw [vSs, smoothSs]
    cases hx : vS lib cv sp defEps eps st lvl t s with
    | none => rw [hx] at h1; rw [show smoothS _ _ _ _ st _ _ = none from h1]; rfl
    | some r =>
      rw [hx] at h1
      obtain ⟨a1, a2, a3⟩ := h1
      rw [show smoothS _ _ _ _ st _ _ = some _ from a1]
      dsimp only
      have := vSs_dual lib i m S F cv sp defEps eps ss lvl r.1 r.2 ho.2 (hr.ext a2) a3
      rw [sampleDual_ext hr.sp a2 i, σ_ext hr.cv a2 i] at this
      exact stateOr_trans a2 this
end

theorem vEvents_dual (lib : Lib) (i m : Nat) (F : Nat → Prop) (cv : Nat → Nat) (defEps eps : ℝ) : ∀ (evs : List (Stmts Nat ℝ × Script.Sample Nat)) (t : Tape) (s : FSt Nat),
    (∀ ev ∈ evs, ∃ S, OwnSs S F ev.1 ∧ Ready S i m cv ev.2 t) → FOn m F t s →
    StateOr i m F t (vEvents lib cv defEps eps evs t s) (smoothEvents (fun k => t.dual i (cv k)) defEps eps (evs.map fun ev => (ev.1, sampleDual i t ev.2)) (fsDual i t s)) := by
  intro evs
  induction evs with
  | nil => intro t s _ hs; exact ⟨rfl, Ext.refl t, hs⟩
  | cons ev evs ih =>
    intro t s hev hs
    obtain ⟨S, ho, hr⟩ := hev ev (List.mem_cons_self ..)
    have h1 := vSs_dual lib i m S F cv ev.2 defEps eps ev.1 0 t s ho hr hs
    rw [vEvents, List.map_cons, smoothEvents]
    dsimp only
    cases hx : vSs lib cv ev.2 defEps eps ev.1 0 t s with
    | none => rw [hx] at h1; rw [show smoothSs _ _ _ _ ev.1 _ _ = none from h1]; rfl
    | some r =>
      rw [hx] at h1
      obtain ⟨a1, a2, a3⟩ := h1
      rw [show smoothSs _ _ _ _ ev.1 _ _ = some _ from a1]
      dsimp only [Option.bind_some]
      have := ih r.1 r.2 (fun e he => (hev e (List.mem_cons_of_mem _ he)).imp fun _ h => ⟨h.1, h.2.ext a2⟩) a3
      rw [σ_ext hr.cv a2 i, show (evs.map fun ev => (ev.1, sampleDual i r.1 ev.2)) = evs.map fun ev => (ev.1, sampleDual i t ev.2) from
        List.map_congr_left fun e he => by rw [sampleDual_ext (hev e (List.mem_cons_of_mem _ he)).choose_spec.2.sp a2 i]] at this
      exact stateOr_trans a2 this

end Dal.TapeRun
