import Verif.Script.CondModel
import Verif.Script.IndexProps
import Mathlib.Tactic.Ring
import Mathlib.Tactic.Linarith

/-! # Lemmas on removed conditions and smoothed evaluation -/

namespace Dal.Script

section Removal
variable {D : Type}

/-- A mark agrees with a truth value. -/
def Flags.Right (f : Flags) (b : Bool) : Prop := (f.always = true → b = true) ∧ (f.never = true → b = false)

/-- The marks met while a condition is evaluated in state `σ` agree with the values found. -/
def RightC (o : Ops D) (cv : Nat → D) (sp : Sample D) (σ : Nat → D) : Cond Nat D → Prop
  | .cmp op e a f => f.Right (evalC o cv sp σ (.cmp op e a f))
  | .and l r f => f.Right (evalC o cv sp σ (.and l r f)) ∧ RightC o cv sp σ l ∧ (evalC o cv sp σ l = true → RightC o cv sp σ r)
  | .or l r f => f.Right (evalC o cv sp σ (.or l r f)) ∧ RightC o cv sp σ l ∧ (evalC o cv sp σ l = false → RightC o cv sp σ r)
  | .not c f => f.Right (evalC o cv sp σ (.not c f)) ∧ RightC o cv sp σ c
  | .tt => True
  | .ff => True

mutual
/-- The marks met while a statement is executed from state `σ` agree with the values found. -/
def RightS (o : Ops D) (cv : Nat → D) (sp : Sample D) : Stmt Nat D → (Nat → D) → Prop
  | .assign _ _, _ => True
  | .pays _ _, _ => True
  | .ite c t _ e _ f, σ => f.Right (evalC o cv sp σ c) ∧ RightC o cv sp σ c ∧
      (evalC o cv sp σ c = true → RightSs o cv sp t σ) ∧ (evalC o cv sp σ c = false → RightSs o cv sp e σ)
  | .collect b, σ => RightSs o cv sp b σ
/-- The same for a list of statements. -/
def RightSs (o : Ops D) (cv : Nat → D) (sp : Sample D) : Stmts Nat D → (Nat → D) → Prop
  | .nil, _ => True
  | .cons s ss, σ => RightS o cv sp s σ ∧ RightSs o cv sp ss (exec o cv sp s σ)
end

theorem Flags.Right.replace {o : Ops D} {cv : Nat → D} {sp : Sample D} {σ : Nat → D} {f : Flags} {b : Bool} {c : Cond Nat D}
    (h : f.Right b) (hc : evalC o cv sp σ c = b) :
    evalC o cv sp σ (if f.always then .tt else if f.never then .ff else c) = b := by
  obtain ⟨h1, h2⟩ := h
  cases ha : f.always with
  | true => rw [if_pos rfl]; exact (h1 ha).symm
  | false =>
    cases hn : f.never with
    | true => rw [if_neg (by decide), if_pos rfl]; exact (h2 hn).symm
    | false => rw [if_neg (by decide), if_neg (by decide)]; exact hc

theorem ccC_eval (o : Ops D) (cv : Nat → D) (sp : Sample D) (σ : Nat → D) : (c : Cond Nat D) → RightC o cv sp σ c →
    evalC o cv sp σ (ccC c) = evalC o cv sp σ c
  | .cmp op e a f, h => by rw [ccC]; exact h.replace rfl
  | .and l r f, h => by
    obtain ⟨hf, hl, hr⟩ := h
    rw [ccC]
    refine hf.replace ?_
    simp only [evalC]
    rw [ccC_eval o cv sp σ l hl]
    cases hv : evalC o cv sp σ l with
    | true => rw [if_pos rfl, if_pos rfl]; exact ccC_eval o cv sp σ r (hr hv)
    | false => rfl
  | .or l r f, h => by
    obtain ⟨hf, hl, hr⟩ := h
    rw [ccC]
    refine hf.replace ?_
    simp only [evalC]
    rw [ccC_eval o cv sp σ l hl]
    cases hv : evalC o cv sp σ l with
    | true => rfl
    | false => rw [if_neg (by decide), if_neg (by decide)]; exact ccC_eval o cv sp σ r (hr hv)
  | .not c f, h => by
    obtain ⟨hf, hc⟩ := h
    rw [ccC]
    refine hf.replace ?_
    simp only [evalC]
    rw [ccC_eval o cv sp σ c hc]
  | .tt, _ => rfl
  | .ff, _ => rfl

mutual
theorem ccS_exec (o : Ops D) (cv : Nat → D) (sp : Sample D) : (s : Stmt Nat D) → (σ : Nat → D) → RightS o cv sp s σ →
    exec o cv sp (ccS s) σ = exec o cv sp s σ
  | .assign x e, σ, _ => rfl
  | .pays x e, σ, _ => rfl
  | .ite c t he e af f, σ, h => by
    obtain ⟨⟨h1, h2⟩, hc, ht, hf⟩ := h
    rw [ccS]
    cases ha : f.always with
    | true =>
      rw [if_pos rfl]
      simp only [exec]
      rw [if_pos (h1 ha)]
      exact ccSs_exec o cv sp t σ (ht (h1 ha))
    | false =>
      cases hn : f.never with
      | true =>
        have hv := h2 hn
        rw [if_neg (by decide), if_pos rfl]
        simp only [exec]
        rw [hv]
        cases he with
        | true => exact ccSs_exec o cv sp e σ (hf hv)
        | false => rfl
      | false =>
        rw [if_neg (by decide), if_neg (by decide)]
        simp only [exec]
        rw [ccC_eval o cv sp σ c hc]
        cases hv : evalC o cv sp σ c with
        | true => rw [if_pos rfl, if_pos rfl]; exact ccSs_exec o cv sp t σ (ht hv)
        | false =>
          rw [ccSs_exec o cv sp e σ (hf hv)]
          rfl
  | .collect b, σ, h => ccSs_exec o cv sp b σ h
theorem ccSs_exec (o : Ops D) (cv : Nat → D) (sp : Sample D) : (ss : Stmts Nat D) → (σ : Nat → D) → RightSs o cv sp ss σ →
    execs o cv sp (ccSs ss) σ = execs o cv sp ss σ
  | .nil, σ, _ => rfl
  | .cons s ss, σ, h => by
    obtain ⟨h1, h2⟩ := h
    simp only [ccSs, execs]
    rw [ccS_exec o cv sp s σ h1]
    exact ccSs_exec o cv sp ss _ h2
end

/-- No mark is left in a condition. -/
def CleanC : Cond Nat D → Prop
  | .cmp _ _ _ f => f.always = false ∧ f.never = false
  | .and l r f => f.always = false ∧ f.never = false ∧ CleanC l ∧ CleanC r
  | .or l r f => f.always = false ∧ f.never = false ∧ CleanC l ∧ CleanC r
  | .not c f => f.always = false ∧ f.never = false ∧ CleanC c
  | .tt => True
  | .ff => True

mutual
/-- No mark is left in a statement (nor in the branches that can be executed). -/
def CleanS : Stmt Nat D → Prop
  | .assign _ _ => True
  | .pays _ _ => True
  | .ite c t _ e _ f => f.always = false ∧ f.never = false ∧ CleanC c ∧ CleanSs t ∧ CleanSs e
  | .collect b => CleanSs b
/-- The same for a list of statements. -/
def CleanSs : Stmts Nat D → Prop
  | .nil => True
  | .cons s ss => CleanS s ∧ CleanSs ss
end

theorem cleanC_replace {f : Flags} {c : Cond Nat D} (h : f.always = false → f.never = false → CleanC c) :
    CleanC (if f.always then .tt else if f.never then .ff else c) := by
  cases ha : f.always with
  | true => rw [if_pos rfl]; exact trivial
  | false =>
    cases hn : f.never with
    | true => rw [if_neg (by decide), if_pos rfl]; exact trivial
    | false => rw [if_neg (by decide), if_neg (by decide)]; exact h ha hn

theorem ccC_clean : (c : Cond Nat D) → CleanC (ccC c)
  | .cmp op e a f => by rw [ccC]; exact cleanC_replace (fun ha hn => ⟨ha, hn⟩)
  | .and l r f => by rw [ccC]; exact cleanC_replace (fun ha hn => ⟨ha, hn, ccC_clean l, ccC_clean r⟩)
  | .or l r f => by rw [ccC]; exact cleanC_replace (fun ha hn => ⟨ha, hn, ccC_clean l, ccC_clean r⟩)
  | .not c f => by rw [ccC]; exact cleanC_replace (fun ha hn => ⟨ha, hn, ccC_clean c⟩)
  | .tt => trivial
  | .ff => trivial

mutual
theorem ccS_clean : (s : Stmt Nat D) → CleanS (ccS s)
  | .assign x e => trivial
  | .pays x e => trivial
  | .ite c t he e af f => by
    rw [ccS]
    cases ha : f.always with
    | true => rw [if_pos rfl]; exact ccSs_clean t
    | false =>
      cases hn : f.never with
      | true =>
        rw [if_neg (by decide), if_pos rfl]
        cases he with
        | true => exact ccSs_clean e
        | false => exact trivial
      | false =>
        rw [if_neg (by decide), if_neg (by decide)]
        exact ⟨ha, hn, ccC_clean c, ccSs_clean t, ccSs_clean e⟩
  | .collect b => ccSs_clean b
theorem ccSs_clean : (ss : Stmts Nat D) → CleanSs (ccSs ss)
  | .nil => trivial
  | .cons s ss => ⟨ccS_clean s, ccSs_clean ss⟩
end

end Removal

section Fuzzy
variable {K : Type} [Field K] [LinearOrder K] [IsStrictOrderedRing K]

theorem fdiv_unit {x y d : K} (h : fdiv x y = some d) (h0 : 0 ≤ x) (h1 : x ≤ y) : 0 ≤ d ∧ d ≤ 1 := by
  unfold fdiv at h
  split at h
  · exact absurd h (by simp)
  · next hy =>
      have hyp : 0 < y := lt_of_le_of_ne (h0.trans h1) (Ne.symm hy)
      simp only [Option.some.injEq] at h
      subst h
      exact ⟨div_nonneg h0 hyp.le, (div_le_one hyp).2 h1⟩

theorem cspr_range {x eps d : K} (h : cspr x eps = some d) : 0 ≤ d ∧ d ≤ 1 := by
  unfold cspr at h
  split at h
  · simp only [Option.some.injEq] at h; subst h; exact ⟨le_rfl, zero_le_one⟩
  · split at h
    · simp only [Option.some.injEq] at h; subst h; exact ⟨zero_le_one, le_rfl⟩
    · next h1 h2 => exact fdiv_unit h (by linarith) (by linarith)

theorem cspr2_range {x lb rb d : K} (h : cspr2 x lb rb = some d) : 0 ≤ d ∧ d ≤ 1 := by
  unfold cspr2 at h
  split at h
  · simp only [Option.some.injEq] at h; subst h; exact ⟨le_rfl, zero_le_one⟩
  · split at h
    · simp only [Option.some.injEq] at h; subst h; exact ⟨zero_le_one, le_rfl⟩
    · next h1 h2 => exact fdiv_unit h (by linarith) (by linarith)

theorem bfly_range {x eps d : K} (h : bfly x eps = some d) : 0 ≤ d ∧ d ≤ 1 := by
  unfold bfly at h
  split at h
  · simp only [Option.some.injEq] at h; subst h; exact ⟨le_rfl, zero_le_one⟩
  · next hx =>
      rw [not_or, not_lt, not_lt] at hx
      refine fdiv_unit h ?_ ?_
      · split <;> linarith
      · split <;> linarith

theorem bfly2_range {x lb rb d : K} (h : bfly2 x lb rb = some d) : 0 ≤ d ∧ d ≤ 1 := by
  unfold bfly2 at h
  split at h
  · simp only [Option.some.injEq] at h; subst h; exact ⟨le_rfl, zero_le_one⟩
  · next hx =>
      rw [not_or, not_lt, not_lt] at hx
      split at h
      · next hn =>
          obtain ⟨q, hq, rfl⟩ := Option.map_eq_some_iff.1 h
          unfold fdiv at hq
          split at hq
          · exact absurd hq (by simp)
          · simp only [Option.some.injEq] at hq
            have hl : lb < 0 := lt_of_le_of_lt hx.1 hn
            subst hq
            have h1 : 0 ≤ x / lb := div_nonneg_of_nonpos hn.le hl.le
            have h2 : x / lb ≤ 1 := (div_le_one_of_neg hl).2 hx.1
            exact ⟨by linarith, by linarith⟩
      · next hn =>
          obtain ⟨q, hq, rfl⟩ := Option.map_eq_some_iff.1 h
          have := fdiv_unit hq (not_lt.1 hn) hx.2
          exact ⟨by linarith, by linarith⟩

theorem fuzzyC_range (o : Ops K) (cv : Nat → K) (sp : Sample K) (defEps : K) (σ : Nat → K) : (c : Cond Nat K) → (d : K) →
    fuzzyC o cv sp defEps σ c = some d → 0 ≤ d ∧ d ≤ 1
  | .cmp op e a f, d, h => by
    simp only [fuzzyC] at h
    cases op with
    | equal =>
      simp only at h
      split at h
      · exact bfly2_range h
      · exact bfly_range h
    | sup =>
      simp only at h
      split at h
      · exact cspr2_range h
      · exact cspr_range h
    | supEq =>
      simp only at h
      split at h
      · exact cspr2_range h
      · exact cspr_range h
  | .and l r f, d, h => by
    simp only [fuzzyC] at h
    split at h
    · next x y hx hy =>
        obtain ⟨x0, x1⟩ := fuzzyC_range o cv sp defEps σ l x hx
        obtain ⟨y0, y1⟩ := fuzzyC_range o cv sp defEps σ r y hy
        simp only [Option.some.injEq] at h
        subst h
        exact ⟨mul_nonneg y0 x0, mul_le_one₀ y1 x0 x1⟩
    · exact absurd h (by simp)
  | .or l r f, d, h => by
    simp only [fuzzyC] at h
    split at h
    · next x y hx hy =>
        obtain ⟨x0, x1⟩ := fuzzyC_range o cv sp defEps σ l x hx
        obtain ⟨y0, y1⟩ := fuzzyC_range o cv sp defEps σ r y hy
        simp only [Option.some.injEq] at h
        subst h
        have h1 : 0 ≤ (1 - x) * (1 - y) := mul_nonneg (by linarith) (by linarith)
        have h2 : 0 ≤ y * (1 - x) := mul_nonneg y0 (by linarith)
        exact ⟨by nlinarith, by nlinarith⟩
    · exact absurd h (by simp)
  | .not c f, d, h => by simp [fuzzyC] at h
  | .tt, d, h => by
    simp only [fuzzyC, Option.some.injEq] at h; subst h; exact ⟨zero_le_one, le_rfl⟩
  | .ff, d, h => by
    simp only [fuzzyC, Option.some.injEq] at h; subst h; exact ⟨le_rfl, zero_le_one⟩

/-- The compared value `x` is outside the smoothing band of a comparison: at a distance of half the width
(or beyond the discrete bounds), or exactly zero for an equality. -/
def OutsideBand (op : CmpOp) (a : CmpAttr K) (defEps x : K) : Prop :=
  if a.discrete = true then
    match op with
    | .equal => a.lb < 0 ∧ 0 < a.rb ∧ (x ≤ a.lb ∨ a.rb ≤ x ∨ x = 0)
    | .sup => a.lb ≤ 0 ∧ 0 < a.rb ∧ (x ≤ a.lb ∨ a.rb ≤ x)
    | .supEq => a.lb < 0 ∧ 0 ≤ a.rb ∧ (x ≤ a.lb ∨ a.rb ≤ x)
  else
    0 < (if a.eps < 0 then defEps else a.eps) ∧
    (x ≤ -((if a.eps < 0 then defEps else a.eps) / 2) ∨ (if a.eps < 0 then defEps else a.eps) / 2 ≤ x ∨ (op = .equal ∧ x = 0))

/-- Every comparison of a condition without negation is outside its band. -/
def SharpC (o : Ops K) (cv : Nat → K) (sp : Sample K) (defEps : K) (σ : Nat → K) : Cond Nat K → Prop
  | .cmp op e a _ => OutsideBand op a defEps (evalE o cv sp σ e)
  | .and l r _ => SharpC o cv sp defEps σ l ∧ SharpC o cv sp defEps σ r
  | .or l r _ => SharpC o cv sp defEps σ l ∧ SharpC o cv sp defEps σ r
  | .not _ _ => False
  | .tt => True
  | .ff => True

/-- The degree of a sharp truth value. -/
def deg (b : Bool) : K := if b then 1 else 0

theorem cspr_sharp {x eps : K} (he : 0 < eps) (h : x ≤ -(eps / 2) ∨ eps / 2 ≤ x) (b : Bool) (hb : 0 < x → b = true) (hb' : x < 0 → b = false) :
    cspr x eps = some (deg b) := by
  have h2 : 0 < eps / 2 := by linarith
  unfold cspr
  rcases h with h | h
  · have : b = false := hb' (by linarith)
    subst this
    split
    · rfl
    · next hx =>
        have hxe : x = -(eps / 2) := le_antisymm h (not_lt.1 hx)
        rw [if_neg (by linarith)]
        unfold fdiv
        rw [if_neg he.ne', hxe]
        simp [deg]
  · have : b = true := hb (by linarith)
    subst this
    rw [if_neg (by linarith)]
    split
    · rfl
    · next hx =>
        have hxe : x = eps / 2 := le_antisymm (not_lt.1 hx) h
        unfold fdiv
        rw [if_neg he.ne', hxe, add_halves, div_self he.ne']
        simp [deg]

theorem cspr2_sharp {x lb rb : K} (he : lb < rb) (h : x ≤ lb ∨ rb ≤ x) (b : Bool) (hb : rb ≤ x → b = true) (hb' : x ≤ lb → b = false) :
    cspr2 x lb rb = some (deg b) := by
  have hs : rb - lb ≠ 0 := by intro hc; linarith
  unfold cspr2
  rcases h with h | h
  · have : b = false := hb' h
    subst this
    split
    · rfl
    · next hx =>
        have hxe : x = lb := le_antisymm h (not_lt.1 hx)
        rw [if_neg (by linarith)]
        unfold fdiv
        rw [if_neg hs, hxe]
        simp [deg]
  · have : b = true := hb h
    subst this
    rw [if_neg (by linarith)]
    split
    · rfl
    · next hx =>
        have hxe : x = rb := le_antisymm (not_lt.1 hx) h
        unfold fdiv
        rw [if_neg hs, hxe, div_self hs]
        simp [deg]

theorem bfly_sharp {x eps : K} (he : 0 < eps) (h : x ≤ -(eps / 2) ∨ eps / 2 ≤ x ∨ x = 0) :
    bfly x eps = some (deg (decide (x = 0))) := by
  have h2 : 0 < eps / 2 := by linarith
  unfold bfly
  split
  · next hx =>
      have : x ≠ 0 := by rintro rfl; rcases hx with hx | hx <;> linarith
      simp [deg, this]
  · next hx =>
      rw [not_or, not_lt, not_lt] at hx
      unfold fdiv
      rw [if_neg h2.ne']
      rcases h with h | h | h
      · have hxe : x = -(eps / 2) := le_antisymm h hx.1
        have hn : x ≠ 0 := by linarith
        rw [if_pos (by linarith), hxe, neg_neg, sub_self, zero_div]
        simp [deg, he.ne']
      · have hxe : x = eps / 2 := le_antisymm hx.2 h
        have hn : x ≠ 0 := by linarith
        rw [if_neg (by linarith), hxe, sub_self, zero_div]
        simp [deg, he.ne']
      · subst h
        rw [if_neg (lt_irrefl _), sub_zero, div_self h2.ne']
        simp [deg]

theorem bfly2_sharp {x lb rb : K} (hl : lb < 0) (hr : 0 < rb) (h : x ≤ lb ∨ rb ≤ x ∨ x = 0) :
    bfly2 x lb rb = some (deg (decide (x = 0))) := by
  unfold bfly2
  split
  · next hx =>
      have : x ≠ 0 := by rintro rfl; rcases hx with hx | hx <;> linarith
      simp [deg, this]
  · next hx =>
      rw [not_or, not_lt, not_lt] at hx
      rcases h with h | h | h
      · have hxe : x = lb := le_antisymm h hx.1
        rw [if_pos (by linarith), hxe]
        unfold fdiv
        rw [if_neg hl.ne, div_self hl.ne]
        simp [deg, hl.ne]
      · have hxe : x = rb := le_antisymm hx.2 h
        rw [if_neg (by linarith), hxe]
        unfold fdiv
        rw [if_neg hr.ne', div_self hr.ne']
        simp [deg, hr.ne']
      · subst h
        rw [if_neg (lt_irrefl _)]
        unfold fdiv
        rw [if_neg hr.ne', zero_div]
        simp [deg]

/-- Comparisons are those of the order. -/
structure OrdOps (o : Ops K) : Prop where
  zero : o.zero = 0
  lt : ∀ x y, o.lt x y = decide (x < y)
  le : ∀ x y, o.le x y = decide (x ≤ y)
  eq : ∀ x y, o.eq x y = decide (x = y)

theorem cmp_sharp {o : Ops K} (ho : OrdOps o) (cv : Nat → K) (sp : Sample K) (defEps : K) (σ : Nat → K) (op : CmpOp) (e : Expr Nat K)
    (a : CmpAttr K) (f : Flags) (h : OutsideBand op a defEps (evalE o cv sp σ e)) :
    fuzzyC o cv sp defEps σ (.cmp op e a f) = some (deg (evalC o cv sp σ (.cmp op e a f))) := by
  simp only [fuzzyC, evalC]
  generalize evalE o cv sp σ e = x at *
  unfold OutsideBand at h
  cases hd : a.discrete with
  | true =>
    rw [if_pos hd] at h
    cases op with
    | equal =>
      simp only [evalCmp, ho.eq, ho.zero, if_true] at h ⊢
      exact bfly2_sharp h.1 h.2.1 h.2.2
    | sup =>
      simp only [evalCmp, ho.lt, ho.zero, if_true] at h ⊢
      exact cspr2_sharp (by linarith) h.2.2 _ (fun hx => by simp; linarith) (fun hx => by simp; linarith)
    | supEq =>
      simp only [evalCmp, ho.le, ho.zero, if_true] at h ⊢
      exact cspr2_sharp (by linarith) h.2.2 _ (fun hx => by simp; linarith) (fun hx => by simp; linarith)
  | false =>
    rw [if_neg (by rw [hd]; decide)] at h
    generalize (if a.eps < 0 then defEps else a.eps) = w at *
    obtain ⟨hw, h⟩ := h
    cases op with
    | equal =>
      simp only [evalCmp, ho.eq, ho.zero, Bool.false_eq_true, if_false] at h ⊢
      exact bfly_sharp hw (by simpa using h)
    | sup =>
      simp only [evalCmp, ho.lt, ho.zero, Bool.false_eq_true, if_false] at h ⊢
      exact cspr_sharp hw (by simpa using h) _ (fun hx => by simpa using hx) (fun hx => by simp; linarith)
    | supEq =>
      simp only [evalCmp, ho.le, ho.zero, Bool.false_eq_true, if_false] at h ⊢
      exact cspr_sharp hw (by simpa using h) _ (fun hx => by simp; linarith) (fun hx => by simpa using hx)

theorem sharpC {o : Ops K} (ho : OrdOps o) (cv : Nat → K) (sp : Sample K) (defEps : K) (σ : Nat → K) : (c : Cond Nat K) →
    SharpC o cv sp defEps σ c → fuzzyC o cv sp defEps σ c = some (deg (evalC o cv sp σ c))
  | .cmp op e a f, h => cmp_sharp ho cv sp defEps σ op e a f h
  | .and l r f, h => by
    simp only [fuzzyC, evalC, sharpC ho cv sp defEps σ l h.1, sharpC ho cv sp defEps σ r h.2]
    cases evalC o cv sp σ l <;> cases evalC o cv sp σ r <;> simp [deg]
  | .or l r f, h => by
    simp only [fuzzyC, evalC, sharpC ho cv sp defEps σ l h.1, sharpC ho cv sp defEps σ r h.2]
    cases evalC o cv sp σ l <;> cases evalC o cv sp σ r <;> simp [deg]
  | .not _ _, h => h.elim
  | .tt, _ => by simp [fuzzyC, evalC, deg]
  | .ff, _ => by simp [fuzzyC, evalC, deg]

mutual
/-- Every condition met by the sharp execution of a statement is free of negation and outside its bands. -/
def SharpS (o : Ops K) (cv : Nat → K) (sp : Sample K) (defEps : K) : Stmt Nat K → (Nat → K) → Prop
  | .assign _ _, _ => True
  | .pays _ _, _ => True
  | .ite c t _ e _ _, σ => SharpC o cv sp defEps σ c ∧
      (evalC o cv sp σ c = true → SharpSs o cv sp defEps t σ) ∧ (evalC o cv sp σ c = false → SharpSs o cv sp defEps e σ)
  | .collect b, σ => SharpSs o cv sp defEps b σ
/-- The same for a list of statements. -/
def SharpSs (o : Ops K) (cv : Nat → K) (sp : Sample K) (defEps : K) : Stmts Nat K → (Nat → K) → Prop
  | .nil, _ => True
  | .cons s ss, σ => SharpS o cv sp defEps s σ ∧ SharpSs o cv sp defEps ss (exec o cv sp s σ)
end

mutual
theorem sharpS {o : Ops K} (ho : OrdOps o) (cv : Nat → K) (sp : Sample K) (defEps eps : K) (he : 0 < eps) (he1 : eps ≤ 1) :
    (st : Stmt Nat K) → (lvl : Nat) → (s : FSt K) → SharpS o cv sp defEps st s.σ →
    fuzzyS o cv sp defEps eps st lvl s = some { s with σ := exec o cv sp st s.σ }
  | .assign x e, lvl, s, _ => rfl
  | .pays x e, lvl, s, _ => rfl
  | .ite c t hb e af f, lvl, s, h => by
    obtain ⟨hc, ht, hf⟩ := h
    simp only [fuzzyS, exec, sharpC ho cv sp defEps s.σ c hc]
    cases hv : evalC o cv sp s.σ c with
    | true =>
      simp only [deg, if_true]
      rw [if_pos (by linarith)]
      exact sharpSs ho cv sp defEps eps he he1 t (lvl + 1) s (ht hv)
    | false =>
      simp only [deg, Bool.false_eq_true, if_false]
      rw [if_neg (by linarith), if_pos he]
      cases hb with
      | true => exact sharpSs ho cv sp defEps eps he he1 e (lvl + 1) s (hf hv)
      | false => rfl
  | .collect b, lvl, s, h => sharpSs ho cv sp defEps eps he he1 b lvl s h
theorem sharpSs {o : Ops K} (ho : OrdOps o) (cv : Nat → K) (sp : Sample K) (defEps eps : K) (he : 0 < eps) (he1 : eps ≤ 1) :
    (ss : Stmts Nat K) → (lvl : Nat) → (s : FSt K) → SharpSs o cv sp defEps ss s.σ →
    fuzzySs o cv sp defEps eps ss lvl s = some { s with σ := execs o cv sp ss s.σ }
  | .nil, lvl, s, _ => rfl
  | .cons st ss, lvl, s, h => by
    obtain ⟨h1, h2⟩ := h
    simp only [fuzzySs, execs, sharpS ho cv sp defEps eps he he1 st lvl s h1]
    exact sharpSs ho cv sp defEps eps he he1 ss lvl { s with σ := exec o cv sp st s.σ } h2
end

/-! ### The stores -/

mutual
theorem rowsS (o : Ops K) (cv : Nat → K) (sp : Sample K) (defEps eps : K) : (st : Stmt Nat K) → (lvl : Nat) → (s s' : FSt K) →
    fuzzyS o cv sp defEps eps st lvl s = some s' → ∀ l < lvl, ∀ j, s'.s0 l j = s.s0 l j ∧ s'.s1 l j = s.s1 l j
  | .assign x e, lvl, s, s', h, l, hl, j => by
    simp only [fuzzyS, Option.some.injEq] at h; subst h; exact ⟨rfl, rfl⟩
  | .pays x e, lvl, s, s', h, l, hl, j => by
    simp only [fuzzyS, Option.some.injEq] at h; subst h; exact ⟨rfl, rfl⟩
  | .ite c t hb e af f, lvl, s, s', h, l, hl, j => by
    have hl1 : l < lvl + 1 := by omega
    have hne : ¬ l = lvl := by omega
    simp only [fuzzyS] at h
    split at h
    · exact absurd h (by simp)
    · next dt _ =>
      split at h
      · exact rowsSs o cv sp defEps eps t (lvl + 1) s s' h l hl1 j
      · split at h
        · split at h
          · exact rowsSs o cv sp defEps eps e (lvl + 1) s s' h l hl1 j
          · simp only [Option.some.injEq] at h; subst h; exact ⟨rfl, rfl⟩
        · split at h
          · exact absurd h (by simp)
          · next a ha =>
            have h1 := rowsSs o cv sp defEps eps t (lvl + 1) _ a ha l hl1 j
            simp only [setRow, hne, false_and, if_false] at h1
            split at h
            · exact absurd h (by simp)
            · next d hd =>
              simp only [Option.some.injEq] at h
              subst h
              split at hd
              · have h2 := rowsSs o cv sp defEps eps e (lvl + 1) _ d hd l hl1 j
                simp only [setRow, hne, false_and, if_false] at h2
                exact ⟨h2.1.trans h1.1, h2.2.trans h1.2⟩
              · simp only [Option.some.injEq] at hd
                subst hd
                simp only [setRow, hne, false_and, if_false]
                exact h1
  | .collect b, lvl, s, s', h, l, hl, j => rowsSs o cv sp defEps eps b lvl s s' h l hl j
theorem rowsSs (o : Ops K) (cv : Nat → K) (sp : Sample K) (defEps eps : K) : (ss : Stmts Nat K) → (lvl : Nat) → (s s' : FSt K) →
    fuzzySs o cv sp defEps eps ss lvl s = some s' → ∀ l < lvl, ∀ j, s'.s0 l j = s.s0 l j ∧ s'.s1 l j = s.s1 l j
  | .nil, lvl, s, s', h, l, hl, j => by
    simp only [fuzzySs, Option.some.injEq] at h; subst h; exact ⟨rfl, rfl⟩
  | .cons st ss, lvl, s, s', h, l, hl, j => by
    simp only [fuzzySs] at h
    split at h
    · exact absurd h (by simp)
    · next s1 h1 =>
      have a := rowsS o cv sp defEps eps st lvl s s1 h1 l hl j
      have b := rowsSs o cv sp defEps eps ss lvl s1 s' h l hl j
      exact ⟨b.1.trans a.1, b.2.trans a.2⟩
end

/- The meaning of a smoothed script, without stores: an `IF` whose degree `dt` is neither (nearly) 0 nor
(nearly) 1 gives every variable the average of its values after the two branches, each run from the
state before the `IF`. -/
mutual
/-- One statement. -/
def blendS (o : Ops K) (cv : Nat → K) (sp : Sample K) (defEps eps : K) : Stmt Nat K → (Nat → K) → Option (Nat → K)
  | .assign x e, σ => some (exec o cv sp (.assign x e) σ)
  | .pays x e, σ => some (exec o cv sp (.pays x e) σ)
  | .ite c t he e _ _, σ =>
    (fuzzyC o cv sp defEps σ c).bind fun dt =>
      if 1 - eps < dt then blendSs o cv sp defEps eps t σ
      else if dt < eps then (if he then blendSs o cv sp defEps eps e σ else some σ)
      else (blendSs o cv sp defEps eps t σ).bind fun σ1 =>
        (if he then blendSs o cv sp defEps eps e σ else some σ).map fun σ0 => fun j => dt * σ1 j + (1 - dt) * σ0 j
  | .collect b, σ => blendSs o cv sp defEps eps b σ
/-- A list of statements. -/
def blendSs (o : Ops K) (cv : Nat → K) (sp : Sample K) (defEps eps : K) : Stmts Nat K → (Nat → K) → Option (Nat → K)
  | .nil, σ => some σ
  | .cons s ss, σ => (blendS o cv sp defEps eps s σ).bind (blendSs o cv sp defEps eps ss)
end

mutual
/-- The recorded variables of every `IF` include the targets of its branches. -/
def RecS : Stmt Nat K → Prop
  | .assign _ _ => True
  | .pays _ _ => True
  | .ite _ t _ e af _ => (∀ x ∈ targetss t, x.v ∈ af) ∧ (∀ x ∈ targetss e, x.v ∈ af) ∧ RecSs t ∧ RecSs e
  | .collect b => RecSs b
/-- The same for a list of statements. -/
def RecSs : Stmts Nat K → Prop
  | .nil => True
  | .cons s ss => RecS s ∧ RecSs ss
end

mutual
theorem blendS_frame (o : Ops K) (cv : Nat → K) (sp : Sample K) (defEps eps : K) : (st : Stmt Nat K) → (σ σ' : Nat → K) → (i : Nat) →
    (∀ x ∈ targets st, x.v ≠ i) → blendS o cv sp defEps eps st σ = some σ' → σ' i = σ i
  | .assign x e, σ, σ', i, h, hb => by
    simp only [blendS, Option.some.injEq] at hb
    subst hb
    exact exec_frame o cv sp _ σ i h
  | .pays x e, σ, σ', i, h, hb => by
    simp only [blendS, Option.some.injEq] at hb
    subst hb
    exact exec_frame o cv sp _ σ i h
  | .ite c t he e af f, σ, σ', i, h, hb => by
    have ht : ∀ x ∈ targetss t, x.v ≠ i := fun x hx => h x (by simp [targets, hx])
    have hee : ∀ x ∈ targetss e, x.v ≠ i := fun x hx => h x (by simp [targets, hx])
    have helse : ∀ σ0, (if he then blendSs o cv sp defEps eps e σ else some σ) = some σ0 → σ0 i = σ i := by
      intro σ0 h0
      split at h0
      · exact blendSs_frame o cv sp defEps eps e σ σ0 i hee h0
      · simp only [Option.some.injEq] at h0; subst h0; rfl
    simp only [blendS] at hb
    obtain ⟨dt, _, hb⟩ := Option.bind_eq_some_iff.1 hb
    split at hb
    · exact blendSs_frame o cv sp defEps eps t σ σ' i ht hb
    · split at hb
      · exact helse σ' hb
      · obtain ⟨σ1, h1, hb⟩ := Option.bind_eq_some_iff.1 hb
        obtain ⟨σ0, h0, rfl⟩ := Option.map_eq_some_iff.1 hb
        simp only
        rw [blendSs_frame o cv sp defEps eps t σ σ1 i ht h1, helse σ0 h0]
        ring
  | .collect b, σ, σ', i, h, hb => blendSs_frame o cv sp defEps eps b σ σ' i h hb
theorem blendSs_frame (o : Ops K) (cv : Nat → K) (sp : Sample K) (defEps eps : K) : (ss : Stmts Nat K) → (σ σ' : Nat → K) → (i : Nat) →
    (∀ x ∈ targetss ss, x.v ≠ i) → blendSs o cv sp defEps eps ss σ = some σ' → σ' i = σ i
  | .nil, σ, σ', i, h, hb => by simp only [blendSs, Option.some.injEq] at hb; subst hb; rfl
  | .cons s ss, σ, σ', i, h, hb => by
    simp only [blendSs] at hb
    obtain ⟨σ1, h1, h2⟩ := Option.bind_eq_some_iff.1 hb
    rw [blendSs_frame o cv sp defEps eps ss σ1 σ' i (fun x hx => h x (by simp [targetss, hx])) h2,
      blendS_frame o cv sp defEps eps s σ σ1 i (fun x hx => h x (by simp [targetss, hx])) h1]
end

mutual
theorem fuzzyS_blend (o : Ops K) (cv : Nat → K) (sp : Sample K) (defEps eps : K) : (st : Stmt Nat K) → (lvl : Nat) → (s : FSt K) →
    RecS st → (fuzzyS o cv sp defEps eps st lvl s).map FSt.σ = blendS o cv sp defEps eps st s.σ
  | .assign x e, lvl, s, _ => rfl
  | .pays x e, lvl, s, _ => rfl
  | .ite c t he e af f, lvl, s, h => by
    obtain ⟨hrt, hre, hgt, hge⟩ := h
    simp only [fuzzyS, blendS]
    cases hdt : fuzzyC o cv sp defEps s.σ c with
    | none => rfl
    | some dt =>
      simp only [Option.bind_some]
      split
      · exact fuzzySs_blend o cv sp defEps eps t (lvl + 1) s hgt
      · split
        · cases he with
          | true => exact fuzzySs_blend o cv sp defEps eps e (lvl + 1) s hge
          | false => rfl
        · have hb1 := fuzzySs_blend o cv sp defEps eps t (lvl + 1) { s with s0 := setRow s.s0 lvl af s.σ } hgt
          simp only at hb1
          rw [← hb1]
          cases ha : fuzzySs o cv sp defEps eps t (lvl + 1) { s with s0 := setRow s.s0 lvl af s.σ } with
          | none => rfl
          | some a =>
            have hrow := rowsSs o cv sp defEps eps t (lvl + 1) _ a ha lvl (by omega)
            simp only [setRow, true_and] at hrow
            rw [ha] at hb1
            simp only [Option.map_some] at hb1
            have hback : setVars a.σ af (a.s0 lvl) = s.σ := by
              funext j
              unfold setVars
              by_cases hj : j ∈ af
              · rw [if_pos hj, (hrow j).1, if_pos hj]
              · rw [if_neg hj]
                exact blendSs_frame o cv sp defEps eps t s.σ a.σ j (fun x hx hxj => hj (hxj ▸ hrt x hx)) hb1.symm
            simp only [hback, Option.map_some, Option.bind_some]
            have hout : ∀ j, j ∉ af → a.σ j = s.σ j := fun j hj =>
              blendSs_frame o cv sp defEps eps t s.σ a.σ j (fun x hx hxj => hj (hxj ▸ hrt x hx)) hb1.symm
            cases he with
            | true =>
              simp only [if_true]
              have hb2 := fuzzySs_blend o cv sp defEps eps e (lvl + 1) { a with s1 := setRow a.s1 lvl af a.σ, σ := s.σ } hge
              simp only at hb2
              rw [← hb2]
              cases hd : fuzzySs o cv sp defEps eps e (lvl + 1) { a with s1 := setRow a.s1 lvl af a.σ, σ := s.σ } with
              | none => rfl
              | some d =>
                rw [hd] at hb2
                simp only [Option.map_some] at hb2 ⊢
                have hrow2 := rowsSs o cv sp defEps eps e (lvl + 1) _ d hd lvl (by omega)
                simp only [setRow, true_and] at hrow2
                congr 1
                funext j
                unfold setVars
                by_cases hj : j ∈ af
                · rw [if_pos hj]
                  simp only
                  rw [(hrow2 j).2, if_pos hj]
                · rw [if_neg hj, hout j hj,
                    blendSs_frame o cv sp defEps eps e s.σ d.σ j (fun x hx hxj => hj (hxj ▸ hre x hx)) hb2.symm]
                  ring
            | false =>
              simp only [Bool.false_eq_true, if_false, Option.map_some]
              congr 1
              funext j
              unfold setVars
              by_cases hj : j ∈ af
              · rw [if_pos hj]
                simp only [setRow, true_and]
                rw [if_pos hj]
              · rw [if_neg hj, hout j hj]
                ring
  | .collect b, lvl, s, h => fuzzySs_blend o cv sp defEps eps b lvl s h
theorem fuzzySs_blend (o : Ops K) (cv : Nat → K) (sp : Sample K) (defEps eps : K) : (ss : Stmts Nat K) → (lvl : Nat) → (s : FSt K) →
    RecSs ss → (fuzzySs o cv sp defEps eps ss lvl s).map FSt.σ = blendSs o cv sp defEps eps ss s.σ
  | .nil, lvl, s, _ => rfl
  | .cons st ss, lvl, s, h => by
    obtain ⟨h1, h2⟩ := h
    simp only [fuzzySs, blendSs]
    have ha := fuzzyS_blend o cv sp defEps eps st lvl s h1
    rw [← ha]
    cases hs : fuzzyS o cv sp defEps eps st lvl s with
    | none => rfl
    | some s' =>
      simp only [Option.map_some, Option.bind_some]
      exact fuzzySs_blend o cv sp defEps eps ss lvl s' h2
end

end Fuzzy

end Dal.Script
