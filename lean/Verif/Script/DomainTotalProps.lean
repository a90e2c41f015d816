import Verif.Script.DomainTotalLemmas
import Verif.Script.DomainTotalSpec
import Verif.Script.DomainProps

/-! # C32: the domain analysis always ends with domains -/

namespace Dal
open Dal.Script

variable {K : Type} [Field K] [LinearOrder K] [IsStrictOrderedRing K]

section
variable (pow : K → K → K) (log sqrt exp : K → K)

mutual
/-- C32, expressions: the domain is computed, without exception, whatever the domains of the variables. -/
theorem C32_expression_total (δ : Nat → Dom K) (hδ : ∀ i, DomOk (δ i)) : (e : Expr Nat K) → DivsE e →
    ∃ d, domE (fieldOps pow log sqrt exp) δ e = some d ∧ DomOk d
  | .bin op l r k, h => by
    obtain ⟨hl, hr, hd⟩ := h
    obtain ⟨a, ea, ga⟩ := C32_expression_total δ hδ l hl
    obtain ⟨b, eb, gb⟩ := C32_expression_total δ hδ r hr
    simp only [domE, ea, eb]
    cases op with
    | add => exact domBin_all add_sound add_ex ga gb
    | sub => exact domBin_all sub_sound sub_ex ga gb
    | mul => exact domBin_all mul_sound mul_ex ga gb
    | div =>
      have hd := hd rfl
      cases r with
      | const c =>
        simp only [domE, Option.some.injEq] at eb
        exact eb ▸ domDiv_ex ga (single_WF c) (single_inv_ex hd)
      | constVar i c =>
        simp only [domE, Option.some.injEq] at eb
        exact eb ▸ domDiv_ex ga (single_WF c) (single_inv_ex hd)
      | spot =>
        simp only [domE, Option.some.injEq] at eb
        exact eb ▸ domDiv_ex ga line_WF line_inv_ex
      | bin _ _ _ _ => exact hd.elim
      | un _ _ _ => exact hd.elim
      | extra _ _ _ => exact hd.elim
      | var _ _ => exact hd.elim
    | pow => exact applyFunc2_ex line_WF a b
    | max => exact domBin_all imax_sound imax_ex gb ga
    | min => exact domBin_all imin_sound imin_ex gb ga
  | .un op a k, h => by
    obtain ⟨d, ed, gd⟩ := C32_expression_total δ hδ a h
    simp only [domE, ed]
    cases op with
    | uplus => exact ⟨d, rfl, gd⟩
    | uminus => exact domOpp_ex gd
    | log => exact applyFunc_ex halfLine_WF d
    | sqrt => exact applyFunc_ex halfLine_WF d
    | exp => exact applyFunc_ex line_WF d
  | .extra m x k, h => by
    obtain ⟨hc, hm, hx⟩ := h
    obtain ⟨ds, es, gs⟩ := arguments_total δ hδ m hc hm
    obtain ⟨d, ed, gd⟩ := C32_expression_total δ hδ x hx
    simp only [domE, es, ed, foldDom]
    exact foldl_ex _ ds d gd gs
  | .const c, _ => ⟨_, rfl, good_single (single_WF c)⟩
  | .var i _, _ => ⟨_, rfl, hδ i⟩
  | .constVar _ c, _ => ⟨_, rfl, good_single (single_WF c)⟩
  | .spot, _ => ⟨_, rfl, good_single line_WF⟩
theorem arguments_total (δ : Nat → Dom K) (hδ : ∀ i, DomOk (δ i)) : (m : Expr Nat K) → Call m → DivsE m →
    ∃ ds, domArgs (fieldOps pow log sqrt exp) δ m = some ds ∧ ∀ d ∈ ds, DomOk d
  | .bin op l r k, _, h => by
    obtain ⟨hl, hr, _⟩ := h
    obtain ⟨a, ea, ga⟩ := C32_expression_total δ hδ l hl
    obtain ⟨b, eb, gb⟩ := C32_expression_total δ hδ r hr
    refine ⟨[b, a], by simp only [domArgs, ea, eb], fun d hd => ?_⟩
    simp only [List.mem_cons, List.not_mem_nil, or_false] at hd
    rcases hd with rfl | rfl
    exacts [gb, ga]
  | .extra m x k, hc, h => by
    obtain ⟨_, hm, hx⟩ := h
    obtain ⟨ds, es, gs⟩ := arguments_total δ hδ m hc hm
    obtain ⟨d, ed, gd⟩ := C32_expression_total δ hδ x hx
    refine ⟨d :: ds, by simp only [domArgs, es, ed], fun y hy => ?_⟩
    rcases List.mem_cons.1 hy with rfl | hy
    exacts [gd, gs y hy]
  | .un _ _ _, hc, _ => hc.elim
  | .const _, hc, _ => hc.elim
  | .var _ _, hc, _ => hc.elim
  | .constVar _ _, hc, _ => hc.elim
  | .spot, hc, _ => hc.elim
end

/-- C32, conditions. -/
theorem C32_condition_total (fuzzy : Bool) (δ : Nat → Dom K) (hδ : ∀ i, DomOk (δ i)) : (c : Cond Nat K) → DivsC c →
    ∃ r, domC (fieldOps pow log sqrt exp) fuzzy δ c = some r
  | .cmp op e a f, h => by
    obtain ⟨d, ed, _⟩ := C32_expression_total pow log sqrt exp δ hδ e h
    simp only [domC, ed]
    exact ⟨_, rfl⟩
  | .and l r f, h => by
    obtain ⟨⟨l', p1⟩, el⟩ := C32_condition_total fuzzy δ hδ l h.1
    obtain ⟨⟨r', p2⟩, er⟩ := C32_condition_total fuzzy δ hδ r h.2
    simp only [domC, el, er]
    exact ⟨_, rfl⟩
  | .or l r f, h => by
    obtain ⟨⟨l', p1⟩, el⟩ := C32_condition_total fuzzy δ hδ l h.1
    obtain ⟨⟨r', p2⟩, er⟩ := C32_condition_total fuzzy δ hδ r h.2
    simp only [domC, el, er]
    exact ⟨_, rfl⟩
  | .not c f, h => by
    obtain ⟨⟨c', p⟩, ec⟩ := C32_condition_total fuzzy δ hδ c h
    simp only [domC, ec]
    exact ⟨_, rfl⟩
  | .tt, h => h.elim
  | .ff, h => h.elim

mutual
/-- C32, statements. -/
theorem C32_statement_total (fuzzy : Bool) : (s : Stmt Nat K) → DivsS s → (δ : Nat → Dom K) → (∀ i, DomOk (δ i)) →
    ∃ r, domS (fieldOps pow log sqrt exp) fuzzy s δ = some r ∧ ∀ i, DomOk (r.2 i)
  | .assign x e, h, δ, hδ => by
    obtain ⟨d, ed, gd⟩ := C32_expression_total pow log sqrt exp δ hδ e h
    simp only [domS, ed, Option.map_some]
    exact ⟨_, rfl, fun i => by simp only [upd]; split; exacts [gd, hδ i]⟩
  | .pays x e, h, δ, hδ => by
    obtain ⟨d, ed, gd⟩ := C32_expression_total pow log sqrt exp δ hδ e h
    obtain ⟨p, ep, gp⟩ := domDiv_ex gd halfLine_WF halfLine_inv_ex
    obtain ⟨q, eq, gq⟩ := domBin_all add_sound add_ex (hδ x.v) gp
    simp only [domS, ed, Option.bind_some, ep, eq, Option.map_some]
    exact ⟨_, rfl, fun i => by simp only [upd]; split; exacts [gq, hδ i]⟩
  | .ite c t he e af f, h, δ, hδ => by
    obtain ⟨hc, ht, hE⟩ := h
    obtain ⟨⟨c', p⟩, ec⟩ := C32_condition_total pow log sqrt exp fuzzy δ hδ c hc
    simp only [domS, ec, Option.bind_some]
    cases p with
    | always =>
      obtain ⟨r, er, gr⟩ := C32_statements_total fuzzy t ht δ hδ
      simp only [er, Option.map_some]
      exact ⟨_, rfl, gr⟩
    | never =>
      cases he with
      | true =>
        obtain ⟨r, er, gr⟩ := C32_statements_total fuzzy e hE δ hδ
        simp only [if_true, er, Option.map_some]
        exact ⟨_, rfl, gr⟩
      | false => exact ⟨_, rfl, hδ⟩
    | either =>
      obtain ⟨r1, er1, gr1⟩ := C32_statements_total fuzzy t ht δ hδ
      have gd : ∀ i, DomOk ((fun j => if j ∈ af then δ j else r1.2 j : Nat → Dom K) i) := by
        intro i; dsimp only; split; exacts [hδ i, gr1 i]
      have : ∃ r2, (if he then domSs (fieldOps pow log sqrt exp) fuzzy e (fun j => if j ∈ af then δ j else r1.2 j)
          else some (e, fun j => if j ∈ af then δ j else r1.2 j)) = some r2 ∧ ∀ i, DomOk (r2.2 i) := by
        cases he with
        | true => exact C32_statements_total fuzzy e hE _ gd
        | false => exact ⟨_, rfl, gd⟩
      obtain ⟨r2, er2, gr2⟩ := this
      obtain ⟨δ', ed⟩ := mergeVars_ex r1.2 gr1 af r2.2 gr2
      simp only [er1, Option.bind_some, er2, ed, Option.map_some]
      exact ⟨_, rfl, (mergeVars_spec r1.2 gr1 af r2.2 δ' gr2 ed).1⟩
  | .collect b, h, δ, hδ => by
    obtain ⟨r, er, gr⟩ := C32_statements_total fuzzy b h δ hδ
    simp only [domS, er, Option.map_some]
    exact ⟨_, rfl, gr⟩
/-- C32, an event. -/
theorem C32_statements_total (fuzzy : Bool) : (ss : Stmts Nat K) → DivsSs ss → (δ : Nat → Dom K) → (∀ i, DomOk (δ i)) →
    ∃ r, domSs (fieldOps pow log sqrt exp) fuzzy ss δ = some r ∧ ∀ i, DomOk (r.2 i)
  | .nil, _, δ, hδ => ⟨_, rfl, hδ⟩
  | .cons s ss, h, δ, hδ => by
    obtain ⟨r1, e1, g1⟩ := C32_statement_total fuzzy s h.1 δ hδ
    obtain ⟨r2, e2, g2⟩ := C32_statements_total fuzzy ss h.2 r1.2 g1
    simp only [domSs, e1, Option.bind_some, e2, Option.map_some]
    exact ⟨_, rfl, g2⟩
end

/-- C32, a product: whatever events it has, as long as they divide by nothing but non-zero numbers, constants and
spots, the analysis started from {0} gives domains for all its variables, and no exception leaves it. -/
theorem C32_total (fuzzy : Bool) : (evs : List (Stmts Nat K)) → (∀ ev ∈ evs, DivsSs ev) →
    ∃ r, domEvents (fieldOps pow log sqrt exp) fuzzy evs domInit = some r ∧ ∀ i, DomOk (r.2 i) := by
  have : (evs : List (Stmts Nat K)) → (∀ ev ∈ evs, DivsSs ev) → (δ : Nat → Dom K) → (∀ i, DomOk (δ i)) →
      ∃ r, domEvents (fieldOps pow log sqrt exp) fuzzy evs δ = some r ∧ ∀ i, DomOk (r.2 i) := by
    intro evs
    induction evs with
    | nil => exact fun _ δ hδ => ⟨_, rfl, hδ⟩
    | cons ev evs ih =>
      intro h δ hδ
      obtain ⟨r1, e1, g1⟩ := C32_statements_total pow log sqrt exp fuzzy ev (h ev (by simp)) δ hδ
      obtain ⟨r2, e2, g2⟩ := ih (fun x hx => h x (by simp [hx])) r1.2 g1
      simp only [domEvents, e1, Option.bind_some, e2, Option.map_some]
      exact ⟨_, rfl, g2⟩
  exact fun evs h => this evs h domInit C32_initial.1
end

/-- The hypothesis holds for `x = MAX(SPOT(), 2, x) / 5  IF LOG(x) > 0 THEN y PAYS 1 / SPOT() END`. -/
example : ∀ ev ∈ [(.cons (.assign ⟨0, false⟩ (.bin .div (.extra (.bin .max .spot (.const 2) none) (.var 0 none) none) (.const 5) none))
      (.cons (.ite (.cmp .sup (.bin .sub (.un .log (.var 0 none) none) (.const 0) none) ⟨-1, false, 0, 0⟩ {})
        (.cons (.pays ⟨1, false⟩ (.bin .div (.const 1) .spot none)) .nil) false .nil [1] {}) .nil) : Stmts Nat Rat)], DivsSs ev := by
  simp [DivsSs, DivsS, DivsE, DivsC, Divisor, Call]

/-- Divisions by other things can throw: a divisor whose domain is {0}, here a variable not assigned yet. -/
theorem C32_divisor_violated (pow : K → K → K) (log sqrt exp : K → K) (fuzzy : Bool) (x : Lhs Nat) (j : Nat) (k : Option K) :
    domEvents (fieldOps pow log sqrt exp) fuzzy [.cons (.assign x (.bin .div (.const 1) (.var j k) none)) .nil] domInit = none := by
  simp [domEvents, domSs, domS, domE, domInit, domBin, addAll, Itv.div, Itv.inv, single, Itv.isSingleton]

end Dal
