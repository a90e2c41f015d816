import Verif.Sim.TameSpec
import Verif.Sim.SeasonedProps
import Verif.Script.DomainTotalProps

/-! # Lemmas for C113 -/

namespace Dal.Seasoned
open Dal.Script Dal.Report
variable {ν : Type} [DecidableEq ν]

/-! ### No slot without a name -/

theorem filled_map {A B : Type} (f : A → B) : ∀ l : List A, filled (l.map fun e => some (f e)) = some (l.map f)
  | [] => rfl
  | a :: l => by rw [List.map_cons, filled, filled_map f l]; rfl

private theorem slot_pos (s : Indexer ν ℝ) (hs : Good s) {i : Nat} (hi : i < s.consts.length) : s.consts[i].2.1 = i := by
  have : (s.consts.map fun e => e.2.1)[i]? = some i := by rw [hs.cidx, List.getElem?_range hi]
  rw [List.getElem?_map, List.getElem?_eq_getElem hi] at this
  simpa using this

theorem const_filled (s : Indexer ν ℝ) (hs : Good s) : filled s.constNames = some (s.consts.map (·.1)) ∧ filled s.constValues = some (s.consts.map (·.2.2)) := by
  have hnd : (s.consts.map fun e => e.2.1).Nodup := by rw [hs.cidx]; exact List.nodup_range
  have key : ∀ (A : Type) (g : ν × (Nat × ℝ) → A), s.consts.foldl (fun v e => v.set e.2.1 (some (g e))) (List.replicate s.consts.length none) = s.consts.map fun e => some (g e) := by
    intro A g
    obtain ⟨h1, h2, -⟩ := fill_get (fun e : ν × (Nat × ℝ) => e.2.1) g s.consts (List.replicate s.consts.length none) hnd
    apply List.ext_getElem?
    intro i
    by_cases hi : i < s.consts.length
    · have hp := slot_pos s hs hi
      have := h2 s.consts[i] (List.getElem_mem hi) (by rw [hp]; simpa using hi)
      rw [hp] at this
      rw [this, List.getElem?_map, List.getElem?_eq_getElem hi]
      rfl
    · rw [List.getElem?_eq_none (by rw [h1, List.length_replicate]; omega), List.getElem?_eq_none (by rw [List.length_map]; omega)]
  constructor
  · rw [Indexer.constNames, key ν (·.1), filled_map]
  · rw [Indexer.constValues, key ℝ (·.2.2), filled_map]

/-! ### Tame scripts -/

theorem divs_expr (f g : ν → Nat) : ∀ e : Expr ν ℝ, TameE e → DivsE (e.map f g)
  | .bin op l r k, h => by
    refine ⟨divs_expr f g l h.1, divs_expr f g r h.2.1, fun ho => ?_⟩
    have := h.2.2 ho
    cases r with
    | const c => exact this
    | constVar n c => exact this
    | bin _ _ _ _ => exact this.elim
    | un _ _ _ => exact this.elim
    | extra _ _ _ => exact this.elim
    | var _ _ => exact this.elim
    | spot => exact this.elim
  | .un op a k, h => divs_expr f g a h.1
  | .extra _ _ _, h => h.elim
  | .const _, _ => trivial
  | .var _ _, _ => trivial
  | .constVar _ _, _ => trivial
  | .spot, _ => trivial

theorem divs_cond (f g : ν → Nat) : ∀ c : Cond ν ℝ, TameC c → DivsC (c.map f g)
  | .cmp _ e _ _, h => divs_expr f g e h
  | .and l r _, h => ⟨divs_cond f g l h.1, divs_cond f g r h.2⟩
  | .or l r _, h => ⟨divs_cond f g l h.1, divs_cond f g r h.2⟩
  | .not c _, h => divs_cond f g c h
  | .tt, h => h.elim
  | .ff, h => h.elim

mutual
theorem divs_stmt (f g : ν → Nat) : ∀ (s : Stmt ν ℝ) (st : IfState), Tame s → DivsS (ifStmt st (s.map f g)).2
  | .assign x e, st, h => divs_expr f g e h.2
  | .pays x e, st, h => divs_expr f g e h.2
  | .ite c t he e _ _, st, h => ⟨divs_cond f g c h.1, divs_stmts f g t _ h.2.1, divs_stmts f g e _ h.2.2⟩
  | .collect b, st, h => divs_stmts f g b st h
theorem divs_stmts (f g : ν → Nat) : ∀ (ss : Stmts ν ℝ) (st : IfState), Tames ss → DivsSs (ifStmts st (ss.map f g)).2
  | .nil, st, _ => trivial
  | .cons s ss, st, h => ⟨divs_stmt f g s st h.1, divs_stmts f g ss _ h.2⟩
end

theorem divs_events (f g : ν → Nat) : ∀ (evs : List (Stmts ν ℝ)) (st : IfState), (∀ e ∈ evs, Tames e) → ∀ ev ∈ (ifEvents st (evs.map (Stmts.map f g))).2, DivsSs ev
  | [], st, _ => by intro ev h; cases h
  | e :: evs, st, h => by
    intro ev hev
    rw [List.map_cons, ifEvents] at hev
    rcases List.mem_cons.1 hev with rfl | hev
    · exact divs_stmts f g e st (h e List.mem_cons_self)
    · exact divs_events f g evs _ (fun x hx => h x (List.mem_cons_of_mem _ hx)) ev hev

theorem ifEvents_length : ∀ (evs : List (Stmts Nat ℝ)) (st : IfState), (ifEvents st evs).2.length = evs.length
  | [], _ => rfl
  | e :: evs, st => by rw [ifEvents, List.length_cons, List.length_cons, ifEvents_length evs]

mutual
theorem tame_variable : ∀ s : Stmt ν ℝ, Tame s → Variable s
  | .assign _ _, h => h.1
  | .pays _ _, h => h.1
  | .ite _ t _ e _ _, h => ⟨tame_variables t h.2.1, tame_variables e h.2.2⟩
  | .collect b, h => tame_variables b h
theorem tame_variables : ∀ ss : Stmts ν ℝ, Tames ss → Variables ss
  | .nil, _ => trivial
  | .cons s ss, h => ⟨tame_variable s h.1, tame_variables ss h.2⟩
end

theorem tame_fineE (spot : ℝ) (τ : ν → ℝ) : ∀ e : Expr ν ℝ, TameE e → FineE spot τ e
  | .bin op l r k, h => by
    refine ⟨tame_fineE spot τ l h.1, tame_fineE spot τ r h.2.1, fun ho => ?_⟩
    have := h.2.2 ho
    cases r with
    | const c => exact this
    | constVar n c => exact this
    | bin _ _ _ _ => exact this.elim
    | un _ _ _ => exact this.elim
    | extra _ _ _ => exact this.elim
    | var _ _ => exact this.elim
    | spot => exact this.elim
  | .un op a k, h => ⟨tame_fineE spot τ a h.1, fun ho => absurd ho h.2⟩
  | .extra _ _ _, h => h.elim
  | .const _, _ => trivial
  | .var _ _, _ => trivial
  | .constVar _ _, _ => trivial
  | .spot, _ => trivial

theorem tame_fineC (spot : ℝ) (τ : ν → ℝ) : ∀ c : Cond ν ℝ, TameC c → FineC spot τ c
  | .cmp _ e _ _, h => tame_fineE spot τ e h
  | .and l r _, h => ⟨tame_fineC spot τ l h.1, fun _ => tame_fineC spot τ r h.2⟩
  | .or l r _, h => ⟨tame_fineC spot τ l h.1, fun _ => tame_fineC spot τ r h.2⟩
  | .not c _, h => tame_fineC spot τ c h
  | .tt, h => h.elim
  | .ff, h => h.elim

mutual
theorem tame_fine (num : Option ℝ) (spot : ℝ) : ∀ (s : Stmt ν ℝ) (τ : ν → ℝ), Tame s → FineS num spot s τ
  | .assign _ e, τ, h => tame_fineE spot τ e h.2
  | .pays _ e, τ, h => fun _ => tame_fineE spot τ e h.2
  | .ite c t _ e _ _, τ, h => ⟨tame_fineC spot τ c h.1, fun _ => tame_fines num spot t τ h.2.1, fun _ _ => tame_fines num spot e τ h.2.2⟩
  | .collect b, τ, h => tame_fines num spot b τ h
theorem tame_fines (num : Option ℝ) (spot : ℝ) : ∀ (ss : Stmts ν ℝ) (τ : ν → ℝ), Tames ss → FineSs num spot ss τ
  | .nil, _, _ => trivial
  | .cons s ss, τ, h => ⟨tame_fine num spot s τ h.1, tame_fines num spot ss _ h.2⟩
end

theorem tame_happened : ∀ (evs : List (Happened ν)) (τ : ν → ℝ), (∀ e ∈ evs, Tames e.1) → Fine evs τ
  | [], _, _ => trivial
  | e :: evs, τ, h => ⟨tame_fines _ _ _ _ (h e List.mem_cons_self), tame_happened evs _ fun x hx => h x (List.mem_cons_of_mem _ hx)⟩

end Dal.Seasoned
