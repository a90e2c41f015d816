import Verif.Sim.ReportModel
import Verif.Script.MacroProps
import Verif.Script.ScheduleModel
import Mathlib.Data.List.Forall2

/-! # Lemmas about tables of events, from rows to trees -/

namespace Dal
open Dal.Strings Dal.Script.Events

/-- An event later than all others comes last. -/
theorem table_add_last (m : List (Nat × Str)) (d : Nat) (t : Str) (h : ∀ x ∈ m, x.1 < d) : addEvent d t m = m ++ [(d, t)] := by
  induction m with
  | nil => rfl
  | cons x m ih =>
    have h1 := h x (by simp)
    rw [addEvent, if_neg (by omega), if_neg (by omega), ih (fun y hy => h y (by simp [hy])), List.cons_append]

/-- The events of a schedule behind what is there. -/
theorem table_add_all (f : Nat → Nat → Str) (g : Nat → Str) (hfg : ∀ s e, f s e = g e) : ∀ (ds : List Nat) (b : Nat) (m : List (Nat × Str)), ds.Pairwise (· < ·) → (∀ x ∈ m, ∀ d ∈ ds, x.1 < d) →
    (Script.Sched.periods true (b :: ds)).foldl (fun m p => addEvent p.2.2 (f p.1 p.2.1) m) m = m ++ ds.map fun d => (d, g d) := by
  intro ds
  induction ds with
  | nil => intro b m _ _; simp [Script.Sched.periods]
  | cons d ds ih =>
    intro b m hp hm
    obtain ⟨h1, h2⟩ := List.pairwise_cons.1 hp
    rw [Script.Sched.periods, List.foldl_cons]
    simp only [if_true]
    rw [table_add_last m d _ (fun x hx => hm x hx d (by simp)), hfg, ih d _ h2]
    · simp
    · intro x hx e he
      rcases List.mem_append.1 hx with hx | hx
      · exact hm x hx e (by simp [he])
      · rw [List.mem_singleton.1 hx]
        exact h1 e he

/-- How events are read: the constants of the table are the constants of the parser. -/
noncomputable def withConstants (base : Script.PEnv ℝ) (sgn : Bool) (consts : List (Str × Rat)) : Script.PEnv ℝ := { base with cvs := fun n => (mapFind sgn n consts).map fun r : Rat => (r : ℝ) }

/-- Nothing in the past. -/
theorem table_distribute_future {E : Type} (L : Lib E) (consts : List (Str × Rat)) (evalDate : Nat) : ∀ (l : List (Nat × Str)) (es : List (List E)) (p : Product E),
    List.Forall₂ (fun x e => L.parse consts x.2 = some e) l es → (∀ x ∈ l, evalDate ≤ x.1) →
    distribute L consts evalDate l p = some { p with future := p.future ++ (l.map Prod.fst).zip es } := by
  intro l
  induction l with
  | nil =>
    intro es p h _
    cases h
    simp [distribute]
  | cons x l ih =>
    intro es p h hx
    cases h with
    | cons h1 h2 =>
      rename_i e es
      obtain ⟨d, t⟩ := x
      have h3 : evalDate ≤ d := hx (d, t) (by simp)
      rw [distribute, h1]
      simp only [if_pos h3]
      rw [ih es _ h2 fun y hy => hx y (by simp [hy])]
      simp

theorem table_flat_zip {α β : Type} (l : List α) (m : List (List β)) (h : l.length = m.length) : (l.zip m).flatMap Prod.snd = m.flatten := by
  rw [List.flatMap_def, List.map_snd_zip h.ge]

theorem table_flat_single {α β : Type} (f : α → β) (l : List α) : (l.map fun a => [f a]).flatten = l.map f := by
  induction l with
  | nil => rfl
  | cons a l ih => simp [ih]

end Dal
