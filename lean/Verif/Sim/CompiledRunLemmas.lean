import Verif.Sim.CompiledRunModel
import Verif.Sim.ReportLemmas

/-! # Lemmas on the slots of a compiled simulation -/

namespace Dal.Report
open Dal.Script Dal.TapeRun Dal.Noise Dal.Models Dal.TimeLine

/-- The tasks, when each of them has a result. -/
theorem cTasks_spec (lib : Adj.Lib) (eps : ℝ) (fuel : Nat) (p : TapeRun.Product) (b : BS ℝ) (consts product : List ℝ) (N : Nat) (gen : Gen) (n : Nat) (ω : Nat → ℝ) (m : Nat)
    (r : (Int × Int) × Nat → ℝ × List ℝ) (hm : ∀ e, (r e).2.length = m) :
    ∀ (ex : List ((Int × Int) × Nat)) (slots : List (ℝ × List ℝ)), (∀ e ∈ ex, tSimulate lib eps fuel p b consts product N (pathsFrom n ω e.1.2.toNat (gen.skip n e.1.1.toNat 0)) = some (r e)) →
      (∀ x ∈ slots, x.2.length = m) → (∀ e ∈ ex, e.2 < slots.length) →
      ∃ slots', cTasks lib eps fuel p b consts product N gen n ω ex slots = some slots' ∧ (∀ x ∈ slots', x.2.length = m) ∧
        ∀ c, (slots'.map (part c)).sum = (slots.map (part c)).sum + (ex.map fun e => part c (r e)).sum := by
  intro ex
  induction ex with
  | nil => intro slots _ h _; exact ⟨slots, rfl, h, fun c => by simp⟩
  | cons e ex ih =>
    intro slots hr h ht
    obtain ⟨s, h1, h2, h3⟩ := ih (slots.modify e.2 (addResult · (r e))) (fun e' he' => hr e' (List.mem_cons_of_mem _ he')) (modify_lengths m (r e) (hm e) slots e.2 h) fun e' he' => by
      rw [List.length_modify]; exact ht e' (List.mem_cons_of_mem _ he')
    refine ⟨s, ?_, h2, fun c => ?_⟩
    · rw [cTasks, cTask, hr e List.mem_cons_self]
      exact h1
    · rw [h3, sum_modify c m (r e) (hm e) slots e.2 h (ht e List.mem_cons_self), List.map_cons, List.sum_cons, add_assoc]

/-- The whole simulation, when each task has a result. -/
theorem cSimulation_spec (lib : Adj.Lib) (eps : ℝ) (fuel : Nat) (p : TapeRun.Product) (b : BS ℝ) (today : Bool) (consts product : List ℝ) (hne : datesFrom today product ≠ []) (hpos : ∀ t ∈ product, 0 < t) (N : Nat)
    (gen : Gen) (ω : Nat → ℝ)
    (r : (Int × Int) × Nat → ℝ × List ℝ)
    (hm : ∀ e, (r e).2.length = 4 + consts.length)
    (threads : Nat) (ex : List ((Int × Int) × Nat)) (ht : ∀ e ∈ ex, e.2 < threads)
    (hr : ∀ e ∈ ex, tSimulate lib eps fuel p b consts (datesFrom today product) N (pathsFrom product.length ω e.1.2.toNat (gen.skip product.length e.1.1.toNat 0)) = some (r e)) :
    ∃ res, cSimulation lib eps fuel p b consts (datesFrom today product) N gen threads ex ω = some res ∧ res.2.length = 4 + consts.length ∧ ∀ c, part c res = (ex.map fun e => part c (r e)).sum := by
  obtain ⟨slots, h1, h2, h3⟩ := cTasks_spec lib eps fuel p b consts (datesFrom today product) N gen product.length ω (4 + consts.length) r hm ex
    (List.replicate threads (0, List.replicate (4 + consts.length) 0)) hr (by intro x hx; rw [List.eq_of_mem_replicate hx]; simp) (by simpa using ht)
  have hz : ∀ c, part c (0, List.replicate (4 + consts.length) 0) = 0 := by
    intro c
    cases c with
    | none => rfl
    | some i =>
      show (List.replicate (4 + consts.length) (0 : ℝ)).getD i 0 = 0
      rw [List.getD_eq_getElem?_getD]
      by_cases hi : i < 4 + consts.length
      · rw [List.getElem?_eq_getElem (by simpa using hi)]; simp
      · rw [List.getElem?_eq_none (by simpa using hi)]; rfl
  obtain ⟨h4, h5⟩ := fold_parts (4 + consts.length) slots (0, List.replicate (4 + consts.length) 0) (by simp) h2
  refine ⟨slots.foldl addResult (0, List.replicate (4 + consts.length) 0), ?_, h4, fun c => ?_⟩
  · rw [cSimulation, allocate_from today hne hpos]
    dsimp only
    rw [show (0 :: product).length - 1 = product.length by simp, h1]
  · rw [h5, h3, hz, List.map_replicate, hz]
    simp

/-- The paths of a task, when one of them has no result. -/
theorem tPaths_none (lib : Adj.Lib) (eps : ℝ) (fuel : Nat) (p : TapeRun.Product) (bs : Base) (today : Bool) (g : Nat → ℝ) (hg : ∀ adj, tOne lib eps fuel p bs today g adj = none) :
    ∀ (gs : List (Nat → ℝ)) (sum : ℝ) (adj : Nat → ℝ), g ∈ gs → tPaths lib eps fuel p bs today gs sum adj = none := by
  intro gs
  induction gs with
  | nil => intro _ _ h; cases h
  | cons a gs ih =>
    intro sum adj h
    rw [tPaths]
    rcases List.mem_cons.1 h with rfl | h
    · rw [hg]
    · cases tOne lib eps fuel p bs today a adj with
      | none => rfl
      | some r => exact ih _ _ h

/-- The tasks, when one of them has no result. -/
theorem cTasks_none (lib : Adj.Lib) (eps : ℝ) (fuel : Nat) (p : TapeRun.Product) (b : BS ℝ) (consts product : List ℝ) (N : Nat) (gen : Gen) (n : Nat) (ω : Nat → ℝ) (e : (Int × Int) × Nat)
    (he : tSimulate lib eps fuel p b consts product N (pathsFrom n ω e.1.2.toNat (gen.skip n e.1.1.toNat 0)) = none) :
    ∀ (ex : List ((Int × Int) × Nat)) (slots : List (ℝ × List ℝ)), e ∈ ex → cTasks lib eps fuel p b consts product N gen n ω ex slots = none := by
  intro ex
  induction ex with
  | nil => intro _ h; cases h
  | cons a ex ih =>
    intro slots h
    rw [cTasks]
    rcases List.mem_cons.1 h with rfl | h
    · rw [cTask, he]
    · cases cTask lib eps fuel p b consts product N gen n ω slots a with
      | none => rfl
      | some r => exact ih _ h

end Dal.Report
