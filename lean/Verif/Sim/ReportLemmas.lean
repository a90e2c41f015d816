import Verif.Sim.ReportModel
import Verif.Sim.FuzzyTapeProps
import Verif.Sim.NoiseProps

/-! # Lemmas on the slots of a simulation -/

namespace Dal.Report
open Dal.Script Dal.TapeRun Dal.Noise Dal.Models Dal.TimeLine

theorem paths_eq (n : Nat) (ω : Nat → ℝ) : ∀ k pos, pathsFrom n ω k pos = (List.range k).map fun i => numbers (window n (pos + i * n) ω) := by
  intro k
  induction k with
  | zero => intro pos; rfl
  | succ k ih =>
    intro pos
    rw [pathsFrom, ih, List.range_succ_eq_map, List.map_cons, List.map_map]
    refine congrArg₂ _ ?_ ?_
    · funext j
      unfold numbers window
      by_cases h : j < n
      · rw [if_pos h, dif_pos h]; simp
      · rw [if_neg h, dif_neg h]
    · refine List.map_congr_left fun i _ => ?_
      show _ = numbers (window n (pos + (i + 1) * n) ω)
      rw [show pos + n + i * n = pos + (i + 1) * n by rw [Nat.succ_mul]; omega]

/-- A number of a result: the value, or a risk. -/
noncomputable def part : Option Nat → ℝ × List ℝ → ℝ
  | none, x => x.1
  | some i, x => x.2.getD i 0

theorem part_add (c : Option Nat) (x y : ℝ × List ℝ) (h : x.2.length = y.2.length) : part c (addResult x y) = part c x + part c y := by
  cases c with
  | none => rfl
  | some i =>
    show (List.zipWith (· + ·) x.2 y.2).getD i 0 = x.2.getD i 0 + y.2.getD i 0
    simp only [List.getD_eq_getElem?_getD]
    by_cases hi : i < x.2.length
    · rw [List.getElem?_eq_getElem (by simp; omega), List.getElem?_eq_getElem hi, List.getElem?_eq_getElem (h ▸ hi), List.getElem_zipWith]; rfl
    · rw [List.getElem?_eq_none (by simp; omega), List.getElem?_eq_none (by omega), List.getElem?_eq_none (by omega)]; simp

theorem add_length (x y : ℝ × List ℝ) (h : x.2.length = y.2.length) : (addResult x y).2.length = x.2.length := by
  show (List.zipWith (· + ·) x.2 y.2).length = _
  simp [h]

theorem sum_modify (c : Option Nat) (m : Nat) (r : ℝ × List ℝ) (hr : r.2.length = m) : ∀ (l : List (ℝ × List ℝ)) (k : Nat), (∀ x ∈ l, x.2.length = m) → k < l.length →
    ((l.modify k (addResult · r)).map (part c)).sum = (l.map (part c)).sum + part c r := by
  intro l
  induction l with
  | nil => intro k _ h; simp at h
  | cons x l ih =>
    intro k hm h
    cases k with
    | zero =>
      simp only [List.modify_zero_cons, List.map_cons, List.sum_cons]
      rw [part_add c x r (by rw [hm x List.mem_cons_self, hr])]
      ring
    | succ k =>
      simp only [List.length_cons] at h
      simp only [List.modify_succ_cons, List.map_cons, List.sum_cons]
      rw [ih k (fun y hy => hm y (List.mem_cons_of_mem _ hy)) (by omega), add_assoc]

theorem modify_lengths (m : Nat) (r : ℝ × List ℝ) (hr : r.2.length = m) : ∀ (l : List (ℝ × List ℝ)) (k : Nat), (∀ x ∈ l, x.2.length = m) →
    ∀ x ∈ l.modify k (addResult · r), x.2.length = m := by
  intro l
  induction l with
  | nil => intro k _ x h; simp at h
  | cons y l ih =>
    intro k hm x hx
    cases k with
    | zero =>
      rw [List.modify_zero_cons] at hx
      rcases List.mem_cons.1 hx with rfl | hx
      · rw [add_length _ _ (by rw [hm y List.mem_cons_self, hr])]; exact hm y List.mem_cons_self
      · exact hm x (List.mem_cons_of_mem _ hx)
    | succ k =>
      rw [List.modify_succ_cons] at hx
      rcases List.mem_cons.1 hx with rfl | hx
      · exact hm x List.mem_cons_self
      · exact ih k (fun z hz => hm z (List.mem_cons_of_mem _ hz)) x hx

theorem fold_parts (m : Nat) : ∀ (l : List (ℝ × List ℝ)) (z : ℝ × List ℝ), z.2.length = m → (∀ x ∈ l, x.2.length = m) →
    (l.foldl addResult z).2.length = m ∧ ∀ c, part c (l.foldl addResult z) = part c z + (l.map (part c)).sum := by
  intro l
  induction l with
  | nil => intro z hz _; exact ⟨hz, fun c => by simp⟩
  | cons x l ih =>
    intro z hz h
    have hx := h x List.mem_cons_self
    obtain ⟨h1, h2⟩ := ih (addResult z x) ((add_length z x (hz.trans hx.symm)).trans hz) fun y hy => h y (List.mem_cons_of_mem _ hy)
    refine ⟨h1, fun c => ?_⟩
    rw [List.foldl_cons, h2, part_add c z x (hz.trans hx.symm), List.map_cons, List.sum_cons, add_assoc]

/-- The tasks, when each of them has a result. -/
theorem runTasks_spec (lib : Adj.Lib) (eps : ℝ) (p : Scripted) (b : BS ℝ) (consts product : List ℝ) (N : Nat) (gen : Gen) (n : Nat) (ω : Nat → ℝ) (m : Nat)
    (r : (Int × Int) × Nat → ℝ × List ℝ) (hr : ∀ e, vSimulate lib eps p b consts product N (pathsFrom n ω e.1.2.toNat (gen.skip n e.1.1.toNat 0)) = some (r e)) (hm : ∀ e, (r e).2.length = m) :
    ∀ (ex : List ((Int × Int) × Nat)) (slots : List (ℝ × List ℝ)), (∀ x ∈ slots, x.2.length = m) → (∀ e ∈ ex, e.2 < slots.length) →
      ∃ slots', runTasks lib eps p b consts product N gen n ω ex slots = some slots' ∧ (∀ x ∈ slots', x.2.length = m) ∧
        ∀ c, (slots'.map (part c)).sum = (slots.map (part c)).sum + (ex.map fun e => part c (r e)).sum := by
  intro ex
  induction ex with
  | nil => intro slots h _; exact ⟨slots, rfl, h, fun c => by simp⟩
  | cons e ex ih =>
    intro slots h ht
    obtain ⟨s, h1, h2, h3⟩ := ih (slots.modify e.2 (addResult · (r e))) (modify_lengths m (r e) (hm e) slots e.2 h) fun e' he' => by
      rw [List.length_modify]; exact ht e' (List.mem_cons_of_mem _ he')
    refine ⟨s, ?_, h2, fun c => ?_⟩
    · rw [runTasks, task, hr e]
      exact h1
    · rw [h3, sum_modify c m (r e) (hm e) slots e.2 h (ht e List.mem_cons_self), List.map_cons, List.sum_cons, add_assoc]

/-- The whole simulation, when each task has a result. -/
theorem simulation_spec (lib : Adj.Lib) (eps : ℝ) (p : Scripted) (b : BS ℝ) (today : Bool) (consts product : List ℝ) (hne : datesFrom today product ≠ []) (hpos : ∀ t ∈ product, 0 < t) (N : Nat)
    (gen : Gen) (ω : Nat → ℝ)
    (r : (Int × Int) × Nat → ℝ × List ℝ)
    (hr : ∀ e, vSimulate lib eps p b consts (datesFrom today product) N (pathsFrom product.length ω e.1.2.toNat (gen.skip product.length e.1.1.toNat 0)) = some (r e)) (hm : ∀ e, (r e).2.length = 4 + consts.length)
    (threads : Nat) (ex : List ((Int × Int) × Nat)) (ht : ∀ e ∈ ex, e.2 < threads) :
    ∃ res, simulation lib eps p b consts (datesFrom today product) N gen threads ex ω = some res ∧ res.2.length = 4 + consts.length ∧ ∀ c, part c res = (ex.map fun e => part c (r e)).sum := by
  obtain ⟨slots, h1, h2, h3⟩ := runTasks_spec lib eps p b consts (datesFrom today product) N gen product.length ω (4 + consts.length) r hr hm ex
    (List.replicate threads (0, List.replicate (4 + consts.length) 0)) (by intro x hx; rw [List.eq_of_mem_replicate hx]; simp) (by simpa using ht)
  have hz : ∀ c, part c (0, List.replicate (4 + consts.length) 0) = 0 := by
    intro c
    cases c with
    | none => rfl
    | some i =>
      show (List.replicate (4 + consts.length) (0 : ℝ)).getD i 0 = 0
      rw [List.getD_eq_getElem?_getD]
      by_cases hi : i < 4 + consts.length
      · rw [List.getElem?_eq_getElem (by simpa using hi)]; simp
      · rw [List.getElem?_eq_none (by simpa using hi)]; rfl
  obtain ⟨h4, h5⟩ := fold_parts (4 + consts.length) slots (0, List.replicate (4 + consts.length) 0) (by simp) h2
  refine ⟨slots.foldl addResult (0, List.replicate (4 + consts.length) 0), ?_, h4, fun c => ?_⟩
  · rw [simulation, allocate_from today hne hpos]
    dsimp only
    rw [show (0 :: product).length - 1 = product.length by simp, h1]
  · rw [h5, h3, hz, List.map_replicate, hz]
    simp

end Dal.Report
