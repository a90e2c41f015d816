import Verif.Sim.NoiseLemmas
import Verif.Sim.PriceProps
import Verif.Concurrency.BatchProps
import Verif.Random.SkipProps

/-!
# C102: the error of a simulated mean

Specification: the mean of a payoff and its spread are integrals over the normal numbers of one path. A simulation runs on one endless stream of independent normal numbers; what it
returns is a random variable, whose mean and mean square error are integrals over the stream.
-/

namespace Dal
open Dal.Noise Dal.Batch Dal.Models MeasureTheory ProbabilityTheory

/-- The spread of a payoff around its mean. -/
noncomputable def spread (n : Nat) (f : (Nat → ℝ) → ℝ) : ℝ := gaussMean n fun g => (f g - gaussMean n f) ^ 2

/-- What the simulation returns over the number of paths, for a payoff of the numbers of a path and the numbers of the stream. -/
noncomputable def simulated (tape : Bool) (gen : Gen) (n N threads : Nat) (ex : List ((Int × Int) × Nat)) (f : (Nat → ℝ) → ℝ) (ω : ℕ → ℝ) : ℝ :=
  (if tape then valueTape gen n (fun p => f (numbers (window n p ω))) threads ex else valueDouble gen n (fun p => f (numbers (window n p ω))) ex) / N

/-- A run of all tasks of a simulation of `N` paths, in any order and on any threads. -/
structure Runs (N threads : Nat) (ex : List ((Int × Int) × Nat)) : Prop where
  paths : N < 2 ^ 31 - 1
  some : 0 < N
  tasks : ∃ ts, batches N threads = .some ts ∧ (ex.map (·.1)).Perm ts
  thread : ∀ e ∈ ex, e.2 < threads

/-! ### Where the paths start -/

private def block (n p k : Nat) : List Nat := (List.range k).map fun i => p + i * n

private theorem block_succ (n p k : Nat) : block n p (k + 1) = p :: block n (p + n) k := by
  unfold block
  rw [List.range_succ_eq_map, List.map_cons, List.map_map, Nat.zero_mul, Nat.add_zero]
  congr 1
  refine List.map_congr_left fun i _ => ?_
  simp only [Function.comp, Nat.succ_mul, Nat.succ_eq_add_one]
  omega

private theorem loop_eq (n : Nat) (pay : Nat → ℝ) : ∀ (k p : Nat) (acc : ℝ), taskLoop n pay k p acc = (p + k * n, acc + ((block n p k).map pay).sum) := by
  intro k
  induction k with
  | zero => intro p acc; simp [taskLoop, block]
  | succ k ih =>
    intro p acc
    rw [taskLoop, ih, block_succ, List.map_cons, List.sum_cons]
    refine Prod.ext ?_ ?_
    · show p + n + k * n = p + (k + 1) * n
      rw [Nat.succ_mul]; omega
    · show acc + pay p + _ = acc + (pay p + _)
      rw [add_assoc]

/-- The positions at which the paths start, with doubles. -/
private def startsD (gen : Gen) (n : Nat) : (Nat → Nat) → List ((Int × Int) × Nat) → List Nat
  | _, [] => []
  | pos, e :: ex => block n (gen.skip n e.1.1.toNat (pos e.2)) e.1.2.toNat ++
      startsD gen n (fun th => if th = e.2 then gen.skip n e.1.1.toNat (pos e.2) + e.1.2.toNat * n else pos th) ex

/-- The positions at which the paths start, on the tape. -/
private def startsT (gen : Gen) (n : Nat) (ex : List ((Int × Int) × Nat)) : List Nat := ex.flatMap fun e => block n (gen.skip n e.1.1.toNat 0) e.1.2.toNat

private theorem foldl_sum (l : List ℝ) : l.foldl (· + ·) 0 = l.sum := by rw [List.sum_eq_foldl]

private theorem double_eq (gen : Gen) (n : Nat) (pay : Nat → ℝ) : ∀ (ex : List ((Int × Int) × Nat)) (pos : Nat → Nat) (rs : List ℝ),
    (ex.foldl (runTask gen n pay) (pos, rs)).2.sum = rs.sum + ((startsD gen n pos ex).map pay).sum := by
  intro ex
  induction ex with
  | nil => intro pos rs; simp [startsD]
  | cons e ex ih =>
    intro pos rs
    rw [List.foldl_cons, runTask, startsD]
    simp only [loop_eq]
    rw [ih, List.sum_append, List.map_append, List.sum_append, List.sum_singleton, zero_add, add_assoc]

private theorem sum_modify' (l : List ℝ) : ∀ (k : Nat) (v : ℝ), k < l.length → (l.modify k (· + v)).sum = l.sum + v := by
  induction l with
  | nil => intro k v h; simp at h
  | cons x l ih =>
    intro k v h
    cases k with
    | zero => simp only [List.modify_zero_cons, List.sum_cons]; ring
    | succ k =>
      simp only [List.length_cons] at h
      simp only [List.modify_succ_cons, List.sum_cons]
      rw [ih k v (by omega), add_assoc]

private theorem tape_eq (gen : Gen) (n : Nat) (pay : Nat → ℝ) : ∀ (ex : List ((Int × Int) × Nat)) (slots : List ℝ), (∀ e ∈ ex, e.2 < slots.length) →
    (ex.foldl (tapeTask gen n pay) slots).sum = slots.sum + ((startsT gen n ex).map pay).sum := by
  intro ex
  induction ex with
  | nil => intro slots _; simp [startsT]
  | cons e ex ih =>
    intro slots h
    rw [List.foldl_cons, ih]
    · rw [tapeTask, sum_modify' _ _ _ (h e (List.mem_cons_self ..)), loop_eq, show startsT gen n (e :: ex) = block n (gen.skip n e.1.1.toNat 0) e.1.2.toNat ++ startsT gen n ex from rfl,
        List.map_append, List.sum_append, zero_add, add_assoc]
    · intro e' he'
      rw [tapeTask, List.length_modify]
      exact h e' (List.mem_cons_of_mem _ he')

/-- On the tape each path counts once, at the position where it starts. -/
theorem valueTape_sum (gen : Gen) (n : Nat) (pay : Nat → ℝ) (threads : Nat) (ex : List ((Int × Int) × Nat)) (h : ∀ e ∈ ex, e.2 < threads) :
    valueTape gen n pay threads ex = (ex.map fun e => ((List.range e.1.2.toNat).map fun i => pay (gen.skip n e.1.1.toNat 0 + i * n)).sum).sum := by
  rw [valueTape, foldl_sum, tape_eq _ _ _ _ _ (by simpa using h), List.sum_replicate, smul_zero, zero_add]
  clear h
  induction ex with
  | nil => rfl
  | cons e ex ih =>
    rw [show startsT gen n (e :: ex) = block n (gen.skip n e.1.1.toNat 0) e.1.2.toNat ++ startsT gen n ex from rfl, List.map_append, List.sum_append, ih, List.map_cons, List.sum_cons, block, List.map_map]
    rfl

private def starts (tape : Bool) (gen : Gen) (n : Nat) (ex : List ((Int × Int) × Nat)) : List Nat := if tape then startsT gen n ex else startsD gen n (fun _ => 0) ex

private theorem simulated_eq (tape : Bool) (gen : Gen) (n N threads : Nat) (ex : List ((Int × Int) × Nat)) (ht : ∀ e ∈ ex, e.2 < threads) (f : (Nat → ℝ) → ℝ) (ω : ℕ → ℝ) :
    simulated tape gen n N threads ex f ω = ((starts tape gen n ex).map fun p => f (numbers (window n p ω))).sum / N := by
  unfold simulated starts
  cases tape with
  | true =>
    simp only [if_true]
    rw [valueTape, foldl_sum, tape_eq _ _ _ _ _ (by simpa using ht)]
    simp
  | false =>
    simp only [Bool.false_eq_true, if_false]
    rw [valueDouble, foldl_sum, double_eq]
    simp

private theorem block_length (n p k : Nat) : (block n p k).length = k := by simp [block]

private theorem startsD_length (gen : Gen) (n : Nat) : ∀ (ex : List ((Int × Int) × Nat)) (pos : Nat → Nat), (startsD gen n pos ex).length = (ex.map fun e => e.1.2.toNat).sum := by
  intro ex
  induction ex with
  | nil => intro pos; rfl
  | cons e ex ih => intro pos; rw [startsD, List.length_append, ih, block_length, List.map_cons, List.sum_cons]

private theorem startsT_length (gen : Gen) (n : Nat) (ex : List ((Int × Int) × Nat)) : (startsT gen n ex).length = (ex.map fun e => e.1.2.toNat).sum := by
  rw [startsT, List.length_flatMap]
  simp only [block_length]

private theorem paths_count {N threads : Nat} {ex : List ((Int × Int) × Nat)} (h : Runs N threads ex) (ht : 0 < threads) : (ex.map fun e => e.1.2.toNat).sum = N := by
  obtain ⟨ts, h1, h2⟩ := h.tasks
  obtain ⟨ts', h3, h4⟩ := C38_cover N threads h.paths ht
  rw [h1] at h3
  injection h3 with h3
  subst h3
  have h5 := congrArg List.length h4
  rw [List.length_range, List.length_flatMap] at h5
  rw [← h5, ← (h2.map fun t => (paths t).length).sum_eq, List.map_map]
  congr 1
  refine List.map_congr_left fun e _ => ?_
  simp [paths]

private theorem threads_pos {N threads : Nat} {ex : List ((Int × Int) × Nat)} (h : Runs N threads ex) : 0 < threads := by
  cases ex with
  | cons e ex => exact lt_of_le_of_lt (Nat.zero_le _) (h.thread e (List.mem_cons_self ..))
  | nil =>
    by_contra hc
    have h0 : threads = 0 := by omega
    obtain ⟨ts, h1, h2⟩ := h.tasks
    subst h0
    have hts : ts = [] := by simpa using h2
    subst hts
    have hN := h.some
    have hb := h.paths
    unfold batches batchSize at h1
    rw [Nat.div_zero] at h1
    have hN' : toInt N = N := by
      unfold toInt
      dsimp only
      rw [Nat.mod_eq_of_lt (by omega), if_pos (by omega)]
    rw [hN'] at h1
    have h3 : (if toInt 0 = 2 ^ 31 - 1 then none else some (max BATCH_SIZE (toInt 0 + 1))) = some 1024 := by decide
    dsimp only at h1
    rw [h3] at h1
    simp only [Option.map_some, Option.some.injEq] at h1
    obtain ⟨k, rfl⟩ : ∃ k, N = k + 1 := ⟨N - 1, by omega⟩
    rw [Int.toNat_natCast, loop, if_pos (by omega)] at h1
    cases h1

private theorem starts_length {N threads : Nat} {ex : List ((Int × Int) × Nat)} (h : Runs N threads ex) (tape : Bool) (gen : Gen) (n : Nat) :
    (starts tape gen n ex).length = N := by
  rw [← paths_count h (threads_pos h), starts]
  cases tape with
  | true => rw [if_pos rfl]; exact startsT_length gen n ex
  | false => rw [if_neg (by decide)]; exact startsD_length gen n ex _

/-! ### Means -/

/-- C102, no bias: with either generator, with doubles or on the tape, in whatever order and on whatever threads the tasks run, the mean of what is simulated is the mean of the
payoff of one path. -/
theorem C102_unbiased (tape : Bool) (gen : Gen) (n N threads : Nat) (ex : List ((Int × Int) × Nat)) (h : Runs N threads ex) (f : (Nat → ℝ) → ℝ)
    (hf : Integrable (fun g => f (numbers g)) (Measure.pi fun _ : Fin n => gaussianReal 0 1)) :
    Integrable (simulated tape gen n N threads ex f) noise ∧ ∫ ω, simulated tape gen n N threads ex f ω ∂noise = gaussMean n f := by
  have hi : ∀ p, Integrable (fun ω => f (numbers (window n p ω))) noise := fun p => (window_law n p).integrable_comp_of_integrable hf
  have key : ∀ l : List ℕ, Integrable (fun ω => (l.map fun p => f (numbers (window n p ω))).sum) noise ∧
      ∫ ω, (l.map fun p => f (numbers (window n p ω))).sum ∂noise = l.length * gaussMean n f := by
    intro l
    induction l with
    | nil => simp
    | cons p l ih =>
      simp only [List.map_cons, List.sum_cons, List.length_cons]
      refine ⟨(hi p).add ih.1, ?_⟩
      rw [integral_add (hi p) ih.1, ih.2, window_mean (F := fun g => f (numbers g)) p hf.aestronglyMeasurable, gaussMean]
      push_cast
      ring
  have hN : (N : ℝ) ≠ 0 := by exact_mod_cast h.some.ne'
  rw [show simulated tape gen n N threads ex f = fun ω => ((starts tape gen n ex).map fun p => f (numbers (window n p ω))).sum / N from
    funext fun ω => simulated_eq tape gen n N threads ex h.thread f ω]
  refine ⟨(key _).1.div_const _, ?_⟩
  rw [integral_div, (key _).2, starts_length h, mul_div_cancel_left₀ _ hN]

/-! ### Errors -/

private def pairs (l : List ℕ) : ℕ := (l.map fun p => l.count p).sum

private theorem spread_eq {n : Nat} {f : (Nat → ℝ) → ℝ} (hf : MemLp (fun g => f (numbers g)) 2 (Measure.pi fun _ : Fin n => gaussianReal 0 1)) :
    variance (fun g => f (numbers g)) (Measure.pi fun _ : Fin n => gaussianReal 0 1) = spread n f := by
  rw [variance_eq_integral hf.aestronglyMeasurable.aemeasurable]
  rfl

private theorem error_eq (tape : Bool) (gen : Gen) (n N threads : Nat) (ex : List ((Int × Int) × Nat)) (h : Runs N threads ex) (f : (Nat → ℝ) → ℝ)
    (hf : MemLp (fun g => f (numbers g)) 2 (Measure.pi fun _ : Fin n => gaussianReal 0 1))
    (ha : ∀ p ∈ starts tape gen n ex, ∀ q ∈ starts tape gen n ex, p ≠ q → p + n ≤ q ∨ q + n ≤ p) :
    MemLp (simulated tape gen n N threads ex f) 2 noise ∧
    ∫ ω, (simulated tape gen n N threads ex f ω - gaussMean n f) ^ 2 ∂noise = pairs (starts tape gen n ex) / (N : ℝ) ^ 2 * spread n f := by
  have h1 := C102_unbiased tape gen n N threads ex h f (hf.integrable (by norm_num))
  have hlp : ∀ l : List ℕ, MemLp (fun ω => (l.map fun p => f (numbers (window n p ω))).sum) 2 noise := by
    intro l
    induction l with
    | nil => simp
    | cons p l ih =>
      simp only [List.map_cons, List.sum_cons]
      exact (window_lp (F := fun g => f (numbers g)) p hf).add ih
  have e0 : simulated tape gen n N threads ex f = fun ω => (N : ℝ)⁻¹ * ((starts tape gen n ex).map fun p => f (numbers (window n p ω))).sum := by
    funext ω
    rw [simulated_eq tape gen n N threads ex h.thread f ω, div_eq_inv_mul]
  have hm : MemLp (simulated tape gen n N threads ex f) 2 noise := by
    rw [e0]; exact (hlp _).const_mul _
  refine ⟨hm, ?_⟩
  rw [← h1.2, ← variance_eq_integral hm.aestronglyMeasurable.aemeasurable, e0, variance_const_mul, windows_variance (F := fun g => f (numbers g)) _ hf ha, spread_eq hf, pairs]
  rw [div_eq_inv_mul, inv_pow]
  ring

private theorem pairs_nodup {l : List ℕ} (h : l.Nodup) : pairs l = l.length := by
  unfold pairs
  have : (l.map fun p => l.count p) = l.map fun _ => 1 := List.map_congr_left fun p hp => List.count_eq_one_of_mem h hp
  rw [this]
  simp

private theorem block_multiples (n k : Nat) : block n 0 k = (List.range k).map (· * n) := by
  unfold block
  exact List.map_congr_left fun i _ => by omega

private theorem multiples_apart {n a b : Nat} (h : a * n ≠ b * n) : a * n + n ≤ b * n ∨ b * n + n ≤ a * n := by
  rcases lt_trichotomy a b with hab | hab | hab
  · exact Or.inl (by rw [← Nat.succ_mul]; exact Nat.mul_le_mul_right n hab)
  · exact absurd (by rw [hab]) h
  · exact Or.inr (by rw [← Nat.succ_mul]; exact Nat.mul_le_mul_right n hab)

private theorem range_case {n N : Nat} (hn : 0 < n) {l : List ℕ} (h : l = (List.range N).map (· * n)) :
    (∀ p ∈ l, ∀ q ∈ l, p ≠ q → p + n ≤ q ∨ q + n ≤ p) ∧ pairs l = N := by
  subst h
  refine ⟨?_, ?_⟩
  · intro p hp q hq
    obtain ⟨a, -, rfl⟩ := List.mem_map.1 hp
    obtain ⟨b, -, rfl⟩ := List.mem_map.1 hq
    exact multiples_apart
  · rw [pairs_nodup]
    · simp
    · exact List.Nodup.map (fun a b h => Nat.eq_of_mul_eq_mul_right hn h) List.nodup_range

/-- The tasks of a simulation of at most 1024 paths, or on one thread: there is one. -/
theorem one_task (N threads : Nat) (hN : 0 < N) (hN' : N < 2 ^ 31 - 1) (h : N ≤ 1024 ∨ threads = 1) : batches N threads = some [(0, (N : Int))] := by
  have hi : ∀ k, k < 2 ^ 31 → toInt k = k := by
    intro k hk
    unfold toInt
    dsimp only
    rw [Nat.mod_eq_of_lt (by omega), if_pos hk]
  have hq : N / threads ≤ N := Nat.div_le_self _ _
  unfold batches batchSize
  rw [hi N (by omega), hi (N / threads) (by omega)]
  dsimp only
  rw [if_neg (by omega), Option.map_some, Int.toNat_natCast]
  obtain ⟨k, rfl⟩ : ∃ k, N = k + 1 := ⟨N - 1, by omega⟩
  have hmin : min ((k + 1 : Nat) : Int) (max BATCH_SIZE ((((k + 1) / threads : Nat) : Int) + 1)) = ((k + 1 : Nat) : Int) := by
    rw [min_eq_left]
    rcases h with h | h
    · exact le_max_of_le_left (by unfold BATCH_SIZE; omega)
    · subst h
      rw [Nat.div_one]
      exact le_max_of_le_right (by omega)
  rw [loop, if_pos (by omega)]
  dsimp only
  rw [hmin]
  have : loop (max BATCH_SIZE ((((k + 1) / threads : Nat) : Int) + 1)) k (0 + ((k + 1 : Nat) : Int)) (((k + 1 : Nat) : Int) - ((k + 1 : Nat) : Int)) = [] := by
    cases k with
    | zero => rfl
    | succ k => rw [loop, if_neg (by omega)]
  rw [this]

private theorem one_task_starts {N threads : Nat} {ex : List ((Int × Int) × Nat)} (h : Runs N threads ex) (h1 : N ≤ 1024 ∨ threads = 1) (tape : Bool) (gen : Gen) (n : Nat) :
    starts tape gen n ex = (List.range N).map (· * n) := by
  obtain ⟨ts, h2, h3⟩ := h.tasks
  rw [one_task N threads h.some h.paths h1] at h2
  injection h2 with h2
  subst h2
  rw [List.perm_singleton] at h3
  obtain ⟨e, rfl, he⟩ : ∃ e, ex = [e] ∧ e.1 = (0, (N : Int)) := by
    cases ex with
    | nil => simp at h3
    | cons e ex =>
      cases ex with
      | nil => exact ⟨e, rfl, by simpa using h3⟩
      | cons e' ex => simp at h3
  have hs : gen.skip n e.1.1.toNat 0 = 0 := by
    rw [he]
    cases gen <;> simp [Gen.skip]
  have hk : e.1.2.toNat = N := by rw [he]; exact Int.toNat_natCast _
  cases tape with
  | true => simp [starts, startsT, hs, hk, block_multiples]
  | false => simp [starts, startsD, hs, hk, block_multiples]

/-- C102, the error of one task (missing: several tasks, for which it is not so, see below): up to 1024 paths, or on one thread, the mean square error of what is simulated is the spread of the payoff over the number of paths. -/
theorem C102_error_partial (tape : Bool) (gen : Gen) (n N threads : Nat) (hn : 0 < n) (ex : List ((Int × Int) × Nat)) (h : Runs N threads ex) (h1 : N ≤ 1024 ∨ threads = 1)
    (f : (Nat → ℝ) → ℝ) (hf : MemLp (fun g => f (numbers g)) 2 (Measure.pi fun _ : Fin n => gaussianReal 0 1)) :
    ∫ ω, (simulated tape gen n N threads ex f ω - gaussMean n f) ^ 2 ∂noise = spread n f / N := by
  obtain ⟨h2, h3⟩ := range_case hn (one_task_starts h h1 tape gen n)
  rw [(error_eq tape gen n N threads ex h f hf h2).2, h3]
  have hN : (N : ℝ) ≠ 0 := by exact_mod_cast h.some.ne'
  field_simp

/-- C102, how often the error is large: the probability that what is simulated is off by `c` or more. -/
theorem C102_confidence_partial (tape : Bool) (gen : Gen) (n N threads : Nat) (hn : 0 < n) (ex : List ((Int × Int) × Nat)) (h : Runs N threads ex) (h1 : N ≤ 1024 ∨ threads = 1)
    (f : (Nat → ℝ) → ℝ) (hf : MemLp (fun g => f (numbers g)) 2 (Measure.pi fun _ : Fin n => gaussianReal 0 1)) (c : ℝ) (hc : 0 < c) :
    noise {ω | c ≤ |simulated tape gen n N threads ex f ω - gaussMean n f|} ≤ ENNReal.ofReal (spread n f / N / c ^ 2) := by
  obtain ⟨h2, h3⟩ := range_case hn (one_task_starts h h1 tape gen n)
  have h4 := (error_eq tape gen n N threads ex h f hf h2).1
  have h5 := meas_ge_le_variance_div_sq h4 hc
  rw [variance_eq_integral h4.aestronglyMeasurable.aemeasurable, (C102_unbiased tape gen n N threads ex h f (hf.integrable (by norm_num))).2,
    C102_error_partial tape gen n N threads hn ex h h1 f hf] at h5
  exact h5

/-! ### Numbers used more than once -/

/-- The number of paths that two runs of consecutive paths have in common; a run is its first path and the number of paths. -/
def shared (x y : Nat × Nat) : Nat := min (x.1 + x.2) (y.1 + y.2) - max x.1 y.1

private theorem cross (n a b m : Nat) (hn : 0 < n) : ∀ k, ((block n (a * n) k).map fun p => (block n (b * n) m).count p).sum = shared (a, k) (b, m) := by
  have hb : ∀ c l, block n (c * n) l = (List.range l).map fun i => (c + i) * n := fun c l => by
    unfold block
    exact List.map_congr_left fun i _ => by rw [Nat.add_mul]
  have hinj : ∀ c, Function.Injective fun i => (c + i) * n := fun c i j h => by
    have : c + i = c + j := Nat.eq_of_mul_eq_mul_right hn h
    omega
  have hcount : ∀ x, (block n (b * n) m).count (x * n) = if b ≤ x ∧ x < b + m then 1 else 0 := by
    intro x
    rw [hb]
    split_ifs with h
    · rw [show x * n = (fun i => (b + i) * n) (x - b) by show _ = (b + (x - b)) * n; rw [Nat.add_sub_cancel' h.1], List.count_map_of_injective _ _ (hinj b),
        List.count_eq_one_of_mem List.nodup_range (List.mem_range.2 (by omega))]
    · rw [List.count_eq_zero]
      intro hm
      obtain ⟨i, hi, he⟩ := List.mem_map.1 hm
      have h1 : b + i = x := Nat.eq_of_mul_eq_mul_right hn he
      rw [List.mem_range] at hi
      omega
  intro k
  rw [hb a k, List.map_map]
  induction k with
  | zero => simp [shared]
  | succ k ih =>
    rw [List.range_succ, List.map_append, List.sum_append, ih, List.map_singleton, List.sum_singleton]
    show _ + (block n (b * n) m).count ((a + k) * n) = _
    rw [hcount]
    unfold shared
    dsimp only
    split_ifs with h <;> omega

private theorem sum_add_map {A : Type} (l : List A) (u v : A → Nat) : (l.map fun a => u a + v a).sum = (l.map u).sum + (l.map v).sum := by
  induction l with
  | nil => rfl
  | cons a l ih => simp only [List.map_cons, List.sum_cons, ih]; omega

private theorem blocks_pairs (n : Nat) (hn : 0 < n) (bs : List (Nat × Nat)) :
    pairs (bs.flatMap fun x => block n (x.1 * n) x.2) = (bs.map fun x => (bs.map fun y => shared x y).sum).sum := by
  have hrow : ∀ (x : Nat × Nat) (ys : List (Nat × Nat)), ((block n (x.1 * n) x.2).map fun p => (ys.flatMap fun y => block n (y.1 * n) y.2).count p).sum = (ys.map fun y => shared x y).sum := by
    intro x ys
    induction ys with
    | nil => simp
    | cons y ys ih =>
      simp only [List.flatMap_cons, List.count_append, List.map_cons, List.sum_cons]
      rw [sum_add_map, ih, cross n x.1 y.1 y.2 hn x.2]
  have hall : ∀ (xs ys : List (Nat × Nat)), ((xs.flatMap fun x => block n (x.1 * n) x.2).map fun p => (ys.flatMap fun y => block n (y.1 * n) y.2).count p).sum =
      (xs.map fun x => (ys.map fun y => shared x y).sum).sum := by
    intro xs ys
    induction xs with
    | nil => rfl
    | cons x xs ih => rw [List.flatMap_cons, List.map_append, List.sum_append, hrow, ih, List.map_cons, List.sum_cons]
  exact hall bs bs

private theorem blocks_apart (n : Nat) (bs : List (Nat × Nat)) : ∀ p ∈ bs.flatMap fun x => block n (x.1 * n) x.2, ∀ q ∈ bs.flatMap fun x => block n (x.1 * n) x.2,
    p ≠ q → p + n ≤ q ∨ q + n ≤ p := by
  have hm : ∀ p ∈ bs.flatMap fun x => block n (x.1 * n) x.2, ∃ a, p = a * n := by
    intro p hp
    obtain ⟨x, -, hx⟩ := List.mem_flatMap.1 hp
    obtain ⟨i, -, rfl⟩ := List.mem_map.1 hx
    exact ⟨x.1 + i, by rw [Nat.add_mul]⟩
  intro p hp q hq
  obtain ⟨a, rfl⟩ := hm p hp
  obtain ⟨b, rfl⟩ := hm q hq
  exact multiples_apart

private theorem blocks_error (tape : Bool) (gen : Gen) (n N threads : Nat) (hn : 0 < n) (ex : List ((Int × Int) × Nat)) (h : Runs N threads ex) (f : (Nat → ℝ) → ℝ)
    (hf : MemLp (fun g => f (numbers g)) 2 (Measure.pi fun _ : Fin n => gaussianReal 0 1)) (bs : List (Nat × Nat))
    (hs : starts tape gen n ex = bs.flatMap fun x => block n (x.1 * n) x.2) :
    ∫ ω, (simulated tape gen n N threads ex f ω - gaussMean n f) ^ 2 ∂noise = ((bs.map fun x => (bs.map fun y => shared x y).sum).sum : Nat) / (N : ℝ) ^ 2 * spread n f := by
  rw [(error_eq tape gen n N threads ex h f hf (by rw [hs]; exact blocks_apart n bs)).2, hs, blocks_pairs n hn]

private theorem mrg_double (n : Nat) : ∀ (ex : List ((Int × Int) × Nat)) (pos : Nat → Nat), startsD .mrg n pos ex = startsT .mrg n ex := by
  intro ex
  induction ex with
  | nil => intro pos; rfl
  | cons e ex ih => intro pos; rw [startsD, ih]; rfl

private theorem mrg_starts (tape : Bool) (n : Nat) (ex : List ((Int × Int) × Nat)) (he : ∀ e ∈ ex, 2 ∣ e.1.1.toNat) :
    starts tape .mrg n ex = (ex.map fun e => (e.1.1.toNat / 2, e.1.2.toNat)).flatMap fun x => block n (x.1 * n) x.2 := by
  have h1 : starts tape .mrg n ex = startsT .mrg n ex := by
    cases tape with
    | true => rfl
    | false => exact mrg_double n ex _
  rw [h1, startsT, List.flatMap_map]
  have h2 : ∀ e ∈ ex, block n (Gen.mrg.skip n e.1.1.toNat 0) e.1.2.toNat = block n (e.1.1.toNat / 2 * n) e.1.2.toNat := by
    intro e h
    obtain ⟨c, hc⟩ := he e h
    rw [Gen.skip, hc, Nat.mul_div_cancel_left c (by decide), Nat.mul_assoc, Nat.mul_div_cancel_left _ (by decide)]
  clear h1 he
  induction ex with
  | nil => rfl
  | cons e ex ih =>
    rw [List.flatMap_cons, List.flatMap_cons, h2 e (List.mem_cons_self ..), ih fun e' he' => h2 e' (List.mem_cons_of_mem _ he')]

/-- C102, several tasks with the first generator: its `SkipTo` goes half of the way, so that the tasks use the same numbers; the mean square error counts each pair of paths with the
same numbers. Here the tasks start at even paths. -/
theorem C102_mrg (tape : Bool) (n N threads : Nat) (hn : 0 < n) (ex : List ((Int × Int) × Nat)) (h : Runs N threads ex) (he : ∀ e ∈ ex, 2 ∣ e.1.1.toNat) (f : (Nat → ℝ) → ℝ)
    (hf : MemLp (fun g => f (numbers g)) 2 (Measure.pi fun _ : Fin n => gaussianReal 0 1)) :
    ∫ ω, (simulated tape .mrg n N threads ex f ω - gaussMean n f) ^ 2 ∂noise =
      ((ex.map fun e => (ex.map fun e' => shared (e.1.1.toNat / 2, e.1.2.toNat) (e'.1.1.toNat / 2, e'.1.2.toNat)).sum).sum : Nat) / (N : ℝ) ^ 2 * spread n f := by
  rw [blocks_error tape .mrg n N threads hn ex h f hf _ (mrg_starts tape n ex he), List.map_map]
  simp only [List.map_map, Function.comp_def]

private theorem two_perm {ex : List ((Int × Int) × Nat)} {a b : Int × Int} (h : (ex.map (·.1)).Perm [a, b]) : ∃ e e', ex = [e, e'] ∧ (e.1 = a ∧ e'.1 = b ∨ e.1 = b ∧ e'.1 = a) := by
  have hl := h.length_eq
  rw [List.length_map] at hl
  obtain ⟨e, e', rfl⟩ := List.length_eq_two.1 hl
  refine ⟨e, e', rfl, ?_⟩
  have h1 : [e.1, e'.1].Perm [a, b] := h
  have h2 : e.1 ∈ [a, b] := h1.subset (List.mem_cons_self ..)
  rcases List.mem_pair.1 h2 with h3 | h3
  · rw [h3] at h1
    exact Or.inl ⟨h3, by simpa using h1.cons_inv⟩
  · have h4 : [e.1, e'.1].Perm [b, a] := h1.trans (List.Perm.swap ..)
    rw [h3] at h4
    exact Or.inr ⟨h3, by simpa using h4.cons_inv⟩

/-- C102, not so: with the first generator and two tasks, of `2 * k` and `m` paths, the mean square error is larger than the spread over the number of paths. -/
theorem C102_mrg_violated (tape : Bool) (n N threads k m : Nat) (hn : 0 < n) (hk : 0 < k) (hm : 0 < m) (ex : List ((Int × Int) × Nat)) (h : Runs N threads ex)
    (hb : batches N threads = some [(0, ((2 * k : Nat) : Int)), (((2 * k : Nat) : Int), (m : Int))]) (f : (Nat → ℝ) → ℝ)
    (hf : MemLp (fun g => f (numbers g)) 2 (Measure.pi fun _ : Fin n => gaussianReal 0 1)) (hv : 0 < spread n f) :
    ∫ ω, (simulated tape .mrg n N threads ex f ω - gaussMean n f) ^ 2 ∂noise = ((N : ℝ) + 2 * (min k m : Nat)) / N * (spread n f / N) ∧
      spread n f / N < ∫ ω, (simulated tape .mrg n N threads ex f ω - gaussMean n f) ^ 2 ∂noise := by
  have hN : (0 : ℝ) < N := by exact_mod_cast h.some
  obtain ⟨ts, h1, h2⟩ := h.tasks
  have hc := paths_count h (threads_pos h)
  rw [hb] at h1
  injection h1 with h1
  subst h1
  obtain ⟨e, e', rfl, hee⟩ := two_perm h2
  simp only [List.map_cons, List.map_nil, List.sum_cons, List.sum_nil] at hc
  have key : ∫ ω, (simulated tape .mrg n N threads [e, e'] f ω - gaussMean n f) ^ 2 ∂noise = ((N : ℝ) + 2 * (min k m : Nat)) / N * (spread n f / N) := by
    rw [C102_mrg tape n N threads hn _ h (fun x hx => by
      rcases List.mem_pair.1 hx with rfl | rfl <;> rcases hee with ⟨e1, e2⟩ | ⟨e1, e2⟩ <;> simp only [e1, e2] <;> omega) f hf]
    have hpairs : ([e, e'].map fun x => ([e, e'].map fun y => shared (x.1.1.toNat / 2, x.1.2.toNat) (y.1.1.toNat / 2, y.1.2.toNat)).sum).sum = N + 2 * min k m := by
      simp only [List.map_cons, List.map_nil, List.sum_cons, List.sum_nil, shared]
      rcases hee with ⟨e1, e2⟩ | ⟨e1, e2⟩ <;> simp only [e1, e2, Int.toNat_natCast, Int.toNat_zero] at hc ⊢ <;> omega
    rw [hpairs]
    push_cast
    field_simp
  refine ⟨key, ?_⟩
  rw [key]
  have hmin : (0 : ℝ) < (min k m : Nat) := by exact_mod_cast lt_min hk hm
  have h3 : 1 < ((N : ℝ) + 2 * (min k m : Nat)) / N := by rw [lt_div_iff₀ hN]; linarith
  have h4 : 0 < spread n f / N := div_pos hv hN
  nlinarith

private theorem irn_tape (n : Nat) (ex : List ((Int × Int) × Nat)) : starts true .irn n ex = (ex.map fun e => (0, e.1.2.toNat)).flatMap fun x => block n (x.1 * n) x.2 := by
  show startsT .irn n ex = _
  rw [startsT, List.flatMap_map]
  simp only [Gen.skip, Nat.zero_mul]

/-- C102, the second generator on the tape: every task starts with the same numbers, and the mean square error counts the paths that each two tasks have in common. -/
theorem C102_irn (n N threads : Nat) (hn : 0 < n) (ex : List ((Int × Int) × Nat)) (h : Runs N threads ex) (f : (Nat → ℝ) → ℝ)
    (hf : MemLp (fun g => f (numbers g)) 2 (Measure.pi fun _ : Fin n => gaussianReal 0 1)) :
    ∫ ω, (simulated true .irn n N threads ex f ω - gaussMean n f) ^ 2 ∂noise =
      ((ex.map fun e => (ex.map fun e' => min e.1.2.toNat e'.1.2.toNat).sum).sum : Nat) / (N : ℝ) ^ 2 * spread n f := by
  rw [blocks_error true .irn n N threads hn ex h f hf _ (irn_tape n ex), List.map_map]
  simp only [List.map_map, Function.comp_def, shared, Nat.zero_add, Nat.max_self, Nat.sub_zero]

private theorem irn_same (n th : Nat) : ∀ (ex : List ((Int × Int) × Nat)) (pos : Nat → Nat) (a : Nat), (∀ e ∈ ex, e.2 = th) → pos th = a * n →
    startsD .irn n pos ex = (List.range (ex.map fun e => e.1.2.toNat).sum).map fun i => (a + i) * n := by
  intro ex
  induction ex with
  | nil => intro pos a _ _; rfl
  | cons e ex ih =>
    intro pos a h hp
    have h0 : e.2 = th := h e (List.mem_cons_self ..)
    rw [startsD, Gen.skip, h0, ih _ (a + e.1.2.toNat) (fun e' he' => h e' (List.mem_cons_of_mem _ he')) (by rw [if_pos rfl, hp, Nat.add_mul]), hp, List.map_cons, List.sum_cons, List.range_add,
      List.map_append, List.map_map]
    congr 1
    · unfold block
      exact List.map_congr_left fun i _ => by rw [Nat.add_mul]
    · exact List.map_congr_left fun i _ => by simp only [Function.comp]; rw [Nat.add_assoc]

/-- C102, the second generator with doubles: if one thread happens to run all tasks, the error is as it should be. -/
theorem C102_irn_one_thread (n N threads th : Nat) (hn : 0 < n) (ex : List ((Int × Int) × Nat)) (h : Runs N threads ex) (hth : ∀ e ∈ ex, e.2 = th) (f : (Nat → ℝ) → ℝ)
    (hf : MemLp (fun g => f (numbers g)) 2 (Measure.pi fun _ : Fin n => gaussianReal 0 1)) :
    ∫ ω, (simulated false .irn n N threads ex f ω - gaussMean n f) ^ 2 ∂noise = spread n f / N := by
  have hs : starts false .irn n ex = (List.range N).map (· * n) := by
    show startsD .irn n _ ex = _
    rw [irn_same n th ex _ 0 hth (Nat.zero_mul n).symm, paths_count h (threads_pos h)]
    exact List.map_congr_left fun i _ => by rw [Nat.zero_add]
  obtain ⟨h2, h3⟩ := range_case hn hs
  rw [(error_eq false .irn n N threads ex h f hf h2).2, h3]
  have hN : (N : ℝ) ≠ 0 := by exact_mod_cast h.some.ne'
  field_simp

/-- C102, not so: if two threads share two tasks, of `k` and `m` paths, with the second generator, the mean square error is larger, with doubles as on the tape: with doubles, what a
simulation returns depends on the schedule. -/
theorem C102_irn_violated (tape : Bool) (n N threads k m t t' : Nat) (hn : 0 < n) (hk : 0 < k) (hm : 0 < m) (htt : t ≠ t')
    (h : Runs N threads [((0, (k : Int)), t), (((k : Int), (m : Int)), t')]) (f : (Nat → ℝ) → ℝ)
    (hf : MemLp (fun g => f (numbers g)) 2 (Measure.pi fun _ : Fin n => gaussianReal 0 1)) (hv : 0 < spread n f) :
    ∫ ω, (simulated tape .irn n N threads [((0, (k : Int)), t), (((k : Int), (m : Int)), t')] f ω - gaussMean n f) ^ 2 ∂noise = ((N : ℝ) + 2 * (min k m : Nat)) / N * (spread n f / N) ∧
      spread n f / N < ∫ ω, (simulated tape .irn n N threads [((0, (k : Int)), t), (((k : Int), (m : Int)), t')] f ω - gaussMean n f) ^ 2 ∂noise := by
  have hN : (0 : ℝ) < N := by exact_mod_cast h.some
  have hc := paths_count h (threads_pos h)
  simp only [List.map_cons, List.map_nil, List.sum_cons, List.sum_nil, Int.toNat_natCast] at hc
  have hs : starts tape .irn n [((0, (k : Int)), t), (((k : Int), (m : Int)), t')] = [(0, k), (0, m)].flatMap fun x => block n (x.1 * n) x.2 := by
    cases tape with
    | true => rw [irn_tape]; simp
    | false =>
      show startsD .irn n _ _ = _
      simp [startsD, Gen.skip, Ne.symm htt]
  have key : ∫ ω, (simulated tape .irn n N threads [((0, (k : Int)), t), (((k : Int), (m : Int)), t')] f ω - gaussMean n f) ^ 2 ∂noise =
      ((N : ℝ) + 2 * (min k m : Nat)) / N * (spread n f / N) := by
    rw [blocks_error tape .irn n N threads hn _ h f hf _ hs]
    have hpairs : ([(0, k), (0, m)].map fun x => ([(0, k), (0, m)].map fun y => shared x y).sum).sum = N + 2 * min k m := by
      simp only [List.map_cons, List.map_nil, List.sum_cons, List.sum_nil, shared]
      omega
    rw [hpairs]
    push_cast
    field_simp
  refine ⟨key, ?_⟩
  rw [key]
  have hmin : (0 : ℝ) < (min k m : Nat) := by exact_mod_cast lt_min hk hm
  have h3 : 1 < ((N : ℝ) + 2 * (min k m : Nat)) / N := by rw [lt_div_iff₀ hN]; linarith
  have h4 : 0 < spread n f / N := div_pos hv hN
  nlinarith

/-- C102, the positions are those of the generators: `SkipTo` of the first leaves the state after as many draws as the position says, and that of the second leaves its state. -/
theorem C102_positions (a b n first pos : Nat) (ha : a < Rng.m1) (hb : b < Rng.m2) (hp : first * n < 2 ^ 64) (s : Rng.Irn) :
    Rng.Mrg.skipTo a b n first = Rng.Mrg.steps (Gen.mrg.skip n first pos) (Rng.Mrg.reset a b) ∧ s.skipTo first = s ∧ Gen.irn.skip n first pos = pos :=
  ⟨C40_mrg_half_partial a b n first ha hb hp, rfl, rfl⟩

/-! ### The hypotheses hold -/

/-- 2046 paths on two threads: the tasks start at paths 0 and 1024. -/
example : Runs 2046 2 [((0, ((2 * 512 : Nat) : Int)), 1), ((((2 * 512 : Nat) : Int), ((1022 : Nat) : Int)), 0)] ∧
    batches 2046 2 = some [(0, ((2 * 512 : Nat) : Int)), (((2 * 512 : Nat) : Int), ((1022 : Nat) : Int))] :=
  ⟨⟨by decide, by decide, ⟨[(0, 1024), (1024, 1022)], by decide, by exact List.Perm.refl _⟩, by decide⟩, by decide⟩

/-- 1000 paths on sixteen threads are one task. -/
example : Runs 1000 16 [((0, 1000), 7)] := ⟨by decide, by decide, ⟨[(0, 1000)], by decide, by exact List.Perm.refl _⟩, by decide⟩

/-- The first number of a path is square integrable and its spread is one. -/
example : MemLp (fun g : Fin 1 → ℝ => numbers g 0) 2 (Measure.pi fun _ : Fin 1 => gaussianReal 0 1) ∧ spread 1 (fun g => g 0) = 1 := by
  have h0 : (fun g : Fin 1 → ℝ => numbers g 0) = (fun x : ℝ => x) ∘ fun g : Fin 1 → ℝ => g 0 := rfl
  have hp := measurePreserving_eval (fun _ : Fin 1 => gaussianReal 0 1) 0
  have hm : MemLp (fun g : Fin 1 → ℝ => numbers g 0) 2 (Measure.pi fun _ : Fin 1 => gaussianReal 0 1) := by
    rw [h0]
    exact (memLp_id_gaussianReal 2).comp_measurePreserving hp
  refine ⟨hm, ?_⟩
  rw [← spread_eq hm, h0, ← variance_map (by rw [hp.map_eq]; exact aemeasurable_id') hp.measurable.aemeasurable, hp.map_eq]
  simpa using variance_fun_id_gaussianReal (μ := 0) (v := 1)

end Dal
