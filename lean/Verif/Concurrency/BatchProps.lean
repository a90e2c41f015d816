import Mathlib.Algebra.BigOperators.Group.List.Basic
import Mathlib.Data.List.Perm.Basic
import Verif.Concurrency.BatchModel

/-! # C38: Monte Carlo batching -/

namespace Dal

open Dal.Batch

private theorem loop_spec (b : Nat) (hb : 0 < b) : ∀ (fuel f left : Nat), left ≤ fuel →
    ((loop b fuel f left).flatMap paths = (List.range left).map (f + ·)) ∧
    (∀ t ∈ loop b fuel f left, 1 ≤ t.2 ∧ t.2 ≤ b ∧ (f : Int) ≤ t.1 ∧ t.1 + t.2 ≤ f + left) ∧
    ((loop b fuel f left).length * b < left + b) := by
  intro fuel
  induction fuel with
  | zero =>
    intro f left h
    have : left = 0 := by omega
    subst this
    refine ⟨by simp [loop], by simp [loop], by simp [loop, hb]⟩
  | succ fuel ih =>
    intro f left h
    rw [loop]
    by_cases hl : left = 0
    · subst hl
      simp [hb]
    · have hpos : (0 : Int) < (left : Int) := by omega
      rw [if_pos hpos]
      dsimp only
      have hk : min (left : Int) (b : Int) = ((min left b : Nat) : Int) := by omega
      have hs : (left : Int) - ((min left b : Nat) : Int) = ((left - min left b : Nat) : Int) := by omega
      have hf : (f : Int) + ((min left b : Nat) : Int) = ((f + min left b : Nat) : Int) := by omega
      rw [hk, hs, hf]
      obtain ⟨h1, h2, h3⟩ := ih (f + min left b) (left - min left b) (by omega)
      refine ⟨?_, ?_, ?_⟩
      · rw [List.flatMap_cons, h1]
        simp only [paths, Int.toNat_natCast]
        have hr : left = min left b + (left - min left b) := by omega
        conv_rhs => rw [hr, List.range_add, List.map_append, List.map_map]
        congr 1
        apply List.map_congr_left
        intro i _
        simp only [Function.comp]
        omega
      · intro t ht
        rcases List.mem_cons.1 ht with rfl | ht
        · dsimp only
          omega
        · have := h2 t ht
          omega
      · rw [List.length_cons, Nat.add_mul, Nat.one_mul]
        by_cases hlb : left ≤ b
        · have hz : left - min left b = 0 := by omega
          rw [hz] at h3 ⊢
          have h4 : (loop b fuel ((f + min left b : Nat) : Int) ((0 : Nat) : Int)).length = 0 := by
            cases fuel <;> simp [loop]
          rw [h4]
          omega
        · omega

/-- C38: the number of paths fits an `int` with room for one more: the loop sees the real number. -/
private theorem batches_eq {n threads : Nat} (hn : n < 2 ^ 31 - 1) (_ht : 0 < threads) :
    batchSize n threads = some ((max 1024 (n / threads + 1) : Nat) : Int) ∧
      batches n threads = some (loop ((max 1024 (n / threads + 1) : Nat) : Int) n ((0 : Nat) : Int) (n : Int)) := by
  have hq : n / threads ≤ n := Nat.div_le_self _ _
  have h1 : toInt n = (n : Int) := by
    unfold toInt
    dsimp only
    rw [Nat.mod_eq_of_lt (by omega), if_pos (by omega)]
  have h2 : toInt (n / threads) = ((n / threads : Nat) : Int) := by
    unfold toInt
    dsimp only
    rw [Nat.mod_eq_of_lt (by omega), if_pos (by omega)]
  have h3 : batchSize n threads = some ((max 1024 (n / threads + 1) : Nat) : Int) := by
    unfold batchSize
    dsimp only
    rw [h2, if_neg (by omega)]
    congr 1
    unfold BATCH_SIZE
    omega
  refine ⟨h3, ?_⟩
  unfold batches
  rw [h3, h1]
  simp

/-- C38: for every number of paths below 2^31 - 1 and every number of threads, the tasks cover the path indices 0, 1, ..., n - 1
exactly once and in order. -/
theorem C38_cover (n threads : Nat) (hn : n < 2 ^ 31 - 1) (ht : 0 < threads) :
    ∃ ts, batches n threads = some ts ∧ ts.flatMap paths = List.range n := by
  obtain ⟨_, h2⟩ := batches_eq hn ht
  refine ⟨_, h2, ?_⟩
  have := (loop_spec (max 1024 (n / threads + 1)) (by omega) n 0 n (Nat.le_refl _)).1
  rw [this]
  simp

/-- C38: each task has between one path and the batch size, inside the range of paths. -/
theorem C38_within (n threads : Nat) (hn : n < 2 ^ 31 - 1) (ht : 0 < threads) (ts : List (Int × Int)) (h : batches n threads = some ts) :
    ∃ b, batchSize n threads = some b ∧ ∀ t ∈ ts, 1 ≤ t.2 ∧ t.2 ≤ b ∧ 0 ≤ t.1 ∧ t.1 + t.2 ≤ n := by
  obtain ⟨h1, h2⟩ := batches_eq hn ht
  rw [h2] at h
  injection h with h
  subst h
  refine ⟨_, h1, fun t ht' => ?_⟩
  have := (loop_spec (max 1024 (n / threads + 1)) (by omega) n 0 n (Nat.le_refl _)).2.1 t ht'
  omega

/-- C38: the number of tasks never exceeds the capacity reserved for their results, so that the references handed to running tasks
stay valid; nor does it exceed the number of threads. -/
theorem C38_capacity (n threads : Nat) (hn : n < 2 ^ 31 - 1) (ht : 0 < threads) (ts : List (Int × Int)) (b : Int)
    (h : batches n threads = some ts) (hb : batchSize n threads = some b) : ts.length ≤ reserved n b ∧ ts.length ≤ threads := by
  obtain ⟨h1, h2⟩ := batches_eq hn ht
  rw [h2] at h
  rw [h1] at hb
  injection h with h
  injection hb with hb
  subst h
  subst hb
  have h3 := (loop_spec (max 1024 (n / threads + 1)) (by omega) n 0 n (Nat.le_refl _)).2.2
  have h5 : n < (n / threads + 1) * threads := by
    have := Nat.lt_div_mul_add ht (a := n)
    rw [Nat.add_mul, Nat.one_mul]
    omega
  have h6 : n / threads + 1 ≤ max 1024 (n / threads + 1) := by omega
  have hbpos : 0 < max 1024 (n / threads + 1) := by omega
  unfold reserved
  simp only [Int.toNat_natCast]
  generalize max 1024 (n / threads + 1) = b at *
  generalize (loop (b : Int) n ((0 : Nat) : Int) (n : Int)).length = L at *
  constructor
  · have h4 : n < (n / b + 1) * b := by
      have := Nat.lt_div_mul_add hbpos (a := n)
      rw [Nat.add_mul, Nat.one_mul]
      omega
    have : L * b < (n / b + 1 + 1) * b := by
      rw [Nat.add_mul, Nat.one_mul]
      omega
    exact Nat.le_of_lt_succ (Nat.lt_of_mul_lt_mul_right this)
  · have h7 : (n / threads + 1) * threads ≤ b * threads := Nat.mul_le_mul_right _ h6
    have h8 : L * b < (threads + 1) * b := by
      rw [Nat.add_mul, Nat.one_mul]
      have : threads * b = b * threads := Nat.mul_comm _ _
      omega
    exact Nat.le_of_lt_succ (Nat.lt_of_mul_lt_mul_right h8)

variable {R : Type} [AddCommMonoid R]

private theorem foldl_add (l : List R) : ∀ a, l.foldl (· + ·) a = a + l.sum := by
  induction l with
  | nil => intro a; simp
  | cons x l ih => intro a; rw [List.foldl_cons, ih, List.sum_cons, add_assoc]

private theorem taskSum_eq (payoff : Nat → R) (t : Int × Int) : taskSum payoff t = ((paths t).map payoff).sum := by
  unfold taskSum
  have : ∀ (l : List Nat) (a : R), l.foldl (fun acc i => acc + payoff i) a = a + (l.map payoff).sum := by
    intro l
    induction l with
    | nil => intro a; simp
    | cons x l ih => intro a; rw [List.foldl_cons, ih, List.map_cons, List.sum_cons, add_assoc]
  rw [this, zero_add]

private theorem sum_tasks (payoff : Nat → R) (ts : List (Int × Int)) : (ts.map (taskSum payoff)).sum = ((ts.flatMap paths).map payoff).sum := by
  induction ts with
  | nil => simp
  | cons t ts ih => rw [List.map_cons, List.sum_cons, ih, List.flatMap_cons, List.map_append, List.sum_append, taskSum_eq]

/-- C38: the value computed with doubles is the sum over all paths. -/
theorem C38_value (n threads : Nat) (hn : n < 2 ^ 31 - 1) (ht : 0 < threads) (ts : List (Int × Int)) (h : batches n threads = some ts)
    (payoff : Nat → R) : valueOf payoff ts = ((List.range n).map payoff).sum := by
  obtain ⟨ts', h1, h2⟩ := C38_cover n threads hn ht
  rw [h] at h1
  injection h1 with h1
  subst h1
  unfold valueOf
  rw [foldl_add, zero_add, sum_tasks, h2]

private theorem sum_modify (l : List R) : ∀ (k : Nat) (v : R), k < l.length → (l.modify k (· + v)).sum = l.sum + v := by
  induction l with
  | nil => intro k v h; simp at h
  | cons x l ih =>
    intro k v h
    cases k with
    | zero => simp only [List.modify_zero_cons, List.sum_cons]; rw [add_assoc, add_comm v, ← add_assoc]
    | succ k =>
      simp only [List.length_cons] at h
      simp only [List.modify_succ_cons, List.sum_cons]
      rw [ih k v (by omega), add_assoc]

private theorem slots_sum (payoff : Nat → R) : ∀ (ex : List ((Int × Int) × Nat)) (slots : List R), (∀ e ∈ ex, e.2 < slots.length) →
    (ex.foldl (runOn payoff) slots).sum = slots.sum + ((ex.map (·.1)).map (taskSum payoff)).sum := by
  intro ex
  induction ex with
  | nil => intro slots _; simp
  | cons e ex ih =>
    intro slots h
    rw [List.foldl_cons, ih]
    · unfold runOn
      rw [sum_modify _ _ _ (h e (List.mem_cons_self ..)), List.map_cons, List.map_cons, List.sum_cons, add_assoc]
    · intro e' he'
      unfold runOn
      rw [List.length_modify]
      exact h e' (List.mem_cons_of_mem _ he')

/-- C38: with one slot per thread, whichever thread runs which task and in whatever order, the value is the same sum. -/
theorem C38_any_schedule (n threads : Nat) (hn : n < 2 ^ 31 - 1) (ht : 0 < threads) (ts : List (Int × Int)) (h : batches n threads = some ts)
    (payoff : Nat → R) (ex : List ((Int × Int) × Nat)) (hperm : (ex.map (·.1)).Perm ts) (hthread : ∀ e ∈ ex, e.2 < threads) :
    valueAAD payoff threads ex = ((List.range n).map payoff).sum := by
  obtain ⟨ts', h1, h2⟩ := C38_cover n threads hn ht
  rw [h] at h1
  injection h1 with h1
  subst h1
  unfold valueAAD
  rw [foldl_add, zero_add, slots_sum payoff ex _ (by simpa using hthread), (hperm.map (taskSum payoff)).sum_eq, sum_tasks, h2]
  simp

/-- C38, not so: with 2^31 paths there is no task at all, and the value is 0. -/
theorem C38_no_paths_violated (threads : Nat) (ht : 2 ≤ threads) (payoff : Nat → R) :
    batches (2 ^ 31) threads = some [] ∧ valueOf payoff [] = 0 := by
  refine ⟨?_, rfl⟩
  have hq : 2 ^ 31 / threads ≤ 2 ^ 31 / 2 := Nat.div_le_div_left ht (by decide)
  have h2 : toInt (2 ^ 31 / threads) = ((2 ^ 31 / threads : Nat) : Int) := by
    unfold toInt
    dsimp only
    rw [Nat.mod_eq_of_lt (by omega), if_pos (by omega)]
  have h1 : toInt (2 ^ 31) = -2 ^ 31 := by decide
  unfold batches batchSize
  dsimp only
  rw [h2, if_neg (by omega), h1]
  rfl

/-- C38, not so: with 2^32 + 5 paths on 16 threads only 5 are simulated. -/
theorem C38_few_paths_violated : batches (2 ^ 32 + 5) 16 = some [(0, 5)] := by decide

/-! ### The hypotheses hold -/

example : batches 2500 2 = some [(0, 1251), (1251, 1249)] ∧ batches 2500 16 = some [(0, 1024), (1024, 1024), (2048, 452)] := by decide

example : ∃ ex : List ((Int × Int) × Nat), (ex.map (·.1)).Perm [(0, 1251), (1251, 1249)] ∧ ∀ e ∈ ex, e.2 < 2 :=
  ⟨[((1251, 1249), 1), ((0, 1251), 1)], List.Perm.swap .., by decide⟩

end Dal
