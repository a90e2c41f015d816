import Mathlib.Algebra.BigOperators.Group.List.Basic

/-! # Batches of paths (dal/script/simulation.hpp, `MCSimulation`)

`size_t` values are natural numbers below 2^64, `int` values are integers; a cast to `int` keeps the low 32 bits; an overflowing
`int` addition is undefined behaviour (`none`).  What a path is worth depends only on its index (each task repositions its random
numbers with `SkipTo`, see the random numbers; models and evaluators are used as if fresh for every path); sums of doubles are
sums in a commutative monoid. -/

namespace Dal.Batch

/-- `BATCH_SIZE`, line 36. -/
def BATCH_SIZE : Int := 1024

/-- `static_cast<int>` of a `size_t`. -/
def toInt (n : Nat) : Int :=
  let m : Nat := n % 2 ^ 32
  if m < 2 ^ 31 then (m : Int) else (m : Int) - 2 ^ 32

/-- `batch_size`, lines 107 and 176: `max(BATCH_SIZE, (int)(n_paths / nThreads) + 1)`. -/
def batchSize (n threads : Nat) : Option Int :=
  let q := toInt (n / threads)
  if q = 2 ^ 31 - 1 then none else some (max BATCH_SIZE (q + 1))

/-- The loop, lines 112-149 and 179-256: first path and number of paths of each task. -/
def loop (b : Int) : Nat → Int → Int → List (Int × Int)
  | 0, _, _ => []
  | fuel + 1, first, left =>
    if 0 < left then
      let k := min left b
      (first, k) :: loop b fuel (first + k) (left - k)
    else []

/-- All tasks of a simulation; with a positive batch size the loop runs at most `left` times. -/
def batches (n threads : Nat) : Option (List (Int × Int)) :=
  (batchSize n threads).map fun b => loop b (toInt n).toNat 0 (toInt n)

/-- The capacity reserved, lines 108 and 110. -/
def reserved (n : Nat) (b : Int) : Nat := n / b.toNat + 1

/-- The path indices of a task. -/
def paths (t : Int × Int) : List Nat := (List.range t.2.toNat).map fun i => t.1.toNat + i

/-- What a task adds up, lines 121-146. -/
def taskSum {R : Type} [Zero R] [Add R] (payoff : Nat → R) (t : Int × Int) : R := (paths t).foldl (fun acc i => acc + payoff i) 0

/-- The value with `double`: one slot per task, added up in order, line 155. -/
def valueOf {R : Type} [Zero R] [Add R] (payoff : Nat → R) (ts : List (Int × Int)) : R := (ts.map (taskSum payoff)).foldl (· + ·) 0

/-- One task run on a thread, with `AAD::Number_`: its sum goes to the slot of the thread, lines 196 and 250. -/
def runOn {R : Type} [Zero R] [Add R] (payoff : Nat → R) (slots : List R) (e : (Int × Int) × Nat) : List R :=
  slots.modify e.2 (· + taskSum payoff e.1)

/-- The value with `AAD::Number_`: tasks in the order and on the threads they happened to run, then the slots added up, lines
259-263. -/
def valueAAD {R : Type} [Zero R] [Add R] (payoff : Nat → R) (threads : Nat) (ex : List ((Int × Int) × Nat)) : R :=
  (ex.foldl (runOn payoff) (List.replicate threads 0)).foldl (· + ·) 0

end Dal.Batch
