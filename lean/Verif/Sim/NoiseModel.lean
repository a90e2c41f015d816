import Verif.Concurrency.BatchModel

/-!
# The numbers used by the paths of a simulation

Source: `dal/script/simulation.hpp`, `dal/script/simulation.cpp`, `dal/math/random/pseudorandom.cpp`.

A generator made by `CreateRNG` has a fixed seed, so that all generators of a simulation deliver the same stream of normal numbers; what differs is the position in it. A path
takes as many numbers as the model has dimensions (`FillNormal` on a vector of `SimDim()` numbers), from the position of its generator on.

Simplifications: sums of doubles are sums of real numbers, so that the order in which the results of the tasks are added does not matter; the quasi-random generator and the Brownian
bridge are not part of this model. What a path is worth is a function of the position of its first number.
-/

namespace Dal.Noise

/-- The pseudo-random generators of `CreateRNG` (`simulation.cpp` 15–18). -/
inductive Gen
  | mrg
  | irn

/-- The position that `SkipTo(first)` leaves, for paths of `n` numbers: half of the numbers of the paths for the first generator, whatever its position was (`pseudorandom.cpp`
143–188, see `C40_mrg_half_partial`), and the position it had for the second (line 86). -/
def Gen.skip (g : Gen) (n first pos : Nat) : Nat :=
  match g with
  | .mrg => first * n / 2
  | .irn => pos

variable {R : Type} [Zero R] [Add R]

/-- The loop over the paths of a task (`simulation.hpp` 130–135, 138–143, 210–218 and 231–239): the position after it and what was added up. -/
def taskLoop (n : Nat) (payoff : Nat → R) : Nat → Nat → R → Nat × R
  | 0, pos, acc => (pos, acc)
  | k + 1, pos, acc => taskLoop n payoff k (pos + n) (acc + payoff pos)

/-- A task on a thread, with doubles (`simulation.hpp` 122–146): the generators belong to the threads. -/
def runTask (g : Gen) (n : Nat) (payoff : Nat → R) (st : (Nat → Nat) × List R) (e : (Int × Int) × Nat) : (Nat → Nat) × List R :=
  let r := taskLoop n payoff e.1.2.toNat (g.skip n e.1.1.toNat (st.1 e.2)) 0
  (fun th => if th = e.2 then r.1 else st.1 th, st.2 ++ [r.2])

/-- The value with doubles (`simulation.hpp` 71–157), for tasks and threads in the order of execution. -/
def valueDouble (g : Gen) (n : Nat) (payoff : Nat → R) (ex : List ((Int × Int) × Nat)) : R :=
  (ex.foldl (runTask g n payoff) (fun _ => 0, [])).2.foldl (· + ·) 0

/-- A task on a thread, with `AAD::Number_` (`simulation.hpp` 189–251): each task makes its own generator. -/
def tapeTask (g : Gen) (n : Nat) (payoff : Nat → R) (slots : List R) (e : (Int × Int) × Nat) : List R :=
  slots.modify e.2 (· + (taskLoop n payoff e.1.2.toNat (g.skip n e.1.1.toNat 0) 0).2)

/-- The value with `AAD::Number_` (`simulation.hpp` 160–266). -/
def valueTape (g : Gen) (n : Nat) (payoff : Nat → R) (threads : Nat) (ex : List ((Int × Int) × Nat)) : R :=
  (ex.foldl (tapeTask g n payoff) (List.replicate threads 0)).foldl (· + ·) 0

end Dal.Noise
