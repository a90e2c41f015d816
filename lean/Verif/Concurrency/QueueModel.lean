/-! # `ConcurrentQueue_` (dal/concurrency/concurrentqueue.hpp)

A run is any list of actions `(thread, action)`; every critical section is one atomic action, since it holds the mutex from its
first to its last statement; notifications, which happen after the mutex has been released, are actions of their own.
`ResetInterrupt` and `Clear` (lines 72-77) take no lock: they are only modelled as whole-queue operations without other threads
(`reset`, `clear`), and are not part of concurrent runs. -/

namespace Dal.Queue

/-- Where a thread is. -/
inductive Pc
  /-- outside the queue -/
  | idle
  /-- in `Pop`, about to take (or retake, after a wake-up) the mutex and look at the condition, line 54-55 -/
  | checking
  /-- in `Pop`, asleep in `cv_.wait`, line 56 -/
  | waiting
  /-- in `Push` after the critical section, before `notify_one`, line 50 -/
  | notifyOne
  /-- in `Interrupt` after the critical section, before `notify_all`, line 69 -/
  | notifyAll
  deriving DecidableEq, Repr

/-- The queue, the threads, and what happened so far (items pushed and popped in the order of the critical sections, and for each
call of `Pop` or `TryPop` that ended its thread and its outcome). -/
structure State (α : Type) where
  /-- `queue_` -/
  queue : List α
  /-- `interrupt_` -/
  interrupt : Bool
  /-- the threads -/
  pcs : List Pc
  /-- items pushed -/
  pushed : List α
  /-- items popped -/
  popped : List α
  /-- outcomes of pops -/
  results : List (Nat × Option α)

/-- The constructor, line 28, before any of `n` threads did anything. -/
def init {α : Type} (n : Nat) : State α := ⟨[], false, List.replicate n .idle, [], [], []⟩

/-- What a thread can do next. -/
inductive Act (α : Type)
  /-- `TryPop`, lines 36-43 -/
  | tryPop
  /-- critical section of `Push`, lines 46-49 -/
  | push (x : α)
  /-- `notify_one`, line 50, waking the given sleeper, or nobody -/
  | wakeOne (w : Option Nat)
  /-- entering `Pop`, line 54 -/
  | pop
  /-- the mutex is taken: the condition is looked at, lines 55-61 -/
  | check
  /-- a sleeper wakes up by itself -/
  | spurious
  /-- critical section of `Interrupt`, lines 65-68 -/
  | interrupt
  /-- `notify_all`, line 69 -/
  | wakeAll

/-- Moving one thread. -/
def State.go {α : Type} (s : State α) (t : Nat) (p : Pc) : State α := { s with pcs := s.pcs.set t p }

/-- Taking the first item, lines 40-42 and 59-61. -/
def State.take {α : Type} (s : State α) (t : Nat) : State α :=
  match s.queue with
  | [] => s
  | x :: q => { s with queue := q, popped := s.popped ++ [x], results := s.results ++ [(t, some x)], pcs := s.pcs.set t .idle }

/-- Waking: sleepers look at the condition again. -/
def wake (p : Pc) : Pc := if p = .waiting then .checking else p

/-- One action of thread `t`; `none` when the thread cannot do it. -/
def step {α : Type} (s : State α) (t : Nat) (a : Act α) : Option (State α) :=
  match s.pcs[t]?, a with
  | some .idle, .tryPop =>
    match s.queue with
    | [] => some { s with results := s.results ++ [(t, none)] }
    | _ :: _ => some (s.take t)
  | some .idle, .push x => some { s.go t .notifyOne with queue := s.queue ++ [x], pushed := s.pushed ++ [x] }
  | some .notifyOne, .wakeOne (some w) => if s.pcs[w]? = some .waiting then some ((s.go w .checking).go t .idle) else none
  | some .notifyOne, .wakeOne none => if Pc.waiting ∈ s.pcs then none else some (s.go t .idle)
  | some .idle, .pop => some (s.go t .checking)
  | some .checking, .check =>
    if !s.interrupt && s.queue.isEmpty then some (s.go t .waiting)
    else if s.interrupt then some { s.go t .idle with results := s.results ++ [(t, none)] }
    else some (s.take t)
  | some .waiting, .spurious => some (s.go t .checking)
  | some .idle, .interrupt => some { s.go t .notifyAll with interrupt := true }
  | some .notifyAll, .wakeAll => some { s with pcs := (s.pcs.map wake).set t .idle }
  | _, _ => none

/-- A run. -/
def run {α : Type} (s : State α) : List (Nat × Act α) → Option (State α)
  | [] => some s
  | (t, a) :: as => (step s t a).bind fun s' => run s' as

/-- `ResetInterrupt`, line 72. -/
def reset {α : Type} (s : State α) : State α := { s with interrupt := false }

/-- `Clear`, lines 74-77: the items are destroyed. -/
def clear {α : Type} (s : State α) : State α := { s with queue := [] }

/-- `Empty`, lines 31-34. -/
def isEmpty {α : Type} (s : State α) : Bool := s.queue.isEmpty

end Dal.Queue
