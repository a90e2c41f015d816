/-! # `ThreadPool_` (dal/concurrency/threadpool.hpp, threadpool.cpp)

Tasks are numbered in the order they are spawned.  The queue is taken at the level of its operations (see the queue model for
these): a worker's `Pop` happens when the queue is not empty, `TryPop` never blocks.  A task is a piece of code that ends and
neither spawns nor waits; running it is a start and an end, with anything in between.  The pool is active and not being stopped
during a run; `Start` and `Stop` are modelled separately, for a client alone. -/

namespace Dal.Pool

/-- A thread outside the pool that spawns tasks and waits for them. -/
inductive Client
  /-- outside the pool -/
  | free
  /-- in `ActiveWait(f)`, about to look whether `f` is ready, threadpool.cpp:55 -/
  | look (f : Nat)
  /-- about to `TryPop`, line 56 -/
  | try_ (f : Nat)
  /-- running a task found in the queue, line 57 -/
  | running (f x : Nat)
  /-- blocked in `f.wait()`, line 60 -/
  | blocked (f : Nat)
  deriving DecidableEq, Repr

/-- The pool, its workers (with the task each is running), the clients, and what happened so far. -/
structure State where
  /-- `queue_` -/
  queue : List Nat
  /-- `threads_` -/
  workers : List (Option Nat)
  /-- the clients -/
  clients : List Client
  /-- number of tasks spawned so far -/
  spawned : Nat
  /-- tasks started, in order -/
  started : List Nat
  /-- tasks that ended, whose future is ready -/
  done : List Nat
  /-- waits that returned: client and task -/
  returned : List (Nat × Nat)

/-- `w` workers and `c` clients before anything happened. -/
def init (w c : Nat) : State := ⟨[], List.replicate w none, List.replicate c .free, 0, [], [], []⟩

/-- What can happen next. -/
inductive Act
  /-- client `c` spawns a task, threadpool.hpp:57-62 -/
  | spawn (c : Nat)
  /-- client `c` calls `ActiveWait` on the handle of task `f` -/
  | wait (c f : Nat)
  /-- client `c` goes on in `ActiveWait` -/
  | client (c : Nat)
  /-- worker `w` goes on: ends its task or pops the next one, threadpool.cpp:18-21 -/
  | worker (w : Nat)
  deriving DecidableEq

/-- One action; `none` when it cannot happen. -/
def step (s : State) : Act → Option State
  | .spawn c =>
    if s.clients[c]? = some .free then some { s with queue := s.queue ++ [s.spawned], spawned := s.spawned + 1 } else none
  | .wait c f =>
    if s.clients[c]? = some .free ∧ f < s.spawned then some { s with clients := s.clients.set c (.look f) } else none
  | .client c =>
    match s.clients[c]? with
    | some (.look f) =>
      if f ∈ s.done then some { s with clients := s.clients.set c .free, returned := s.returned ++ [(c, f)] }
      else some { s with clients := s.clients.set c (.try_ f) }
    | some (.try_ f) =>
      match s.queue with
      | x :: q => some { s with queue := q, clients := s.clients.set c (.running f x), started := s.started ++ [x] }
      | [] => some { s with clients := s.clients.set c (.blocked f) }
    | some (.running f x) => some { s with clients := s.clients.set c (.look f), done := s.done ++ [x] }
    | some (.blocked f) =>
      -- `f.wait()` returns when `f` is ready; the loop then ends, since a future stays ready
      if f ∈ s.done then some { s with clients := s.clients.set c .free, returned := s.returned ++ [(c, f)] } else none
    | _ => none
  | .worker w =>
    match s.workers[w]? with
    | some (some x) => some { s with workers := s.workers.set w none, done := s.done ++ [x] }
    | some none =>
      match s.queue with
      | x :: q => some { s with queue := q, workers := s.workers.set w (some x), started := s.started ++ [x] }
      | [] => none
    | none => none

/-- A run. -/
def run (s : State) : List Act → Option State
  | [] => some s
  | a :: as => (step s a).bind fun s' => run s' as

/-! ### `Start` and `Stop`, threadpool.cpp:24-50, without other threads -/

/-- `active_` and `threads_.size()`. -/
structure Pool where
  /-- `active_` -/
  active : Bool
  /-- number of workers -/
  threads : Nat
  deriving DecidableEq, Repr

/-- `Stop`, lines 39-50 (all workers end after their task and are joined). -/
def stop (p : Pool) : Pool := if p.active then ⟨false, 0⟩ else p

/-- `Start`, lines 24-37; `hw` is `hardware_concurrency()`.  `n_threads - 1` is unsigned: with `hw = 0` it wraps and `reserve`
throws, which is `none`. -/
def start (hw : Nat) (p : Pool) (n : Nat) (restart : Bool) : Option Pool :=
  let n := if n ≤ 0 ∨ n > hw then hw else n
  let p := if p.active && restart then stop p else p
  if !p.active then (if n = 0 then none else some ⟨true, p.threads + (n - 1)⟩) else some p

/-- The constructor, threadpool.hpp:33-35. -/
def create (hw : Nat) : Option Pool := start hw ⟨false, 0⟩ hw false

/-- `NumThreads`, threadpool.hpp:40-42. -/
def Pool.numThreads (p : Pool) : Nat := p.threads + 1

/-- `ThreadNum` of worker `w` (counted from 0), threadpool.cpp:16 and 34; every other thread has 0, threadpool.cpp:13. -/
def workerNum (w : Nat) : Nat := w + 1

/-- The thread numbers under which tasks are being run. -/
def State.busy (s : State) : List Nat :=
  (s.clients.filterMap fun c => match c with | .running _ _ => some 0 | _ => none) ++
  (s.workers.zipIdx.filterMap fun p => p.1.map fun _ => workerNum p.2)

end Dal.Pool
