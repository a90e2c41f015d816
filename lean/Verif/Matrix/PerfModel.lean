/-! # Model of the matrix products of `examples/matrix_perf/matrix_perf.cpp`

Elements are of any type with any addition, multiplication and zero: the order of operations is that of the code and no law is used, so
doubles with rounding are included.  `none` is an access outside of the storage.

Simplifications: dimensions are natural numbers (no overflow of `row * cols_`); computing an address is not an access (`MultiV2` moves its
pointer past the end after its last access); the arguments are three different objects, as in `main`. -/

namespace Dal.Perf

/-- `Matrix_`, matrix_perf.cpp 11-42. -/
structure Mat (α : Type) where
  /-- `rows_` -/
  rows : Nat
  /-- `cols_` -/
  cols : Nat
  /-- `vector_` -/
  vec : List α
deriving DecidableEq

/-- Addition, multiplication and zero of the elements. -/
structure Arith (α : Type) where
  add : α → α → α
  mul : α → α → α
  zero : α

variable {α : Type}

/-- `m[row][k]`, matrix_perf.cpp 33-34. -/
def Mat.at (m : Mat α) (row k : Nat) : Option α := m.vec[row * m.cols + k]?

/-- `m[row][k] = v`. -/
def Mat.store (m : Mat α) (row k : Nat) (v : α) : Option (Mat α) :=
  if row * m.cols + k < m.vec.length then some { m with vec := m.vec.set (row * m.cols + k) v } else none

/-- `Clear`, matrix_perf.cpp 39-41. -/
def Mat.clear (o : Arith α) (m : Mat α) : Mat α := { m with vec := m.vec.map fun _ => o.zero }

/-- A loop from zero up to `n`. -/
def loop {σ : Type} (n : Nat) (body : σ → Nat → Option σ) (s : σ) : Option σ := (List.range n).foldlM body s

/-- `MultiV1`, matrix_perf.cpp 44-60. -/
def multiV1 (o : Arith α) (a b c : Mat α) : Option (Mat α) :=
  loop a.rows (fun c i => loop b.cols (fun c j =>
    (loop a.cols (fun res k => (a.at i k).bind fun x => (b.at k j).bind fun y => some (o.add res (o.mul x y))) o.zero).bind fun res =>
      c.store i j res) c) c

/-- `MultiV2`, matrix_perf.cpp 62-81: a pointer that starts at `b[0][j]` and moves by the number of rows of `a`. -/
def multiV2 (o : Arith α) (a b c : Mat α) : Option (Mat α) :=
  loop a.rows (fun c i => loop b.cols (fun c j =>
    (loop a.cols (fun (s : α × Nat) k => (a.at i k).bind fun x => (b.vec[s.2]?).bind fun y => some (o.add s.1 (o.mul x y), s.2 + a.rows))
      (o.zero, j)).bind fun s => c.store i j s.1) c) c

/-- `MultiV3` and `MultiV4`, matrix_perf.cpp 83-120. -/
def multiV3 (o : Arith α) (a b c : Mat α) : Option (Mat α) :=
  loop a.rows (fun c i => loop a.cols (fun c k => (a.at i k).bind fun x => loop b.cols (fun c j =>
    (b.at k j).bind fun y => (c.at i j).bind fun z => c.store i j (o.add z (o.mul x y))) c) c) c

/-- What a thread of `MultiV5` does for its row `i`: read `ci[j]`, or write back its sum with `aik * bk[j]`, matrix_perf.cpp 136. -/
inductive Step where
  | load (i k j : Nat)
  | write (i k j : Nat)
deriving DecidableEq

/-- The row of a step. -/
def Step.row : Step → Nat
  | .load i _ _ => i
  | .write i _ _ => i

/-- A step on the result and the registers of the rows. -/
def Step.run (o : Arith α) (a b : Mat α) (s : Mat α × (Nat → α)) : Step → Option (Mat α × (Nat → α))
  | .load i _ j => (s.1.at i j).bind fun z => some (s.1, fun r => if r = i then z else s.2 r)
  | .write i k j => (a.at i k).bind fun x => (b.at k j).bind fun y => (s.1.store i j (o.add (s.2 i) (o.mul x y))).bind fun c => some (c, s.2)

/-- The steps of row `i` in order, matrix_perf.cpp 128-138. -/
def rowSteps (n cols i : Nat) : List Step :=
  (List.range n).flatMap fun k => (List.range cols).flatMap fun j => [.load i k j, .write i k j]

/-- `MultiV5`, matrix_perf.cpp 122-140, for an execution: the steps of all rows as they happen (the rows are distributed over threads). -/
def multiV5 (o : Arith α) (a b c : Mat α) (reg : Nat → α) (steps : List Step) : Option (Mat α) :=
  (steps.foldlM (Step.run o a b) (c, reg)).map Prod.fst

/-- The executions of `MultiV5`: the steps of each row happen in their order. -/
def Execution (rows n cols : Nat) (steps : List Step) : Prop :=
  ∀ i, steps.filter (fun s => s.row == i) = if i < rows then rowSteps n cols i else []

end Dal.Perf
