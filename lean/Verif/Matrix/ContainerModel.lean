/-! # Model of the matrix container (dal/math/matrix/matrixs.hpp, dal/math/matrix/matrixutils.hpp)

A `Matrix_` holds one vector `vals_` with room for one row more than the matrix has, the number of columns, and a vector `hooks_` of iterators to the
beginnings of the rows. An iterator is modelled as the identity of the allocated block and an offset in it, a value-initialised iterator as `none`;
reading or writing through an iterator which is not into the current block, or beyond the size of the vector, is undefined behaviour (`none` of the
outer `Option`). Whether `std::vector::resize` moves the elements to a new block is up to the library: it is an argument (`moved`), with the identity of the
new block (`fresh`), and the theorems hold for every choice. Simplifications: sizes are natural numbers (no negative sizes, no overflow of `int`
products). -/

namespace Dal.MatC

/-- `Matrix_`, matrixs.hpp:18-22. -/
structure Mat (E : Type) where
  /-- identity of the block of `vals_` -/
  block : Nat
  /-- `vals_.size()` -/
  size : Nat
  /-- elements of `vals_` (those at or above `size` are meaningless) -/
  vals : Nat → E
  /-- `cols_` -/
  cols : Nat
  /-- `hooks_` -/
  hooks : List (Option (Nat × Nat))

variable {E : Type}

/-- `Rows()`, matrixs.hpp:34. -/
def Mat.rows (m : Mat E) : Nat := m.hooks.length

/-- Reading at column `j` of an iterator. -/
def Mat.deref (m : Mat E) (h : Option (Nat × Nat)) (j : Nat) : Option E :=
  match h with
  | some (b, o) => if b = m.block ∧ o + j < m.size then some (m.vals (o + j)) else none
  | none => none

/-- `operator()(row, col)`, matrixs.hpp:47 (also `Row(i)[j]`, 98-118). -/
def Mat.get (m : Mat E) (i j : Nat) : Option E := (m.hooks[i]?).bind fun h => m.deref h j

/-- Writing at column `j` of an iterator. -/
def Mat.store (m : Mat E) (h : Option (Nat × Nat)) (j : Nat) (v : E) : Option (Mat E) :=
  match h with
  | some (b, o) =>
    if b = m.block ∧ o + j < m.size then some { m with vals := fun k => if k = o + j then v else m.vals k } else none
  | none => none

/-- Assignment through `operator()(row, col)`, matrixs.hpp:48. -/
def Mat.put (m : Mat E) (i j : Nat) (v : E) : Option (Mat E) := (m.hooks[i]?).bind fun h => m.store h j v

/-- `SetHook(from)`, matrixs.hpp:244-247. -/
def Mat.setHook (m : Mat E) (start : Nat) : Mat E :=
  { m with hooks := m.hooks.mapIdx fun i h => if start ≤ i then some (m.block, i * m.cols) else h }

/-- The default constructor, matrixs.hpp:26. -/
def mkEmpty (block : Nat) (d : E) : Mat E := ⟨block, 0, fun _ => d, 0, []⟩

/-- The constructor from sizes and a value, matrixs.hpp:27-31. -/
def mkMat (block rows cols : Nat) (v : E) : Mat E :=
  Mat.setHook ⟨block, (rows + 1) * cols, fun _ => v, cols, List.replicate rows none⟩ 0

/-- The copy constructor, matrixs.hpp:32 (`block`: the block of the new vector); `operator=`, matrixs.hpp:65-73, gives the same object, in the block the
assigned vector then has. -/
def copyMat (block : Nat) (src : Mat E) : Mat E :=
  Mat.setHook ⟨block, src.size, src.vals, src.cols, List.replicate src.hooks.length none⟩ 0

/-- `Clear()`, matrixs.hpp:37-41. -/
def Mat.clear (m : Mat E) : Mat E := { m with size := 0, cols := 0, hooks := [] }

/-- `Fill(val)`, matrixs.hpp:219 (the spare row is filled too). -/
def Mat.fill (m : Mat E) (v : E) : Mat E := { m with vals := fun _ => v }

/-- `operator*=`, matrixs.hpp:221, `f` being multiplication by the scale (the spare row is scaled too). -/
def Mat.scale (m : Mat E) (f : E → E) : Mat E := { m with vals := fun k => f (m.vals k) }

/-- `Vector_::Resize` of the hooks. -/
def resizeHooks (n : Nat) (l : List (Option (Nat × Nat))) : List (Option (Nat × Nat)) :=
  l.take n ++ List.replicate (n - l.length) none

/-- The loop of `Resize`, matrixs.hpp:234-236, from row `ir` on with `n` rows to go: `nCopy` elements from `hooks_[ir]` are copied to offset `ir * cols` of the
new vector. -/
def copyRows (m : Mat E) (cols nCopy : Nat) : Nat → Nat → (Nat → E) → Option (Nat → E)
  | 0, _, out => some out
  | n + 1, ir, out =>
    match m.hooks[ir]? with
    | some (some (b, o)) =>
      if nCopy = 0 ∨ (b = m.block ∧ o + nCopy ≤ m.size) then
        copyRows m cols nCopy n (ir + 1) fun k => if ir * cols ≤ k ∧ k < ir * cols + nCopy then m.vals (o + (k - ir * cols)) else out k
      else none
    | _ => none

/-- `Resize(rows, cols)`, matrixs.hpp:223-241; `d` is the value-initialised element. -/
def Mat.resize (m : Mat E) (rows cols : Nat) (moved : Bool) (fresh : Nat) (d : E) : Option (Mat E) :=
  let oldRows := m.rows
  if cols = m.cols ∧ rows * oldRows > 0 then
    let b := if moved then fresh else m.block
    let m1 : Mat E := ⟨b, (rows + 1) * cols, fun k => if k < m.size then m.vals k else d, cols, resizeHooks rows m.hooks⟩
    match m1.hooks[0]? with
    | some h => some (m1.setHook (if h = some (b, 0) then oldRows else 0))
    | none => none
  else
    let nCopy := min cols m.cols
    (copyRows m cols nCopy (min rows oldRows) 0 fun _ => d).map fun out =>
      Mat.setHook ⟨fresh, (rows + 1) * cols, out, cols, resizeHooks rows m.hooks⟩ 0

/-- Writing element `i` of `Col(j)`, matrixs.hpp:191-206: an iterator into the first row, moved by `i` strides. -/
def Mat.putCol (m : Mat E) (j i : Nat) (v : E) : Option (Mat E) :=
  (m.hooks[0]?).bind fun h => m.store h (j + i * m.cols) v

/-- Reading element `i` of `Col(j)`, matrixs.hpp:187-189. -/
def Mat.getCol (m : Mat E) (j i : Nat) : Option E :=
  (m.hooks[0]?).bind fun h => m.deref h (j + i * m.cols)

/-- A loop `for (int i = start; i < start + n; ++i) s = body(i, s)`, `none` being undefined behaviour or an exception. -/
def loop {S : Type} (body : Nat → S → Option S) : Nat → Nat → S → Option S
  | 0, _, s => some s
  | n + 1, i, s => (body i s).bind (loop body n (i + 1))

/-- `Matrix::MakeTranspose`, matrixutils.hpp:15-22. `Copy` demands equal sizes (algorithms.hpp:47-50), which they are. `Col(ir)` evaluates `hooks_[0]`, which is
undefined behaviour without rows whatever is done with the column. -/
def transpose (block : Nat) (src : Mat E) (d : E) : Option (Mat E) :=
  loop (fun ir (t : Mat E) =>
      (t.hooks[0]?).bind fun _ =>
        loop (fun k t => (src.get ir k).bind fun v => t.putCol ir k v) src.cols 0 t)
    src.rows 0 (mkMat block src.cols src.rows d)

/-- The result of `Append`: an exception leaves `above` in the given state. -/
inductive Res (α : Type) where
  | ok (a : α)
  | throws (a : α)
  | ub
  deriving DecidableEq

/-- `Matrix::Append`, matrixutils.hpp:24-33, for two different matrices. `Copy` throws unless the row of `below` is as wide as that of `above`. -/
def append (above below : Mat E) (moved : Bool) (fresh : Nat) (d : E) : Res (Mat E) :=
  match above.resize (above.rows + below.rows) (max above.cols below.cols) moved fresh d with
  | none => .ub
  | some a =>
    if below.rows = 0 then .ok a
    else if below.cols = a.cols then
      match loop (fun ir (t : Mat E) => loop (fun k t => (below.get ir k).bind fun v => t.put (ir + above.rows) k v) below.cols 0 t) below.rows 0 a with
      | some t => .ok t
      | none => .ub
    else .throws a

/-- `Matrix::ToVectors` by rows, matrixutils.hpp:105-111. -/
def toVectors (m : Mat E) : Option (List (List E)) :=
  (List.range m.rows).mapM fun i => (List.range m.cols).mapM fun j => m.get i j

/-- `Matrix::ToVectors` by columns, matrixutils.hpp:105-111. -/
def toVectorsByCols (m : Mat E) : Option (List (List E)) :=
  (List.range m.cols).mapM fun j => (m.hooks[0]?).bind fun _ => (List.range m.rows).mapM fun i => m.getCol j i

/-- `Matrix::FromVectors` by rows, `quiet` and not `ragged` (the defaults), matrixutils.hpp:86-103: every vector is copied from the beginning of its row
whatever its length. -/
def fromVectors (block : Nat) (vv : List (List E)) (d : E) : Option (Mat E) :=
  match vv with
  | [] => some (mkEmpty block d)
  | v0 :: _ =>
    loop (fun i (t : Mat E) =>
        (vv[i]?).bind fun v => loop (fun k t => (v[k]?).bind fun x => t.put i k x) v.length 0 t)
      vv.length 0 (mkMat block vv.length v0.length d)

end Dal.MatC
