import Verif.Strings.StringModel

/-! # Model of the spreadsheet archive (storage/splat.cpp)

Cells hold nothing, a string or another value (number, boolean, date, ...).  The translation of single
cells (`ExtractDouble` and so on, splat.cpp:143-209) is the identity on cells of the right kind and is
not modelled. -/

namespace Dal.Splat
open Strings

/-- `Cell_`, cell.hpp:15-33. -/
inductive Cell (α : Type)
  | blank
  | str (s : Str)
  | val (a : α)

variable {α : Type}

/-- `Cell::IsEmpty`, cell.hpp:70-74. -/
def isEmpty : Cell α → Bool
  | .blank => true
  | .str s => s.isEmpty
  | .val _ => false

/-- `operator==(Cell_, String_)`, cell.hpp:65 / cell.cpp:10-14. -/
def isStr (sgn : Bool) (c : Cell α) (name : Str) : Bool :=
  match c with
  | .str s => eqS sgn s name
  | _ => false

mutual
/-- The state of an `XSplat_` node, splat.cpp:29-37: either its value `val_` (a `rows × cols` matrix) or
an object with its tag, its type and its children in map order. -/
inductive STree (α : Type)
  | leaf (rows cols : Nat) (cells : Nat → Nat → Cell α)
  | node (tag type : Str) (kids : Forest α)
/-- Children by name. -/
inductive Forest (α : Type)
  | nil
  | cons (name : Str) (t : STree α) (rest : Forest α)
end

/-- `val_.Empty()`. -/
def emptyLeaf (rows cols : Nat) : Bool := rows * cols == 0

mutual
/-- `XSplat_::Rows`, splat.cpp:39-49, without the check of line 40. -/
def rowsOf : STree α → Nat
  | .leaf r c _ => if emptyLeaf r c then 0 else r
  | .node _ _ kids => rowsOfF kids
/-- The loop of `Rows`. -/
def rowsOfF : Forest α → Nat
  | .nil => 0
  | .cons _ t rest => rowsOf t + rowsOfF rest
end

mutual
/-- The check of line 40 fails somewhere in the tree. -/
def rowsThrow : STree α → Bool
  | .leaf _ _ _ => false
  | .node _ type kids => (match kids with | .nil => !type.isEmpty | .cons .. => type.isEmpty) || rowsThrowF kids
/-- The same for the children. -/
def rowsThrowF : Forest α → Bool
  | .nil => false
  | .cons _ t rest => rowsThrow t || rowsThrowF rest
end

mutual
/-- `XSplat_::Cols`, splat.cpp:51-58. -/
def colsOf : STree α → Nat
  | .leaf r c _ => if emptyLeaf r c then 2 else c
  | .node _ _ kids => 2 + colsOfF kids 0
/-- The loop of `Cols` from the current `ret_val`. -/
def colsOfF : Forest α → Nat → Nat
  | .nil, ret => ret
  | .cons _ t rest, ret => colsOfF rest (ret + max ret (colsOf t))
end

mutual
/-- `XSplat_::Write`, splat.cpp:60-72: the assignments to `dst(i, j)` in order. -/
def writes : STree α → Nat → Nat → List (Nat × Nat × Cell α)
  | .leaf r c cells, row, col =>
    if emptyLeaf r c then [(row, col, .str ['~'])]
    else (List.range r).flatMap fun i => (List.range c).map fun j => (row + i, col + j, cells i j)
  | .node tag type kids, row, col => (row, col, .str (tag ++ '~' :: type)) :: writesF kids row col
/-- The loop over the children. -/
def writesF : Forest α → Nat → Nat → List (Nat × Nat × Cell α)
  | .nil, _, _ => []
  | .cons name t rest, row, col =>
    (row, 1 + col, .str name) :: (writes t row (2 + col) ++ writesF rest (row + rowsOf t) col)
end

/-- Contents of a matrix of cells. -/
abbrev Cells (α : Type) := Nat → Nat → Cell α

/-- `dst(i, j) = c`. -/
def put (g : Cells α) (w : Nat × Nat × Cell α) : Cells α :=
  fun i j => if i = w.1 ∧ j = w.2.1 then w.2.2 else g i j

/-- `Matrix_<Cell_>`. -/
structure Grid (α : Type) where
  rows : Nat
  cols : Nat
  cell : Cells α

/-- `Splat`, splat.cpp:401-408; `none` for the exception of `Rows` and for writing out of bounds. -/
def splat (t : STree α) : Option (Grid α) :=
  if rowsThrow t then none
  else if (writes t 0 0).all fun w => decide (w.1 < rowsOf t) && decide (w.2.1 < colsOf t) then
    some ⟨rowsOf t, colsOf t, (writes t 0 0).foldl put fun _ _ => .blank⟩
  else none

/-- `XUnSplat_`, splat.cpp:217-226. -/
structure View where
  rowStart : Nat
  rowStop : Nat
  colStart : Nat
  deriving DecidableEq

/-- `data_(i, j)`; outside the matrix undefined behaviour (`none`). -/
def cellAt (g : Grid α) (i j : Nat) : Option (Cell α) :=
  if i < g.rows ∧ j < g.cols then some (g.cell i j) else none

/-- `XUnSplat_::Type`, splat.cpp:228-234. -/
def viewType (g : Grid α) (v : View) : Option Str :=
  (cellAt g v.rowStart v.colStart).map fun c =>
    match c with
    | .str s => (s.dropWhile (· ≠ '~')).tail
    | _ => []

/-- `XUnSplat_::Tag`, splat.cpp:236-241. -/
def viewTag (g : Grid α) (v : View) : Option Str :=
  (cellAt g v.rowStart v.colStart).map fun c =>
    match c with
    | .str s => if s.take 1 = ['$'] then s.takeWhile (· ≠ '~') else []
    | _ => []

/-- The search for a name in a column, splat.cpp:247-248; `n` rows from `ir` on. -/
def findName (sgn : Bool) (g : Grid α) (name : Str) (col : Nat) : Nat → Nat → Option Nat
  | 0, _ => none
  | n + 1, ir => if isStr sgn (g.cell ir col) name then some ir else findName sgn g name col n (ir + 1)

/-- The search for the end of a child, splat.cpp:249-251. -/
def skipBlank (g : Grid α) (col : Nat) : Nat → Nat → Nat
  | 0, jr => jr
  | n + 1, jr => if isEmpty (g.cell jr col) then skipBlank g col n (jr + 1) else jr

/-- `XUnSplat_::Child`, splat.cpp:243-257; `none` for exceptions. -/
def child (sgn : Bool) (g : Grid α) (v : View) (name : Str) : Option View :=
  match viewType g v with
  | none => none
  | some [] => none
  | some (_ :: _) =>
    if v.colStart + 1 < g.cols then
      match findName sgn g name (v.colStart + 1) (v.rowStop - v.rowStart) v.rowStart with
      | none => none
      | some ir => some ⟨ir, skipBlank g (v.colStart + 1) (v.rowStop - (ir + 1)) (ir + 1), v.colStart + 2⟩
    else none

/-- `XUnSplat_::HasChild`, splat.cpp:259-269. -/
def hasChild (sgn : Bool) (g : Grid α) (v : View) (name : Str) : Option Bool :=
  match viewType g v with
  | none => none
  | some [] => none
  | some (_ :: _) =>
    if v.colStart + 1 < g.cols then
      some (findName sgn g name (v.colStart + 1) (v.rowStop - v.rowStart) v.rowStart).isSome
    else none

/-- `XUnSplat_::GetScalar`, splat.cpp:275-280. -/
def getScalar (g : Grid α) (v : View) : Option (Cell α) :=
  if v.rowStop ≠ v.rowStart + 1 then none
  else if v.colStart + 1 = g.cols then cellAt g v.rowStart v.colStart
  else match cellAt g v.rowStart (v.colStart + 1) with
    | none => none
    | some c => if isEmpty c then cellAt g v.rowStart v.colStart else none

/-- The loop of `VectorRange`, splat.cpp:296-298: `n` columns are left from `col` on. -/
def vectorStop (g : Grid α) (row : Nat) : Nat → Nat → Nat
  | 0, col => col
  | n + 1, col => if isEmpty (g.cell row col) then col else vectorStop g row n (col + 1)

/-- `XUnSplat_::AsCellVector`, splat.cpp:294-300 and 310. -/
def asVector (g : Grid α) (v : View) : Option (List (Cell α)) :=
  if v.rowStop ≠ v.rowStart + 1 then none
  else
    let stop := vectorStop g v.rowStart (g.cols - (v.colStart + 1)) (v.colStart + 1)
    some ((List.range (stop - v.colStart)).map fun j => g.cell v.rowStart (v.colStart + j))

/-- Column `col` is empty in the rows of the view, splat.cpp:314-319. -/
def columnEmpty (g : Grid α) (v : View) (col : Nat) : Bool :=
  (List.range (v.rowStop - v.rowStart)).all fun i => isEmpty (g.cell (v.rowStart + i) col)

/-- The outer loop of `MatrixStop` from column `col` with `n` columns left, splat.cpp:313-322. -/
def matrixStopFrom (g : Grid α) (v : View) : Nat → Nat → Nat
  | 0, col => col
  | n + 1, col => if columnEmpty g v col then col else matrixStopFrom g v n (col + 1)

/-- `XUnSplat_::MatrixStop`, splat.cpp:312-323.  The bound on the columns is only tested after the
first column has been read: starting at the last column reads outside the matrix (`none`). -/
def matrixStop (g : Grid α) (v : View) : Option Nat :=
  if v.colStart + 1 < g.cols then
    some (matrixStopFrom g v (g.cols - (v.colStart + 1)) (v.colStart + 1))
  else none

/-- `XUnSplat_::AsCellMatrix`, splat.cpp:324-331 and 337: rows of cells. -/
def asMatrix (g : Grid α) (v : View) : Option (List (List (Cell α))) :=
  (matrixStop g v).map fun stop =>
    (List.range (v.rowStop - v.rowStart)).map fun i =>
      (List.range (stop - v.colStart)).map fun j => g.cell (v.rowStart + i) (v.colStart + j)

end Dal.Splat
