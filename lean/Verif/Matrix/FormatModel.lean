import Verif.Matrix.ContainerModel

/-! # Model of the matrix format language (dal/math/matrix/matrixutils.cpp)

Cells are values of a type `E` with a default cell. The output is a table in which a write outside the shape is undefined behaviour. Simplification: `int`s are
integers without overflow. -/

namespace Dal.Fmt
open MatC

variable {E : Type}

/-- A table of cells: an argument or the output. -/
structure Table (E : Type) where
  rows : Nat
  cols : Nat
  at' : Nat → Nat → E

/-- `WriterView_`, matrixutils.cpp:15-21 (without the destination). -/
structure View where
  rowOffset : Int
  colOffset : Int
  r2r : Int
  r2c : Int
  c2r : Int
  c2c : Int
  deriving DecidableEq, Repr

/-- The constructor, matrixutils.cpp:22. -/
def View.start : View := ⟨0, 0, 1, 0, 0, 1⟩

/-- `Write`, matrixutils.cpp:24-28; `none` is a write outside the table. -/
def View.write (v : View) (i j : Int) (x : E) (dst : Table E) : Option (Table E) :=
  let r := v.rowOffset + v.r2r * i + v.c2r * j
  let c := v.colOffset + v.r2c * i + v.c2c * j
  if 0 ≤ r ∧ r < dst.rows ∧ 0 ≤ c ∧ c < dst.cols then
    some { dst with at' := fun p q => if p = r.toNat ∧ q = c.toNat then x else dst.at' p q }
  else none

/-- `Transpose`, matrixutils.cpp:30-35. -/
def View.transpose (v : View) : View := { v with r2r := v.c2r, c2r := v.r2r, r2c := v.c2c, c2c := v.r2c }

/-- `Invert`, matrixutils.cpp:36-45. -/
def View.invert (v : View) (rows cols : Int) : View :=
  ⟨v.rowOffset + (v.r2r * (rows - 1) + v.c2r * (cols - 1)), v.colOffset + (v.r2c * (rows - 1) + v.c2c * (cols - 1)),
    v.r2r * -1, v.r2c * -1, v.c2r * -1, v.c2c * -1⟩

/-- `Shift`, matrixutils.cpp:46-51. -/
def View.shift (v : View) (rowOff colOff : Int) : View :=
  { v with rowOffset := v.rowOffset + (v.r2r * rowOff + v.c2r * colOff), colOffset := v.colOffset + (v.r2c * rowOff + v.c2c * colOff) }

/-- `Flatten`, matrixutils.cpp:52-57. -/
def View.flatten (v : View) (cols : Int) : View := { v with r2r := cols * v.c2r, r2c := cols * v.c2c }

mutual
/-- The writers, matrixutils.cpp:60-183. -/
inductive W where
  /-- `ArgWriter_` -/
  | arg (k : Nat)
  /-- `EmptyCell_` -/
  | cell
  /-- `TransposedWriter_` -/
  | tr (b : W)
  /-- `InvertedWriter_` -/
  | inv (b : W)
  /-- `LinearWriter_` -/
  | lin (b : W)
  /-- `HorizontalWriter_` -/
  | hor (bottom : Bool) (es : Ws)
  /-- `VerticalWriter_` -/
  | ver (right : Bool) (es : Ws)
/-- `elements_` -/
inductive Ws where
  | nil
  | cons (e : W) (es : Ws)
end

mutual
/-- `Rows` of each writer (matrixutils.cpp:70, 80, 91, 105-110, 142-147, 161, 169-171). -/
def W.rows (args : List (Table E)) : W → Nat
  | .arg k => match args[k]? with | some t => t.rows | none => 0
  | .cell => 1
  | .tr b => b.cols args
  | .inv b => b.rows args
  | .lin _ => 1
  | .hor _ es => es.maxRows args
  | .ver _ es => es.sumRows args
/-- `Cols` of each writer (matrixutils.cpp:71, 81, 92, 111-116, 136-141, 162, 172-174). -/
def W.cols (args : List (Table E)) : W → Nat
  | .arg k => match args[k]? with | some t => t.cols | none => 0
  | .cell => 1
  | .tr b => b.rows args
  | .inv b => b.cols args
  | .lin b => b.rows args * b.cols args
  | .hor _ es => es.sumCols args
  | .ver _ es => es.maxCols args
/-- The loop of `HorizontalWriter_::Rows`. -/
def Ws.maxRows (args : List (Table E)) : Ws → Nat
  | .nil => 0
  | .cons e es => max (e.rows args) (es.maxRows args)
/-- The loop of `VerticalWriter_::Rows`. -/
def Ws.sumRows (args : List (Table E)) : Ws → Nat
  | .nil => 0
  | .cons e es => e.rows args + es.sumRows args
/-- The loop of `VerticalWriter_::Cols`. -/
def Ws.maxCols (args : List (Table E)) : Ws → Nat
  | .nil => 0
  | .cons e es => max (e.cols args) (es.maxCols args)
/-- The loop of `HorizontalWriter_::Cols`. -/
def Ws.sumCols (args : List (Table E)) : Ws → Nat
  | .nil => 0
  | .cons e es => e.cols args + es.sumCols args
end

mutual
/-- `Write` of each writer (matrixutils.cpp:72-74, 82-84, 93-95, 117-126, 148-157, 163, 175-182); `d` is `Cell_()`. -/
def W.write (d : E) (args : List (Table E)) : W → View → Table E → Option (Table E)
  | .arg k, v, dst =>
    match args[k]? with
    | none => some dst
    | some t => loop (fun ir dst => loop (fun ic dst => v.write ir ic (t.at' ir ic) dst) t.cols 0 dst) t.rows 0 dst
  | .cell, v, dst => v.write 0 0 d dst
  | .tr b, v, dst => b.write d args v.transpose dst
  | .inv b, v, dst => b.write d args (v.invert (b.rows args) (b.cols args)) dst
  | .lin b, v, dst => b.write d args (v.flatten (b.cols args)) dst
  | .hor bottom es, v, dst => es.writeH d args bottom (if bottom then es.maxRows args else 0) v dst
  | .ver right es, v, dst => es.writeV d args right (if right then es.maxCols args else 0) v dst
/-- The loop of `HorizontalWriter_::Write`, matrixutils.cpp:120-125. -/
def Ws.writeH (d : E) (args : List (Table E)) (bottom : Bool) (height : Nat) : Ws → View → Table E → Option (Table E)
  | .nil, _, dst => some dst
  | .cons e es, temp, dst =>
    let vShift : Int := if bottom then (height : Int) - e.rows args else 0
    let temp := temp.shift vShift 0
    (e.write d args temp dst).bind fun dst => es.writeH d args bottom height (temp.shift (-vShift) (e.cols args)) dst
/-- The loop of `VerticalWriter_::Write`, matrixutils.cpp:151-156. -/
def Ws.writeV (d : E) (args : List (Table E)) (right : Bool) (width : Nat) : Ws → View → Table E → Option (Table E)
  | .nil, _, dst => some dst
  | .cons e es, temp, dst =>
    let hShift : Int := if right then (width : Int) - e.cols args else 0
    let temp := temp.shift 0 hShift
    (e.write d args temp dst).bind fun dst => es.writeV d args right width (temp.shift (e.rows args) (-hShift)) dst
end

/-- The outcome of parsing or formatting. -/
inductive Out (α : Type) where
  | ok (a : α)
  | throws
  | ub

/-- `Matrix::Format` after parsing, matrixutils.cpp:262-265. -/
def formatW (d : E) (args : List (Table E)) (w : W) : Out (Table E) :=
  if w.rows args * w.cols args > 0 then
    match w.write d args View.start ⟨w.rows args, w.cols args, fun _ _ => d⟩ with
    | some t => .ok t
    | none => .ub
  else .throws

/-- The effect of a character on the depth of parentheses. -/
def depthOf (c : Char) : Int := if c = '(' then 1 else if c = ')' then -1 else 0

/-- The loop of `Split`, matrixutils.cpp:185-200: the piece being read is `cur` (`ret_val.back()`). -/
def splitLoop (sep : Char) : List Char → Int → List Char → List (List Char)
  | [], _, cur => [cur]
  | s :: rest, depth, cur =>
    if s = sep ∧ depth = 0 then cur :: splitLoop sep rest depth []
    else splitLoop sep rest (depth + depthOf s) (cur ++ [s])

/-- `Split`. -/
def split (sep : Char) (s : List Char) : List (List Char) := splitLoop sep s 0 []

/-- The loop of `Strip`, matrixutils.cpp:204-212, on the characters from `ps` on: the characters from the final `ps` on. -/
def stripScan : List Char → Int → List Char
  | [], _ => []
  | c :: rest, depth =>
    let depth := depth + depthOf c
    if depth = 0 then c :: rest else stripScan rest depth

/-- `Strip`, matrixutils.cpp:202-216. (On the empty string it compares with an iterator before the beginning; the caller then meets undefined behaviour in
any case.) -/
def strip (fuel : Nat) (s : List Char) : List Char :=
  match fuel with
  | 0 => s
  | fuel + 1 => if stripScan s 0 = [')'] then strip fuel (s.drop 1).dropLast else s

/-- Collecting the results for the pieces, in order; the first failure ends it. -/
def collect : List (Out W) → Out Ws
  | [] => .ok .nil
  | .ok w :: r => match collect r with
    | .ok ws => .ok (.cons w ws)
    | .throws => .throws
    | .ub => .ub
  | .throws :: _ => .throws
  | .ub :: _ => .ub

/-- `new VerticalWriter_(true)` and so on with the elements collected. -/
def Out.mapW (f : Ws → W) : Out Ws → Out W
  | .ok ws => .ok (f ws)
  | .throws => .throws
  | .ub => .ub
/-- Wrapping the writer of the string before a suffix. -/
def Out.wrap (f : W → W) : Out W → Out W
  | .ok w => .ok (f w)
  | .throws => .throws
  | .ub => .ub

/-- `NewWriter` and `XNewWriter`, matrixutils.cpp:218-257. Every recursive call is on a shorter string; `fuel` is the depth allowed. -/
def newWriter : Nat → List Char → Out W
  | 0, _ => .ub
  | fuel + 1, format =>
    let s := strip format.length format
    if 1 < (split ':' s).length then (collect ((split ':' s).map (newWriter fuel))).mapW (.ver true)
    else if 1 < (split ';' s).length then (collect ((split ';' s).map (newWriter fuel))).mapW (.ver false)
    else if 1 < (split '.' s).length then (collect ((split '.' s).map (newWriter fuel))).mapW (.hor true)
    else if 1 < (split ',' s).length then (collect ((split ',' s).map (newWriter fuel))).mapW (.hor false)
    else match s.getLast? with
      | none => .ub
      | some c =>
        if c.toUpper = 'T' then (newWriter fuel s.dropLast).wrap .tr
        else if c.toUpper = 'I' then (newWriter fuel s.dropLast).wrap .inv
        else if c = '*' then (newWriter fuel s.dropLast).wrap .lin
        else if s.length = 1 ∧ '0' ≤ c ∧ c ≤ '9' then .ok (if c = '0' then .cell else .arg (c.toNat - '1'.toNat))
        else .throws

/-- `Matrix::Format`, matrixutils.cpp:260-266. -/
def format (d : E) (args : List (Table E)) (s : List Char) : Out (Table E) :=
  match newWriter (s.length + 1) s with
  | .ok w => formatW d args w
  | .throws => .throws
  | .ub => .ub

end Dal.Fmt
