import Verif.Strings.DictionaryModel

/-! # Model of the Excel interface (public/excel/_excel.cpp, _excel.hpp)

Cells of Excel (`XLOPER12`, _xlcall.hpp:172-214) hold a number, an integer, a text with its length in front, a truth value, an error or nothing, or an array of cells.
Numbers are exact rationals.  Simplifications: arrays hold no arrays (Excel gives none); products of the numbers of rows and columns do not overflow; an array said to be larger than
the memory it has is undefined as soon as it is looked at; memory is always available.  Errors of `REQUIRE` and `THROW` are one outcome. -/

namespace Dal.Excel
open Strings DateText Date Dict

/-- The outcome of a call: a value, an exception, undefined behaviour. -/
inductive Out (α : Type)
  | ok (a : α)
  | throws
  | undefined
  deriving DecidableEq

/-- Going on with the value. -/
def Out.bind {α β : Type} (x : Out α) (f : α → Out β) : Out β :=
  match x with
  | .ok a => f a
  | .throws => .throws
  | .undefined => .undefined

/-- Changing the value. -/
def Out.map {α β : Type} (f : α → β) (x : Out α) : Out β := x.bind fun a => .ok (f a)

/-- Exceptions of functions modelled by options. -/
def Out.of {α : Type} : Option α → Out α
  | some a => .ok a
  | none => .throws

/-- A cell of Excel that is no array; a text is its 16-bit units without the length. -/
inductive Scalar
  | num (q : Rat)
  | int (w : Int)
  | str (s : List Nat)
  | bool (b : Bool)
  | err (code : Int)
  | missing
  | nil
  deriving DecidableEq

/-- `OPER_`: a cell or an array, row after row, with the number of cells in its memory. -/
inductive Oper
  | one (s : Scalar)
  | multi (rows cols alloc : Nat) (cell : Nat → Scalar)

/-- `IsBlank`, _excel.cpp:157-163; a text is blank when its length is 0. -/
def blank : Scalar → Bool
  | .missing => true
  | .nil => true
  | .str s => s.isEmpty
  | _ => false

/-- `IsBlank` of an array is false. -/
def Oper.blank : Oper → Bool
  | .one s => Excel.blank s
  | .multi _ _ _ _ => false

/-- A function of a single cell applied to an array of one cell, as in all of _excel.cpp:735-892. -/
def single {α : Type} (f : Scalar → Out α) : Oper → Out α
  | .one s => f s
  | .multi r c alloc cell => if r * c = 1 then if alloc < 1 then .undefined else f (cell 0) else .throws

/-- `xltypeMissing | xltypeNil`. -/
def Scalar.missing' : Scalar → Bool
  | .missing => true
  | .nil => true
  | _ => false

/-- `ToDouble`, _excel.cpp:735-748; for an integer it reads the number, not the integer that was written. -/
def doubleOf : Scalar → Out Rat
  | .num q => .ok q
  | .int _ => .undefined
  | _ => .throws

/-- `ToDouble`. -/
def toDouble (o : Oper) : Out Rat := single doubleOf o

/-- `ToDouble`, `ToInt`, `ToBool` with a second argument, _excel.cpp:750-754, 772-777, 796-801. -/
def optional {α : Type} (f : Oper → Out α) : Oper → Out (Option α)
  | .one s => if s.missing' then .ok none else (f (.one s)).map some
  | .multi r c alloc cell => (f (.multi r c alloc cell)).map some

/-- `IsZero`, platform.hpp:62 with `EPSILON` 2e-14. -/
def isZero (q : Rat) : Bool := decide (q < 2 / 100000000000000) && decide (-q < 2 / 100000000000000)

/-- `ToInt`, _excel.cpp:756-770. -/
def intOf : Scalar → Out Int
  | .num q => (Out.of (asInt q)).bind fun n => if isZero (q - n) then .ok n else .throws
  | .int _ => .undefined
  | _ => .throws

/-- `ToInt`. -/
def toInt (o : Oper) : Out Int := single intOf o

/-- `ToBool`, _excel.cpp:779-794. -/
def boolOf : Scalar → Out Bool
  | .bool b => .ok b
  | .num q => if q = 0 ∨ q = 1 then .ok (decide (q ≠ 0)) else .throws
  | .int _ => .undefined
  | _ => .throws

/-- `ToBool`, _excel.cpp:779-794. -/
def toTruth (o : Oper) : Out Bool := single boolOf o

/-- A 16-bit unit as a `char`. -/
def fromUnit (u : Nat) : Char := Char.ofNat (u % 256)

/-- `FromPascalString`, _excel.cpp:841-848: the units as characters, and `String_` of them ends at a zero. -/
def fromPascal (s : List Nat) : Str := (s.map fromUnit).takeWhile (fun c => c ≠ Char.ofNat 0)

/-- `ToString`, _excel.cpp:851-868, of a single cell. -/
def stringOf (opt : Bool) : Scalar → Out Str
  | .missing => if opt then .ok [] else .throws
  | .nil => if opt then .ok [] else .throws
  | .str s => .ok (fromPascal s)
  | _ => .throws

/-- `ToString`: inside an array a missing text is an error. -/
def toStr (opt : Bool) : Oper → Out Str
  | .one s => stringOf opt s
  | .multi r c alloc cell => single (stringOf false) (.multi r c alloc cell)

/-- `ToCell`, _excel.cpp:870-892, of a single cell. -/
def cellOf (opt : Bool) (s : Scalar) : Out Cell :=
  if blank s then if opt then .ok .blank else .throws
  else match s with
    | .str t => .ok (.str (fromPascal t))
    | .num q => .ok (.num q)
    | .int _ => .undefined
    | .bool b => .ok (.bool b)
    | _ => .throws

/-- `ToCell`: inside an array a blank cell is an error. -/
def toCell (opt : Bool) : Oper → Out Cell
  | .one s => cellOf opt s
  | .multi r c alloc cell => single (cellOf false) (.multi r c alloc cell)

/-- `Cell::IsEmpty`, cell.hpp:70-74. -/
def cellEmpty : Cell → Bool
  | .blank => true
  | .str s => s.isEmpty
  | _ => false

/-- `ToDate` with a second argument, _excel.cpp:804-817; the optional date that it returns is never empty. -/
def toDateOpt (opt : Bool) (o : Oper) : Out (Option Date) :=
  (toCell opt o).bind fun c =>
    if cellEmpty c then if opt then .ok (some ⟨0⟩) else .throws
    else match c with
      | .num q => (Out.of (asInt q)).bind fun n => if (n : Rat) = q then .ok (some (fromExcel n)) else .throws
      | .date d => .ok (some d)
      | _ => .throws

/-- `ToDate`, _excel.cpp:803; `value()` of nothing throws. -/
def toDate (o : Oper) : Out Date := (toDateOpt false o).bind Out.of

/-- `ToDateTime`, _excel.cpp:819-831. -/
def toDateTime (opt : Bool) (o : Oper) : Out DateTime :=
  (toCell opt o).bind fun c =>
    if cellEmpty c then if opt then .ok ⟨⟨0⟩, 0⟩ else .throws
    else match c with
      | .num q => (Out.of (asInt q)).bind fun n => Out.of (mkFrac (fromExcel n) (q - n))
      | .dateTime t => .ok t
      | _ => .throws

/-- The rows of `ToDictionary`, _excel.cpp:907-914, from row `i` on, `n` of them. -/
def dictRows (sgn : Bool) (cell : Nat → Scalar) : Nat → Nat → Dictionary → Out Dictionary
  | 0, _, d => .ok d
  | n + 1, i, d =>
    if !blank (cell (2 * i + 1)) then
      (stringOf false (cell (2 * i))).bind fun k => (cellOf false (cell (2 * i + 1))).bind fun v =>
        (Out.of (insert sgn d k v)).bind fun d => dictRows sgn cell n (i + 1) d
    else if blank (cell (2 * i)) then .ok d
    else dictRows sgn cell n (i + 1) d

/-- `ToDictionary`, _excel.cpp:894-916. -/
def toDictionary (sgn : Bool) : Oper → Out Dictionary
  | .one s => if s.missing' then .ok [] else .throws
  | .multi r c alloc cell => if c = 2 then if alloc < r * c then .undefined else dictRows sgn cell r 0 [] else .throws

/-- The loop of `ReadVector`, _excel.cpp:944-950, from entry `i` on, `n` of them. -/
def readFrom {α : Type} (f : Scalar → Out α) (cell : Nat → Scalar) : Nat → Nat → Out (List α)
  | 0, _ => .ok []
  | n + 1, i => if blank (cell i) then .ok [] else (f (cell i)).bind fun a => (readFrom f cell n (i + 1)).map fun l => a :: l

/-- `ReadVector`, _excel.cpp:930-953. -/
def readVector {α : Type} (opt : Bool) (f : Scalar → Out α) : Oper → Out (List α)
  | .one s => if blank s then if opt then .ok [] else .throws else (f s).map fun a => [a]
  | .multi r c alloc cell =>
    if r = 1 ∨ c = 1 then
      if alloc < r * c then .undefined
      else (readFrom f cell (r * c) 0).bind fun l => if l.isEmpty ∧ !opt then .throws else .ok l
    else .throws

/-- `std::find_if` for a blank among `n` cells. -/
def firstBlank (cell : Nat → Scalar) : Nat → Nat → Nat
  | 0, i => i
  | n + 1, i => if blank (cell i) then i else firstBlank cell n (i + 1)

/-- All of the first `cols` cells of a row are blank. -/
def rowBlank (cell : Nat → Scalar) (nc row cols : Nat) : Bool := (List.range cols).all fun j => blank (cell (row * nc + j))

/-- All of the first `rows` cells of a column are blank. -/
def colBlank (cell : Nat → Scalar) (nc col rows : Nat) : Bool := (List.range rows).all fun i => blank (cell (i * nc + col))

/-- The first row from `row` on, `n` of them, that is blank, _excel.cpp:998-1002. -/
def moreRows (cell : Nat → Scalar) (nc cols : Nat) : Nat → Nat → Nat
  | 0, row => row
  | n + 1, row => if rowBlank cell nc row cols then row else moreRows cell nc cols n (row + 1)

/-- The first column from `col` on, `n` of them, that is blank, _excel.cpp:1004-1010. -/
def moreCols (cell : Nat → Scalar) (nc rows : Nat) : Nat → Nat → Nat
  | 0, col => col
  | n + 1, col => if colBlank cell nc col rows then col else moreCols cell nc rows n (col + 1)

/-- The outer loop, _excel.cpp:995-1013; fuel for its turns. -/
def grow (cell : Nat → Scalar) (nr nc : Nat) : Nat → Nat → Nat → Option (Nat × Nat)
  | 0, _, _ => none
  | fuel + 1, rows, cols =>
    let rows' := moreRows cell nc cols (nr - rows) rows
    let cols' := moreCols cell nc rows' (nc - cols) cols
    if rows' = rows ∧ cols' = cols then some (rows', cols') else grow cell nr nc fuel rows' cols'

/-- `NonblankSize`, _excel.cpp:979-1014; `none` would be a loop without end. -/
def nonblankSize (nr nc : Nat) (cell : Nat → Scalar) : Option (Nat × Nat) :=
  if nr * nc = 0 then some (0, 0)
  else if nr = 1 ∨ nc = 1 then
    let size := firstBlank cell (nr * nc) 0
    some (if nr = 1 then (1, size) else (size, 1))
  else if blank (cell 0) && blank (cell 1) && blank (cell nc) then some (0, 0)
  else grow cell nr nc (nr + nc) 1 1

/-- A matrix by its entries. -/
structure Mat (α : Type) where
  rows : Nat
  cols : Nat
  val : Nat → Nat → α

/-- Reading the entries of one row. -/
def readRow {α : Type} (f : Scalar → Out α) (cell : Nat → Scalar) : Nat → Nat → Out (List α)
  | 0, _ => .ok []
  | n + 1, k => (f (cell k)).bind fun a => (readRow f cell n (k + 1)).map fun l => a :: l

/-- Reading the rows. -/
def readRows {α : Type} (f : Scalar → Out α) (cell : Nat → Scalar) (nc cols : Nat) : Nat → Nat → Out (List (List α))
  | 0, _ => .ok []
  | n + 1, i => (readRow f cell cols (i * nc)).bind fun r => (readRows f cell nc cols n (i + 1)).map fun l => r :: l

/-- `ToMatrix`, _excel.cpp:1016-1045, as its size and its rows. -/
def toMatrix {α : Type} (opt greedy : Bool) (f : Scalar → Out α) : Oper → Out (Nat × Nat × List (List α))
  | .one s => if s.missing' then if opt then .ok (0, 0, []) else .throws else (f s).map fun a => (1, 1, [[a]])
  | .multi nr nc alloc cell =>
    if alloc < nr * nc then .undefined
    else match (if greedy then some (nr, nc) else nonblankSize nr nc cell) with
      | none => .undefined
      | some (r, c) => if r * c = 0 then if opt then .ok (0, 0, []) else .throws
        else (readRows f cell nc c r 0).map fun l => (r, c, l)

/-- `RowReader_::Rows`, _excel.cpp:1079-1084. -/
def rowsOf : Oper → Out Nat
  | .one s => if blank s then .ok 0 else .throws
  | .multi nr nc alloc cell =>
    if alloc < nr * nc then .undefined
    else match nonblankSize nr nc cell with
      | none => .undefined
      | some (r, _) => .ok r

/-- `ReaderExtract`, _excel.cpp:1092-1097; rows outside the array are undefined. -/
def extract {α : Type} (f : Scalar → Out α) (o : Oper) (row col : Nat) : Out α :=
  match o with
  | .one _ => .undefined
  | .multi nr nc alloc cell =>
    if nr ≤ row ∨ alloc < nr * nc then .undefined else if col < nc then f (cell (col + nc * row)) else .throws

/-- `ReaderExtractOrDefault`, _excel.cpp:1098-1105. -/
def extractOr {α : Type} (f : Scalar → Out α) (o : Oper) (row col : Nat) (dflt : α) : Out α :=
  match o with
  | .one _ => .undefined
  | .multi nr nc alloc cell =>
    if nr ≤ row ∨ alloc < nr * nc then .undefined
    else if nc ≤ col then .ok dflt
    else if blank (cell (col + nc * row)) then .ok dflt else f (cell (col + nc * row))

/-- The loop of `ToRecordVector`, _excel.hpp:121-127: the number of rows is asked for before each record. -/
def recordsFrom {α : Type} (mk : Oper → Nat → Out α) (o : Oper) : Nat → Nat → Out (List α)
  | 0, _ => .undefined
  | fuel + 1, row => (rowsOf o).bind fun n =>
    if row < n then (mk o row).bind fun a => (recordsFrom mk o fuel (row + 1)).map fun l => a :: l else .ok []

/-- The fuel that is enough: a record for each row and one more question. -/
def recordFuel : Oper → Nat
  | .one _ => 1
  | .multi nr _ _ _ => nr + 1

/-- `ToRecordVector`, _excel.hpp:121-127. -/
def toRecords {α : Type} (opt : Bool) (mk : Oper → Nat → Out α) (o : Oper) : Out (List α) :=
  (recordsFrom mk o (recordFuel o) 0).bind fun l => if !opt ∧ l.isEmpty then .throws else .ok l

/-! ### Results -/

/-- A `char` as a 16-bit unit: `char` is signed. -/
def toUnit (c : Char) : Nat := if c.toNat < 128 then c.toNat else c.toNat + 65280

/-- `WriteToOper`, _excel.cpp:372-383. -/
def writeStr (s : Str) : Scalar := .str ((s.take 65535).map toUnit)

/-- `WriteExcelCell_`, _excel.cpp:1164-1199. -/
def writeCell : Cell → Scalar
  | .blank => writeStr []
  | .num q => .num q
  | .bool b => .bool b
  | .str s => writeStr s
  | .date d => .num (toExcel d)
  | .dateTime t => .num (toExcel t.date + t.frac)

/-- What a function returns, `Retval_`, _excel.hpp:145-173: single values, vectors and matrices in the order they were given. -/
structure Retval where
  scalars : List Cell := []
  vectors : List (List Cell) := []
  matrices : List (Mat Cell) := []

/-- `Load` of a value. -/
def Retval.loadS (r : Retval) (c : Cell) : Retval := { r with scalars := r.scalars ++ [c] }

/-- `Load` of a vector. -/
def Retval.loadV (r : Retval) (v : List Cell) : Retval := { r with vectors := r.vectors ++ [v] }

/-- `Load` of a matrix. -/
def Retval.loadM (r : Retval) (m : Mat Cell) : Retval := { r with matrices := r.matrices ++ [m] }

/-- Writing a cell of the array. -/
def put (a : Nat → Scalar) (k : Nat) (c : Cell) : Nat → Scalar := fun i => if i = k then writeCell c else a i

/-- Writing values below each other: `l` from row `i` on, in column `col` of an array `nc` wide. -/
def putCol (nc col : Nat) : List Cell → Nat → (Nat → Scalar) → (Nat → Scalar)
  | [], _, a => a
  | c :: l, i, a => putCol nc col l (i + 1) (put a (col + i * nc) c)

/-- Writing the first `n` columns of row `i` of a matrix. -/
def putRow (nc off : Nat) (m : Mat Cell) (i : Nat) : Nat → (Nat → Scalar) → (Nat → Scalar)
  | 0, a => a
  | n + 1, a => put (putRow nc off m i n a) (off + n + i * nc) (m.val i n)

/-- Writing the first `n` rows of a matrix. -/
def putMat (nc off : Nat) (m : Mat Cell) : Nat → (Nat → Scalar) → (Nat → Scalar)
  | 0, a => a
  | n + 1, a => putRow nc off m n m.cols (putMat nc off m n a)

/-- Vectors side by side. -/
def putVectors (nc : Nat) : List (List Cell) → Nat → (Nat → Scalar) → (Nat → Scalar)
  | [], _, a => a
  | v :: vs, off, a => putVectors nc vs (off + 1) (putCol nc off v 0 a)

/-- Matrices side by side. -/
def putMatrices (nc : Nat) : List (Mat Cell) → Nat → (Nat → Scalar) → (Nat → Scalar)
  | [], _, a => a
  | m :: ms, off, a => putMatrices nc ms (off + m.cols) (putMat nc off m m.rows a)

/-- The number of rows, _excel.cpp:1293-1300. -/
def Retval.nRows (r : Retval) : Nat := (r.matrices.map Mat.rows).foldl max ((r.vectors.map List.length).foldl max r.scalars.length)

/-- The number of columns, _excel.cpp:1296-1300. -/
def Retval.nCols (r : Retval) : Nat := (r.matrices.map Mat.cols).foldl (· + ·) ((if r.scalars.isEmpty then 0 else 1) + r.vectors.length)

/-- `ToXloper`, _excel.cpp:1290-1328: at least one row is announced, whatever memory there is. -/
def Retval.toXloper (r : Retval) : Oper :=
  let nc := r.nCols
  let off := if r.scalars.isEmpty then 0 else 1
  .multi (max r.nRows 1) nc (r.nRows * nc)
    (putMatrices nc r.matrices (off + r.vectors.length) (putVectors nc r.vectors off (putCol nc 0 r.scalars 0 fun _ => .missing)))

end Dal.Excel
