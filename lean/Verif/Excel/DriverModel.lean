import Mathlib.Data.Int.Order.Basic
import Mathlib.Data.List.Basic

/-! # Model of the driver that writes charts and matrices to sheets (excel/exceldriverlite.cpp)

A sheet is what its cells hold.  Of Excel the model has cells, sheets, charts with their ranges, and the
rule that names are acceptable and of one sheet only (parameters `valid` and `same`).  A sheet or a chart
that has not been named has the name Excel gives it (`none`), which is taken to differ from all others.
Axes, titles and types of charts are not modelled, nor are the ends of sheets. -/

namespace Dal.Driver

/-- Texts. -/
abbrev Str := List Char

/-- The content of a cell. -/
inductive Content (V : Type)
  | text (s : Str)
  | number (v : V)
  deriving DecidableEq

/-- The cells of a sheet by row and column; `none` is an empty cell. -/
abbrev Sheet (V : Type) := Int → Int → Option (Content V)

variable {V : Type}

/-- `Item[row][col] = ...`. -/
def put (s : Sheet V) (r c : Int) (x : Content V) : Sheet V := fun r' c' => if r' = r ∧ c' = c then some x else s r' c'

/-- The loop of `ToSheetHorizontal`, exceldriverlite.cpp:32-37. -/
def rightLoop (s : Sheet V) (r c : Int) : List V → Sheet V
  | [] => s
  | v :: vs => rightLoop (put s r c (.number v)) r (c + 1) vs

/-- `ToSheetHorizontal`, exceldriverlite.cpp:16-38. -/
def toRight (s : Sheet V) (r c : Int) (label : Str) (vs : List V) : Sheet V := rightLoop (put s r c (.text label)) r (c + 1) vs

/-- The loop of `ToSheetVertical`, exceldriverlite.cpp:58-63. -/
def downLoop (s : Sheet V) (r c : Int) : List V → Sheet V
  | [] => s
  | v :: vs => downLoop (put s r c (.number v)) (r + 1) c vs

/-- `ToSheetVertical`, exceldriverlite.cpp:42-64. -/
def toDown (s : Sheet V) (r c : Int) (label : Str) (vs : List V) : Sheet V := downLoop (put s r c (.text label)) (r + 1) c vs

/-- The cells from the first row and column to the last. -/
structure Range where
  firstRow : Int
  firstCol : Int
  lastRow : Int
  lastCol : Int
  deriving DecidableEq

/-- The workbook: the sheet "Chart Data", the column of the next chart (`curDataColumn_`), the other sheets, and the charts. -/
structure Book (V : Type) where
  data : Sheet V
  cur : Int
  sheets : List (Option Str × Sheet V)
  charts : List (Option Str × Range)

/-- How a call ends. -/
inductive End
  | ok
  | throws
  | undefined
  deriving DecidableEq

/-- The constructor, exceldriverlite.cpp:78-94; the argument is 1 for the shared instance. -/
def start (column : Int) : Book V := ⟨fun _ _ => none, column, [], []⟩

/-- The name of the sheet of the charts. -/
def dataName : Str := "Chart Data".toList

/-- The rule of names. -/
def free (valid : Str → Bool) (same : Str → Str → Bool) (b : Book V) (n : Str) : Bool :=
  valid n && !same n dataName && !b.sheets.any (fun s => s.1.any (same n)) && !b.charts.any (fun s => s.1.any (same n))

/-- The loop over the vectors, exceldriverlite.cpp:141-151; the labels are read through an iterator that is not checked. -/
def columns (s : Sheet V) (c : Int) : List Str → List (List V) → Sheet V × Int × Bool
  | _, [] => (s, c, true)
  | [], _ :: _ => (s, c, false)
  | l :: ls, v :: vs => columns (toDown s 1 c l v) (c + 1) ls vs

/-- `CreateChart`, exceldriverlite.cpp:117-182: the data, the range, the chart, its name, and a column that stays empty. -/
def createChart (valid : Str → Bool) (same : Str → Str → Bool) (b : Book V) (x : List V) (labels : List Str) (vectors : List (List V)) (title xTitle : Str) : Book V × End :=
  let endRow : Int := x.length + 1
  let endCol : Int := b.cur + vectors.length
  let p := columns (toDown b.data 1 b.cur xTitle x) (b.cur + 1) labels vectors
  if p.2.2 then
    let range : Range := ⟨1, b.cur, endRow, endCol⟩
    let b' : Book V := { b with data := p.1, cur := p.2.1 }
    if free valid same b' title then ({ b' with charts := b'.charts ++ [(some title, range)], cur := p.2.1 + 1 }, .ok)
    else ({ b' with charts := b'.charts ++ [(none, range)] }, .throws)
  else ({ b with data := p.1, cur := p.2.1 }, .undefined)

/-- `CreateChart` of one function, exceldriverlite.cpp:190-200. -/
def createChart1 (valid : Str → Bool) (same : Str → Str → Bool) (b : Book V) (x y : List V) (title xTitle : Str) : Book V × End :=
  createChart valid same b x [title] [y] title xTitle

/-- The labels of the columns, exceldriverlite.cpp:223-227. -/
def labelsRight (s : Sheet V) (r c : Int) : List Str → Sheet V
  | [] => s
  | l :: ls => labelsRight (put s r c (.text l)) r (c + 1) ls

/-- The rows, exceldriverlite.cpp:230-237; the labels are read through an iterator that is not checked. -/
def rowsDown (s : Sheet V) (r c : Int) : List Str → List (List V) → Sheet V × Bool
  | _, [] => (s, true)
  | [], _ :: _ => (s, false)
  | l :: ls, v :: vs => rowsDown (toRight s r c l v) (r + 1) c ls vs

/-- A new sheet with its name, exceldriverlite.cpp:216-218: when the name is refused the sheet stays as it is. -/
def addSheet (valid : Str → Bool) (same : Str → Str → Bool) (b : Book V) (n : Str) (fill : Sheet V × Bool) : Book V × End :=
  if free valid same b n then ({ b with sheets := b.sheets ++ [(some n, fill.1)] }, if fill.2 then .ok else .undefined)
  else ({ b with sheets := b.sheets ++ [(none, fun _ _ => none)] }, .throws)

/-- `AddMatrix` with labels, exceldriverlite.cpp:209-238; the matrix is the list of its rows. -/
def addMatrix (valid : Str → Bool) (same : Str → Str → Bool) (b : Book V) (m : List (List V)) (name : Str) (rowLabels colLabels : List Str) (r c : Int) : Book V × End :=
  addSheet valid same b name (rowsDown (labelsRight (fun _ _ => none) r (c + 1) colLabels) (r + 1) c rowLabels m)

/-- `AddMatrix` without labels, exceldriverlite.cpp:240-261. -/
def addPlain (valid : Str → Bool) (same : Str → Str → Bool) (b : Book V) (m : List (List V)) (name : Str) (r c : Int) : Book V × End :=
  addSheet valid same b name (rowsDown (fun _ _ => none) r c (List.replicate m.length []) m)

/-- `AddVector`, exceldriverlite.cpp:264-268 and 270-280. -/
def addVector (valid : Str → Bool) (same : Str → Str → Bool) (b : Book V) (v : List V) (name rowLabel : Str) (colLabels : List Str) (r c : Int) : Book V × End :=
  addMatrix valid same b [v] name [rowLabel] colLabels r c

/-- `AddVector` without labels. -/
def addPlainVector (valid : Str → Bool) (same : Str → Str → Bool) (b : Book V) (v : List V) (name : Str) (r c : Int) : Book V × End := addPlain valid same b [v] name r c

/-- The loop of `PrintStringInExcel`, exceldriverlite.cpp:302-305. -/
def linesDown (s : Sheet V) (r c : Int) : List Str → Sheet V
  | [] => s
  | l :: ls => linesDown (put s r c (.text l)) (r + 1) c ls

/-- `PrintStringInExcel`, exceldriverlite.cpp:284-306, of one or many texts. -/
def printLines (b : Book V) (ls : List Str) (r c : Int) : Book V := { b with sheets := b.sheets ++ [(none, linesDown (fun _ _ => none) r c ls)] }

/-- Calls of the driver. -/
inductive Call (V : Type)
  | chart (x : List V) (labels : List Str) (vectors : List (List V)) (title xTitle : Str)
  | matrix (m : List (List V)) (name : Str) (rowLabels colLabels : List Str) (r c : Int)
  | plain (m : List (List V)) (name : Str) (r c : Int)
  | lines (ls : List Str) (r c : Int)

/-- One call. -/
def step (valid : Str → Bool) (same : Str → Str → Bool) (b : Book V) : Call V → Book V × End
  | .chart x labels vectors title xTitle => createChart valid same b x labels vectors title xTitle
  | .matrix m name rl cl r c => addMatrix valid same b m name rl cl r c
  | .plain m name r c => addPlain valid same b m name r c
  | .lines ls r c => (printLines b ls r c, .ok)

/-- Calls one after the other; exceptions are caught by the caller. Nothing follows undefined behaviour. -/
def run (valid : Str → Bool) (same : Str → Str → Bool) : Book V → List (Call V) → Book V × Bool
  | b, [] => (b, true)
  | b, k :: ks =>
    let p := step valid same b k
    if p.2 = .undefined then (p.1, false) else run valid same p.1 ks

end Dal.Driver
