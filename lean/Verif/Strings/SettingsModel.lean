import Verif.Strings.DictionaryModel
import Verif.Numeric.UnderModel

/-! # Model of the kinds of cells and of settings from dictionaries (cell.cpp, cellutils.cpp, MG_UnderdeterminedControls_object.inc)

Cells, dictionaries and their texts are those of `DictionaryModel`; numbers are exact rationals. -/

namespace Dal.Settings
open Strings DateText Date Dict Under

/-! ### Cells -/

/-- `Cell::ToDouble`, cell.cpp:27-31; `none` is an exception. -/
def toDouble : Cell → Option Rat
  | .num q => some q
  | .bool b => some (if b then 1 else 0)
  | _ => none

/-- `Cell::IsEmpty`, cell.hpp:70-74. -/
def isEmpty : Cell → Bool
  | .str s => s = []
  | .blank => true
  | _ => false

/-- `Cell::ToInt`, cell.cpp:33-41. -/
def toInt : Cell → Option Int
  | .num q => (asInt q).bind fun n => if (n : Rat) = q then some n else none
  | .bool b => some (if b then 1 else 0)
  | _ => none

/-- `Cell::IsInt`, cell.cpp:43-49: a large number is an exception. -/
def isInt : Cell → Option Bool
  | .num q => (asInt q).map fun (n : Int) => decide ((n : Rat) = q)
  | _ => some false

/-- `Cell::ToBool`, cell.cpp:72-76. -/
def toTruth : Cell → Option Bool
  | .bool b => some b
  | _ => none

/-- `Cell::ToDate`, cell.cpp:78-82. -/
def toDate : Cell → Option Date
  | .date d => some d
  | _ => none

/-- `Cell::ToDateTime`, cell.cpp:84-88. -/
def toDateTime : Cell → Option DateTime
  | .dateTime t => some t
  | _ => none

/-- `Cell::ToString`, cell.cpp:14-25. -/
def toStr (N : NumText) : Cell → Option Str
  | .num q => (asInt q).map fun (n : Int) => if (n : Rat) = q then intText n else N.write q
  | .bool b => some (if b then "TRUE".toList else "FALSE".toList)
  | .str s => some s
  | .date d => some (toString' d)
  | .dateTime t => some (dateTimeText t)
  | .blank => some []

/-- `Cell::FromInt`, cell.hpp:101. -/
def fromInt (n : Int) : Cell := .num n

/-- `Cell::ConvertString`, cellutils.cpp:32-48; texts are compared without case. -/
def convertString (sgn : Bool) (N : NumText) (s : Str) : Option Cell :=
  if s = [] then some .blank
  else if (N.read s).isSome then (N.read s).map .num
  else if isDateString s then (fromString s).map .date
  else if isDateTimeString s then (dateTimeFromString s).map .dateTime
  else if eqS sgn s "TRUE".toList then some (.bool true)
  else if eqS sgn s "FALSE".toList then some (.bool false)
  else some (.str s)

/-! ### Settings -/

/-- `Dictionary::Extract` without a default, dictionary.hpp:40-43. -/
def extract {α : Type} (sgn : Bool) (d : Dictionary) (key : Str) (translate : Cell → Option α) : Option α := (lookup sgn d key false).bind translate

/-- `Dictionary::Extract` with a default, dictionary.hpp:34-38. -/
def extractOr {α : Type} (sgn : Bool) (d : Dictionary) (key : Str) (translate : Cell → Option α) (defVal : α) : Option α :=
  if has sgn d key then (lookup sgn d key false).bind translate else some defVal

/-- The constructor of `UnderdeterminedControls_` from a dictionary, MG_UnderdeterminedControls_object.inc:3-17. -/
def make (sgn : Bool) (d : Dictionary) : Option (Controls Rat) := do
  let e ← extract sgn d "MAXEVALUATIONS".toList toInt
  let r ← extract sgn d "MAXRESTARTS".toList toInt
  let b ← extractOr sgn d "MAXBACKTRACKTRIES".toList toInt 5
  let rt ← extractOr sgn d "RESTARTTOLERANCE".toList toDouble (2 / 5)
  let bt ← extractOr sgn d "BACKTRACKTOLERANCE".toList toDouble (1 / 10)
  let mb ← extractOr sgn d "MAXBACKTRACK".toList toDouble (4 / 5)
  if e > 0 ∧ r > 0 ∧ (rt ≥ 0 ∧ rt ≤ 1) ∧ mb > bt ∧ mb < 1 then some ⟨e, r, b, rt, bt, mb⟩ else none

/-- `UnderdeterminedControls_::Data`, MG_UnderdeterminedControls_object.inc:18-28. -/
def data (sgn : Bool) (c : Controls Rat) : Option Dictionary := do
  let d ← insert sgn [] "MAXEVALUATIONS".toList (fromInt c.maxEvaluations)
  let d ← insert sgn d "MAXRESTARTS".toList (fromInt c.maxRestarts)
  let d ← insert sgn d "MAXBACKTRACKTRIES".toList (fromInt c.maxBacktrackTries)
  let d ← insert sgn d "RESTARTTOLERANCE".toList (.num c.restartTolerance)
  let d ← insert sgn d "BACKTRACKTOLERANCE".toList (.num c.backtrackTolerance)
  insert sgn d "MAXBACKTRACK".toList (.num c.maxBacktrack)

end Dal.Settings
