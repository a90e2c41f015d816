import Verif.Strings.DictionaryModel
import Verif.Indice.NameModel
import Verif.Util.VectorModel

/-! # Model of the indices of interest rates (index/ir.hpp, index/ir.cpp)

Cells are those of `Verif.Strings.DictionaryModel`, exceptions are `throws`, reading the null text of an unset enumerator is `undefined`. The business-day
rules (`Libor::StartFromFix`) and the tenors (`Date::ParseIncrement` with `FwdFrom`) are modelled elsewhere (C11, C70) and are parameters here. Texts are
compared exactly; `String_` also ignores case. -/

namespace Dal.RateIndex

open Dal.Strings Dal.DateText Dal.Date Dal.Dict Dal.Containers

/-- The rules a start depends on: the spot date of a fixing, and tenors from a date. -/
structure Rules where
  spot : Str → Date → Res Date
  fwd : Str → Date → Res Date

/-- `Cell::IsEmpty`, cell.hpp:70-74. -/
def isEmpty : Cell → Bool
  | .str s => s.isEmpty
  | .blank => true
  | _ => false

/-- `Cell::IsInt`, cell.cpp:43-49. -/
def isInt : Cell → Res Bool
  | .num q => match Dict.asInt q with
    | some n => .ok (decide ((n : Rat) = q))
    | none => .throws
  | _ => .ok false

/-- `Cell::ToInt`, cell.cpp:33-41. -/
def toInt : Cell → Res Int
  | .num q => match Dict.asInt q with
    | some n => if (n : Rat) = q then .ok n else .throws
    | none => .throws
  | .bool b => .ok (if b then 1 else 0)
  | _ => .throws

/-- `DateFromCell`, ir.cpp:14-27. -/
def dateFromCell (R : Rules) (c : Cell) (fix : Date) : Res Date :=
  if isEmpty c then .ok fix
  else (isInt c).bind fun b =>
    if b then (toInt c).bind fun n => .ok (addDays fix n)
    else match c with
      | .date d => .ok d
      | .dateTime t => .ok t.date
      | .str s => R.fwd s fix
      | _ => .throws

/-- `MatPostfix`, ir.cpp:29-39. -/
def matPostfix : Cell → Res Str
  | .str s => .ok s
  | .date d => .ok (toString' d)
  | _ => .throws

/-- `StartPostfix`, ir.cpp:41-46. -/
def startPostfix (c : Cell) : Res Str := if isEmpty c then .ok [] else (matPostfix c).bind fun s => .ok (',' :: s)

/-- The text of an enumerator. -/
def enumText (t : EnumTable) (v : Str) : Res Str :=
  match printEnum t v with
  | some s => .ok s
  | none => .undefined

/-- `IRForward_` with `Libor_` or `Swap_`, ir.hpp:16-41. -/
inductive Forward
  | libor (ccy tenor : Str) (start : Cell)
  | swap (ccy tenor : Str) (start : Cell)
  deriving DecidableEq

def Forward.ccy : Forward → Str
  | .libor c _ _ => c
  | .swap c _ _ => c

def Forward.start : Forward → Cell
  | .libor _ _ s => s
  | .swap _ _ s => s

/-- `IRForward_::StartDate`, ir.cpp:50-55. -/
def Forward.startDate (R : Rules) (f : Forward) (fix : DateTime) : Res Date :=
  (dateFromCell R f.start fix.date).bind fun temp =>
    match f.start with
    | .date _ => .ok temp
    | _ => R.spot f.ccy temp

/-- `Libor_::Name` and `Swap_::Name`, ir.cpp:57-64. -/
def Forward.name : Forward → Res Str
  | .libor c t s => (enumText ccyTable c).bind fun c => (enumText tradedRateTable t).bind fun t => (startPostfix s).bind fun s =>
      .ok ("IR:".toList ++ c ++ [','] ++ t ++ s)
  | .swap c t s => (enumText ccyTable c).bind fun c => (startPostfix s).bind fun s => .ok ("IR:".toList ++ c ++ [','] ++ t ++ s)

/-- `DF_`, ir.hpp:43-61; the collateral is the name of the enumerator, `none` when not set. -/
structure DF where
  ccy : Str
  maturity : Cell
  collateral : Option Str
  start : Cell
  deriving DecidableEq

/-- The constructor of `DF_`, ir.hpp:52-56: the collateral is not among the members that are set. -/
def mkDF (ccy : Str) (maturity : Cell) (start : Option Cell) (_coll : Option Str) : DF := ⟨ccy, maturity, none, start.getD .blank⟩

/-- `DF_::Name`, ir.cpp:66-68. -/
def DF.name (f : DF) : Res Str :=
  (enumText ccyTable f.ccy).bind fun c => (startPostfix f.start).bind fun s => (matPostfix f.maturity).bind fun m =>
    .ok ("IR[DF]:".toList ++ c ++ s ++ [','] ++ m)

/-- `DF_::StartDate`, ir.cpp:70-72. -/
def DF.startDate (R : Rules) (f : DF) (fix : DateTime) : Res Date := dateFromCell R f.start fix.date

/-- `DF_::Maturity`, ir.cpp:74-76. -/
def DF.maturityDate (R : Rules) (f : DF) (fix : DateTime) : Res Date := dateFromCell R f.maturity fix.date

end Dal.RateIndex
