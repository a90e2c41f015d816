import Verif.Time.DateTextModel
import Verif.Strings.EnumTables

/-!
# Names of indices and their parsers

Source: `dal/indice/index/equity.cpp`, `dal/indice/parser/equity.cpp`, `dal/indice/index/fx.cpp`, `dal/indice/parser/fx.cpp`, `dal/indice/parser/init.cpp`,
`dal/indice/indexparse.cpp`.

Positions are natural numbers below `2^64` with `npos` the largest one; additions and subtractions wrap. A thrown exception is `none` inside parsers. Dates
and their text are those of `Verif.Time`, currencies those of `Verif.Strings.EnumTables`; `sgn` says whether `char` is signed (see `Verif.Strings`).
-/

namespace Dal.IndexName

open Dal.Strings Dal.DateText Dal.Date

/-- `String_::npos`. -/
def npos : Nat := 2 ^ 64 - 1

/-- `size_t` addition and subtraction. -/
def wadd (a b : Nat) : Nat := (a + b) % 2 ^ 64
def wsub (a b : Nat) : Nat := (a + 2 ^ 64 - b) % 2 ^ 64

/-- `find_first_of(cs, start)`. -/
def findFirstOf (s : List Char) (cs : List Char) (start : Nat) : Nat :=
  match (s.drop start).findIdx? (· ∈ cs) with
  | some i => start + i
  | none => npos

/-- `substr(pos, count)`; `none` is `std::out_of_range`. -/
def substr (s : List Char) (pos count : Nat) : Option (List Char) := if pos ≤ s.length then some ((s.drop pos).take count) else none

/-- The cell `delivery_` of an equity index (`equity.hpp` 12, `equity.cpp` 20–28). -/
inductive Delivery where
  | spot
  | date (d : Date)
  | delay (s : List Char)
  deriving DecidableEq

/-- `Equity_` (`equity.hpp` 11–19). -/
structure Equity where
  name : List Char
  delivery : Delivery
  deriving DecidableEq

/-- `Equity_::Name` (`index/equity.cpp` 11–18). -/
def Equity.text (e : Equity) : List Char :=
  "EQ[".toList ++ e.name ++ [']'] ++ match e.delivery with
    | .delay s => '>' :: s
    | .date d => '@' :: toString' d
    | .spot => []

/-- `EquityParser` (`parser/equity.cpp` 12–29). -/
def equityParser (s : List Char) : Option Equity :=
  let start := findFirstOf s ['['] 0
  let stop := findFirstOf s [']'] 0
  (substr s (wadd start 1) (wsub (wsub stop start) 1)).bind fun name =>
    let tenor := findFirstOf s ['@', '>'] (wadd stop 1)
    if tenor = npos then some ⟨name, .spot⟩
    else if s[tenor]? = some '@' then
      (substr s (tenor + 1) (wsub (wsub s.length tenor) 1)).bind fun t => (fromString t).bind fun d => some ⟨name, .date d⟩
    else if s[tenor]? = some '>' then (substr s (tenor + 1) (wsub (wsub s.length tenor) 1)).bind fun t => some ⟨name, .delay t⟩
    else none

/-- `Fx_` (`fx.hpp` 12–21): the names of the enumerators. -/
structure Fx where
  dom : Str
  fgn : Str
  deriving DecidableEq

/-- `Fx_::XName` (`index/fx.cpp` 15–18); `none` is reading the null text of an unset currency. -/
def Fx.xname (f : Fx) (invert : Bool) : Option (List Char) :=
  (printEnum ccyTable (if invert then f.dom else f.fgn)).bind fun a => (printEnum ccyTable (if invert then f.fgn else f.dom)).bind fun b =>
    some ("FX[".toList ++ a ++ ['/'] ++ b ++ [']'])

/-- `Fx_::Name` (`fx.hpp` 18). -/
def Fx.text (f : Fx) : Option (List Char) := f.xname false

/-- `FxParser` (`parser/fx.cpp` 11–20). -/
def fxParser (sgn : Bool) (s : List Char) : Option Fx :=
  let start := findFirstOf s ['['] 0
  let stop := findFirstOf s [']'] 0
  let sep := findFirstOf s ['/'] 0
  if start ≠ npos ∧ stop ≠ npos ∧ sep ≠ npos then
    (substr s (wadd start 1) (wsub (wsub sep start) 1)).bind fun fgn => (substr s (wadd sep 1) (wsub (wsub stop sep) 1)).bind fun dom =>
      (readEnum sgn ccyTable dom).bind fun d => (readEnum sgn ccyTable fgn).bind fun f => some ⟨d, f⟩
  else none

/-- The indices that the parsers make. -/
inductive Index where
  | equity (e : Equity)
  | fx (f : Fx)
  deriving DecidableEq

/-- What `Index::Parse` does. -/
inductive Parsed where
  | null
  | throws
  | index (i : Index)
  deriving DecidableEq

/-- The registered parsers: the abbreviations and the functions (`indexparse.cpp` 20, `parser/init.cpp` 17–22). -/
abbrev Registry := List (List Char × (List Char → Option Index))

/-- `IndexParsers_::Init` (`parser/init.cpp` 17–22) on an empty registry. -/
def registry : Registry := [("EQ".toList, fun s => (equityParser s).map .equity)]

/-- `Index::Parse` and `ParseSingle` (`indexparse.cpp` 22–40); composites and super shots are stubs that return null (lines 18 and 33). The registry is
searched by the exact abbreviation; the order of `String_` also ignores case, which is left out. -/
def parseIndex (r : Registry) (s : List Char) : Parsed :=
  let stop := findFirstOf s [':', '['] 0
  if stop = npos then .null
  else
    match substr s 0 stop with
    | none => .throws
    | some ac =>
      match r.lookup ac with
      | none => .throws
      | some p => match p s with
        | none => .throws
        | some i => .index i

end Dal.IndexName
