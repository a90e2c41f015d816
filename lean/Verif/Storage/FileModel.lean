import Verif.Storage.SplatModel
import Verif.Strings.DictionaryModel

/-! # Model of archives in text files (storage/splat.cpp, utilities/file.cpp, math/cellutils.cpp)

A file is the list of its bytes; the translation of line ends by the platform, missing permissions and
full disks are not modelled.  `std::strtod` is a parameter: the number when the whole text is consumed,
`none` otherwise. -/

namespace Dal.FileTab
open Strings Dict Splat DateText Date

/-- What a `Cell_` can hold besides nothing and a text, cell.hpp:16. -/
inductive Val
  | num (q : Rat)
  | bool (b : Bool)
  | date (d : Date)
  | dateTime (t : DateTime)
  deriving DecidableEq

/-- The cells of `SplatModel` are those of `DictionaryModel`. -/
def toCell : Splat.Cell Val → Dict.Cell
  | .blank => .blank
  | .str s => .str s
  | .val (.num q) => .num q
  | .val (.bool b) => .bool b
  | .val (.date d) => .date d
  | .val (.dateTime t) => .dateTime t

/-- The text of a null-terminated copy, `c_str()`. -/
def cstr (s : Str) : Str := s.takeWhile (· ≠ Char.ofNat 0)

/-- `File::Write`, file.cpp:22-27: `operator<<` prints `c_str()` (strings.hpp:89-92). -/
def writeFile (lines : List Str) : Str := lines.flatMap fun l => cstr l ++ ['\n']

/-- The loop of `File::Read` with a buffer of `size` characters: `getline` takes a line of less than
`size` characters with its end; at the end of the file and at a longer line it fails and the loop ends. -/
def readLoop (size : Nat) : Nat → Str → List Str
  | 0, _ => []
  | n + 1, s =>
    if s = [] then []
    else if (s.takeWhile (· ≠ '\n')).length < size then
      cstr (s.takeWhile (· ≠ '\n')) :: readLoop size n (s.dropWhile (· ≠ '\n')).tail
    else []

/-- `File::Read`, file.cpp:14-20; each line takes a character at least, so the fuel suffices. -/
def readFile (s : Str) : List Str := readLoop 2048 s.length s

/-- `Cell::ToStringLines`, cellutils.cpp:50-58; `none` is an exception. -/
def toStringLines (N : NumText) (g : Grid Val) : Option (List Str) :=
  (List.range g.rows).mapM fun i =>
    ((List.range g.cols).mapM fun j => coerce N (toCell (g.cell i j))).map (accumulate [','] false)

/-- `SplatFile`, splat.cpp:410-415: the contents of the file. -/
def splatFile (N : NumText) (t : STree Val) : Option Str :=
  (splat t).bind fun g => (toStringLines N g).map writeFile

/-- The characters of splat.cpp:359; `find` ignores the case, which adds nothing. -/
def numChar (c : Char) : Bool := c.isDigit || c = '.' || c = 'e' || c = 'E' || c = '+' || c = '-'

/-- `AsCell`, splat.cpp:350-366.  A single `=` gives an empty text. -/
def asCell (sgn : Bool) (strtod : Str → Option Rat) (s : Str) : Splat.Cell Val :=
  if s = [] then .blank
  else if s.head? = some '=' ∧ s.getLast? = some '=' then .str (s.tail.take (s.length - 2))
  else if eqS sgn s ['T', 'R', 'U', 'E'] then .val (.bool true)
  else if eqS sgn s ['F', 'A', 'L', 'S', 'E'] then .val (.bool false)
  else if s.all numChar then
    match strtod s with
    | some q => .val (.num q)
    | none => .str s
  else .str s

/-- The inner loop of `SplitLine`, splat.cpp:374-379: the text up to the next comma outside of quotes and
the text after it. -/
def cut : Bool → Str → Str × Option Str
  | _, [] => ([], none)
  | q, c :: s =>
    if q = false ∧ c = ',' then ([], some s)
    else
      let r := cut (if c = '"' then !q else q) s
      (c :: r.1, r.2)

/-- The texts of `SplitLine`; each turn takes a character at least. -/
def pieces : Nat → Str → List Str
  | 0, _ => []
  | n + 1, s =>
    if s = [] then []
    else match cut false s with
      | (p, none) => [p]
      | (p, some r) => p :: pieces n r

/-- `SplitLine`, splat.cpp:368-384. -/
def splitLine (sgn : Bool) (strtod : Str → Option Rat) (s : Str) : List (Splat.Cell Val) :=
  (pieces s.length s).map (asCell sgn strtod)

/-- `FileTable`, splat.cpp:386-397: rows are filled up with empty cells. -/
def fileTable (sgn : Bool) (strtod : Str → Option Rat) (file : Str) : Grid Val :=
  let data := (readFile file).map (splitLine sgn strtod)
  ⟨data.length, data.foldl (fun m r => max m r.length) 0, fun i j =>
    match data[i]? with
    | none => .blank
    | some r => match r[j]? with
      | none => .blank
      | some c => c⟩

/-- `ExtractDouble`, splat.cpp:143-156; `none` is an exception. -/
def extractDouble (N : NumText) : Splat.Cell Val → Option Rat
  | .val (.num q) => some q
  | .str s => N.read s
  | _ => none

/-- `ExtractInt`, splat.cpp:158-163; a number without an `int` is an exception as well. -/
def extractInt (N : NumText) (c : Splat.Cell Val) : Option Int :=
  (extractDouble N c).bind fun q =>
    if -2147483648 ≤ trunc q ∧ trunc q ≤ 2147483647 ∧ (trunc q : Rat) = q then some (trunc q) else none

/-- `ExtractBool`, splat.cpp:165-174. -/
def extractBool : Splat.Cell Val → Option Bool
  | .val (.bool b) => some b
  | .str s => Strings.toBool s
  | _ => none

/-- `ExtractString`, splat.cpp:176-186. -/
def extractString : Splat.Cell Val → Option Str
  | .str s => some s
  | .blank => some []
  | _ => none

/-- `ExtractDate`, splat.cpp:188-197; the default date is the date with serial number 0. -/
def extractDate : Splat.Cell Val → Option Date
  | .str s => fromString s
  | .val (.date d) => some d
  | .blank => some ⟨0⟩
  | _ => none

/-- `ExtractDateTime`, splat.cpp:199-209. -/
def extractDateTime : Splat.Cell Val → Option DateTime
  | .str s => dateTimeFromString s
  | .val (.date d) => mkFrac d 0
  | .val (.dateTime t) => some t
  | .blank => some ⟨⟨0⟩, 0⟩
  | _ => none

end Dal.FileTab
