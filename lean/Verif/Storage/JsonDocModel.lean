import Verif.Storage.ArchiveModel
import Verif.Storage.JsonModel
import Verif.Strings.DictionaryModel

/-! # Model of whole JSON documents (storage/json.cpp with storage/archive.cpp)

The documents of `ArchiveModel` as text, and reading them through RapidJSON values.  `Child` of a name that
was written before would write the value without a name (json.cpp:80-88); members of a class have different
names (C88_library), so this does not happen.  The text of `Document::Parse` is modelled by `Json.parse`. -/

namespace Dal.JsonDoc
open Json Archive Dict DateText Date

/-! ### Values of members -/

/-- A `Matrix_`: the number of columns and the rows. -/
structure Mat (V : Type) where
  cols : Nat
  rows : List (List V)
  deriving DecidableEq

/-- The values of members that are not handles. -/
inductive Atom
  | text (s : Archive.Str)
  | number (q : Rat)
  | boolean (b : Bool)
  | texts (l : List Archive.Str)
  | numbers (l : List Rat)
  | ints (l : List Int)
  | dates (l : List Date)
  | dateTimes (l : List DateTime)
  | cells (l : List Dict.Cell)
  | matrix (m : Mat Rat)
  | cellMatrix (m : Mat Dict.Cell)
  deriving DecidableEq

/-- `operator=(DateTime_)`, json.cpp:106. -/
def writeDateTime (t : DateTime) : List Char := writeStr (dateTimeText t)

/-- `operator=(Cell_)`, json.cpp:107-124. -/
def writeCell : Dict.Cell → List Char
  | .bool b => writeBool b
  | .date d => writeDate d
  | .dateTime t => writeDateTime t
  | .str s => writeStr s
  | .num q => writeDouble q
  | .blank => writeStr []

/-- The text of a value, json.cpp:90-162; a `bool` goes through `operator=(double)` (`storeBool`). -/
def writeAtom : Atom → List Char
  | .text s => writeStr s
  | .number q => writeDouble q
  | .boolean b => storeBool writeDouble b
  | .texts l => writeArr writeStr l
  | .numbers l => writeArr writeDouble l
  | .ints l => writeArr writeInt l
  | .dates l => writeArr writeDate l
  | .dateTimes l => writeArr writeDateTime l
  | .cells l => writeArr writeCell l
  | .matrix m => writeMat writeDouble m.cols m.rows
  | .cellMatrix m => writeMat writeCell m.cols m.rows

/-- `EDateTime`, json.cpp:207-217, for strings (the writer only writes strings). -/
def eDateTime : JVal → Option DateTime
  | .str s => dateTimeFromString s
  | _ => none

/-- The regular expression `\d{4}-\d{2}-\d{2} \d{2}:\d{2}:\d{2}`, json.cpp:220. -/
def dateTimePattern (s : List Char) : Bool :=
  datePattern (s.take 10) &&
    match s.drop 10 with
    | [a, b, c, d, e, f, g, h, i] =>
      a == ' ' && b.isDigit && c.isDigit && d == ':' && e.isDigit && f.isDigit && g == ':' && h.isDigit && i.isDigit
    | _ => false

/-- `ECell`, json.cpp:218-237. -/
def eCell : JVal → Option Dict.Cell
  | .dbl v => some (.num v)
  | .bool b => some (.bool b)
  | .str s =>
    if datePattern s then (fromString s).map .date
    else if dateTimePattern s then (dateTimeFromString s).map .dateTime
    else some (.str s)
  | .null => some .blank
  | _ => none

/-- `AsDoubleMatrix` and `AsCellMatrix`, json.cpp:282-290. -/
def eMat {V : Type} (e : JVal → Option V) (j : JVal) : Option (Mat V) := (asMatrix e j).map fun p => ⟨p.1.toNat, p.2⟩

/-- The functions the readers ask for, archive.hpp:62-77 and json.cpp:262-290, by the kind of the member. -/
def readAtom : Kind → JVal → Option Atom
  | .text, j => (eString j).map .text
  | .number, j => (eDouble j).map .number
  | .boolean, j => (eBool j).map .boolean
  | .texts, j => (asVector eString j).map .texts
  | .numbers, j => (asVector eDouble j).map .numbers
  | .ints, j => (asVector eInt j).map .ints
  | .dates, j => (asVector eDate j).map .dates
  | .dateTimes, j => (asVector eDateTime j).map .dateTimes
  | .cells, j => (asVector eCell j).map .cells
  | .matrix, j => (eMat eDouble j).map .matrix
  | .cellMatrix, j => (eMat eCell j).map .cellMatrix

/-- The values of default-constructed members. -/
def default : Kind → Atom
  | .text => .text []
  | .number => .number 0
  | .boolean => .boolean false
  | .texts => .texts []
  | .numbers => .numbers []
  | .ints => .ints []
  | .dates => .dates []
  | .dateTimes => .dateTimes []
  | .cells => .cells []
  | .matrix => .matrix ⟨0, []⟩
  | .cellMatrix => .cellMatrix ⟨0, []⟩

/-! ### Writing -/

/-- `Prep`, json.cpp:56. -/
def prep (empty : Bool) : List Char := if empty then ['{', '\n'] else [',', '\n']

/-- The label of a member, as in json.cpp:59, 76 and 84. -/
def label (empty : Bool) (name : List Char) : List Char := prep empty ++ ('"' :: (name ++ ['"', ':', ' ']))

/-- `TAG_LABEL`, json.cpp:27. -/
def tagLabel : List Char := ['$', 't', 'a', 'g']

/-- `TYPE_LABEL`, json.cpp:26. -/
def typeLabel : List Char := ['~', 't', 'y', 'p', 'e']

mutual
/-- `SetStorable` and `Write` in their order of calls, archive.cpp:17-23 and json.cpp:57-88: tag, type, children, `Done`. -/
def writeNode : Node (List Char) → List Char
  | .atom e => e
  | .obj tag type kids =>
    (if tag = [] then [] else label true tagLabel ++ writeStr tag) ++
    ((if type = [] then [] else label (decide (tag = [])) typeLabel ++ writeStr type) ++
    (writeKids (decide (tag = [] ∧ type = [])) kids ++ ['}']))
/-- The children: `Child` does not change `empty_`. -/
def writeKids (empty : Bool) : List (List Char × Node (List Char)) → List Char
  | [] => []
  | (name, t) :: rest => label empty name ++ (writeNode t ++ writeKids empty rest)
end

/-- `JSON::WriteString`, json.cpp:336-342. -/
def writeString (classes : Archive.Str → Option (List (Member Kind))) (heap : Addr → Obj Atom) (n : Nat) (a : Addr) : Option (List Char) :=
  (archive (fun _ x => writeAtom x) default classes heap n a).map writeNode

/-! ### Reading -/

/-- `Tag` and `Type`, json.cpp:253-257 and 293-297; `HasMember` of what is not an object is undefined. -/
def viewText (name : List Char) : JVal → Option (List Char)
  | .obj ms => match member name (.obj ms) with
    | some v => eString v
    | none => some []
  | _ => none

/-- The number of members. -/
def memberCount : JVal → Nat
  | .obj ms => ms.length
  | _ => 0

/-- A value by its reader, or an object by `Builder_` (archive.hpp:91-104), the parameter `x`. -/
def getItem (x : JVal → Built Atom → Option (Addr × Built Atom)) (kind : Option Kind) (j : JVal) (b : Built Atom) : Option (Item Atom × Built Atom) :=
  match kind with
  | some k => (readAtom k j).bind fun a => some (.atom a, b)
  | none => (x j b).bind fun p => some (.ref p.1, p.2)

/-- The loop of `GetMultiple`, archive.hpp:155-165. -/
def getMany (x : JVal → Built Atom → Option (Addr × Built Atom)) (kind : Option Kind) (j : JVal) (name : List Char) : Nat → Nat → Built Atom → Option (List (Item Atom) × Built Atom)
  | 0, _, _ => none
  | fuel + 1, i, b => match member (name ++ digits i) j with
    | none => some ([], b)
    | some v => (getItem x kind v b).bind fun p => (getMany x kind j name fuel (i + 1) p.2).bind fun q => some (p.1 :: q.1, q.2)

/-- `Get`, `GetOptional` and `GetMultiple`, archive.hpp:142-165. -/
def getMember (x : JVal → Built Atom → Option (Addr × Built Atom)) (j : JVal) (m : Member Kind) (b : Built Atom) : Option (Value Atom × Built Atom) :=
  match m.mode with
  | .required => (member m.name j).bind fun v => (getItem x m.kind v b).bind fun p => some (.one p.1, p.2)
  | .optional => match member m.name j with
    | none => some (.one (dfltItem default m.kind), b)
    | some v => (getItem x m.kind v b).bind fun p => some (.one p.1, p.2)
  | .multiple => (getMany x m.kind j m.name (memberCount j + 1) 0 b).bind fun p => some (.many p.1, p.2)
  | .nonempty => (getMany x m.kind j m.name (memberCount j + 1) 0 b).bind fun p => if p.1 = [] then none else some (.many p.1, p.2)

/-- The constructor of a reader. -/
def getMembers (x : JVal → Built Atom → Option (Addr × Built Atom)) (j : JVal) : List (Member Kind) → Built Atom → Option (List (Value Atom) × Built Atom)
  | [], b => some ([], b)
  | m :: ms, b => (getMember x j m b).bind fun p => (getMembers x j ms p.2).bind fun q => some (p.1 :: q.1, q.2)

/-- `Extract`, archive.cpp:27-40, with `Known`, json.cpp:258-261. -/
def extract (classes : Archive.Str → Option (List (Member Kind))) : Nat → JVal → Built Atom → Option (Addr × Built Atom)
  | 0, _, _ => none
  | n + 1, j, b =>
    (viewText tagLabel j).bind fun tag =>
    match b.known tag with
    | some a => some (a, b)
    | none =>
      (viewText typeLabel j).bind fun type =>
      if type = [] then none
      else (classes type).bind fun ms =>
        (getMembers (extract classes n) j ms b).bind fun p =>
        some (p.2.heap.length, ⟨p.2.heap ++ [⟨type, p.1⟩], fun t => if t = tag then some p.2.heap.length else p.2.known t⟩)

/-- `JSON::ReadString`, json.cpp:311-318. -/
def readString (classes : Archive.Str → Option (List (Member Kind))) (n : Nat) (s : List Char) : Option (Addr × Built Atom) :=
  (parse s).bind fun j => extract classes n j Built.empty

end Dal.JsonDoc
