import Verif.Strings.StringModel
import Verif.Time.DateTextModel

/-! # Model of `Dictionary_` and its text form (dictionary.cpp, cellutils.cpp, datetimeutils.cpp)

Numbers are exact rationals.  Reading a number (`std::stod`) and printing a fractional one
(`std::to_string`) are library calls; they are parameters of the model (`NumText`). -/

namespace Dal.Dict
open Strings DateText Date

/-- `Cell_`: blank, number, boolean, string, date or date-time. -/
inductive Cell
  | blank
  | num (q : Rat)
  | bool (b : Bool)
  | str (s : Str)
  | date (d : Date)
  | dateTime (t : DateTime)
  deriving DecidableEq

/-- The library's number text: `read` is `String::ToDouble` (`none`: it throws, in particular when the
whole text is not consumed), `write` is `String::FromDouble`; strings.cpp:31-49. -/
structure NumText where
  read : Str → Option Rat
  write : Rat → Str

/-- `std::to_string(int)`. -/
def intText (n : Int) : Str :=
  if n < 0 then '-' :: Nat.toDigits 10 n.natAbs else Nat.toDigits 10 n.natAbs

/-- `AsInt`, numerics.cpp:12-15; `none` is an exception. -/
def asInt (q : Rat) : Option Int :=
  if |q| < 2147483647 then some (trunc (q + if q > 0 then 1 / 1000000000 else -(1 / 1000000000)))
  else none

/-- `DateTime::TimeString`, datetime.cpp:74-80 (times of day are not negative). -/
def timeString (t : DateTime) : Str :=
  let f := fracToHMS t.frac
  padded '0' 2 f.1.toNat ++ ':' :: (padded '0' 2 f.2.1.toNat ++ ':' :: padded '0' 2 f.2.2.toNat)

/-- `DateTime::ToString`, datetime.hpp:43-45. -/
def dateTimeText (t : DateTime) : Str := accumulate [' '] true [toString' t.date, timeString t]

/-- `Cell::CoerceToString`, cellutils.cpp:13-28; `none` is an exception. -/
def coerce (N : NumText) : Cell → Option Str
  | .str s => some s
  | .bool b => some (if b then ['t', 'r', 'u', 'e'] else ['f', 'a', 'l', 's', 'e'])
  | .num q => (asInt q).map fun (n : Int) => if (n : Rat) = q then intText n else N.write q
  | .date d => some (toString' d)
  | .dateTime t => some (dateTimeText t)
  | .blank => some []

/-- White space as `std::stoi` skips it. -/
def isSpace (c : Char) : Bool := c = ' ' || (9 ≤ c.toNat && c.toNat ≤ 13)

/-- `std::stoi` on any text: leading white space, a sign, then at least one digit; what follows the
digits is ignored. -/
def stoiAny (s : Str) : Option Int :=
  let t := s.dropWhile isSpace
  let neg := t.head? = some '-'
  let u := if t.head? = some '-' ∨ t.head? = some '+' then t.tail else t
  let ds := u.takeWhile Char.isDigit
  if ds = [] then none else
    let n : Int := Nat.ofDigitChars 10 ds 0
    let v := if neg then -n else n
    if -2147483648 ≤ v ∧ v ≤ 2147483647 then some v else none

/-- `DateTime::IsDateTimeString`, datetimeutils.cpp:14-24. -/
def isDateTimeString (s : Str) : Bool :=
  let rest := s.dropWhile (· ≠ ' ')
  if rest = [] then false
  else if !isDateString (s.takeWhile (· ≠ ' ')) then false
  else
    let t := rest.tail
    ':' ∈ t ∧ t.takeWhile (· ≠ ':') ≠ [] ∧ (t.dropWhile (· ≠ ':')).tail ≠ []

/-- `DateTime::FromString`, datetimeutils.cpp:26-38; `none` is an exception. -/
def dateTimeFromString (s : Str) : Option DateTime :=
  (fromString (s.takeWhile (· ≠ ' '))).bind fun d =>
    let rest := s.dropWhile (· ≠ ' ')
    if rest = [] then mkFrac d 0
    else match (split ':' true rest.tail).mapM stoiAny with
      | some [h, m] =>
        if 0 ≤ h ∧ 0 ≤ m ∧ h < 24 ∧ h < 60 ∧ m < 60 then mkHMS d h m 0 else none
      | some [h, m, x] =>
        if 0 ≤ h ∧ 0 ≤ m ∧ 0 ≤ x ∧ h < 24 ∧ h < 60 ∧ m < 60 ∧ x < 60 then mkHMS d h m x else none
      | _ => none

/-- The value of one entry in `Dictionary::FromString`, dictionary.cpp:61-70. -/
def readCell (N : NumText) (vs : Str) : Option Cell :=
  if (N.read vs).isSome then (N.read vs).map .num
  else if isDateString vs then (fromString vs).map .date
  else if isDateTimeString vs then (dateTimeFromString vs).map .dateTime
  else if vs ≠ [] then some (.str vs)
  else some .blank

/-- `Dictionary_`: the entries in key order. -/
abbrev Dictionary := List (Str × Cell)

/-- `Dictionary_::Insert`, dictionary.cpp:14-18; `none` is an exception. -/
def insert (sgn : Bool) (d : Dictionary) (key : Str) (v : Cell) : Option Dictionary :=
  if (mapFind sgn (condensed key) d).isSome then none else some (mapInsert sgn (condensed key) v d)

/-- `Dictionary_::At`, dictionary.cpp:22-29; `none` is an exception. -/
def lookup (sgn : Bool) (d : Dictionary) (key : Str) (optional : Bool) : Option Cell :=
  match mapFind sgn (condensed key) d with
  | some v => some v
  | none => if optional then some .blank else none

/-- `Dictionary_::Has`, dictionary.cpp:31. -/
def has (sgn : Bool) (d : Dictionary) (key : Str) : Bool := (mapFind sgn (condensed key) d).isSome

/-- The loop of `Dictionary::ToString`, dictionary.cpp:44-51. -/
def toTextLoop (N : NumText) : Dictionary → Str → Option Str
  | [], acc => some acc
  | kv :: d, acc =>
    (coerce N kv.2).bind fun t =>
      toTextLoop N d ((if acc = [] then acc else acc ++ [';']) ++ kv.1 ++ ['='] ++ t)

/-- `Dictionary::ToString`, dictionary.cpp:43-53; `none` is an exception. -/
def toText (N : NumText) (d : Dictionary) : Option Str := toTextLoop N d []

/-- One turn of the loop of `Dictionary::FromString`, dictionary.cpp:58-71. -/
def readEntry (sgn : Bool) (N : NumText) (d : Dictionary) (kev : Str) : Option Dictionary :=
  match split '=' true kev with
  | [k, vs] => if k = [] then none else (readCell N vs).bind fun v => insert sgn d k v
  | _ => none

/-- `Dictionary::FromString`, dictionary.cpp:54-74; `none` is an exception. -/
def fromText (sgn : Bool) (N : NumText) (s : Str) : Option Dictionary :=
  (split ';' false s).foldlM (readEntry sgn N) []

end Dal.Dict
