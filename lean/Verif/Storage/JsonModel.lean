import Verif.Strings.StringModel
import Verif.Time.DateTextModel
import Mathlib.Algebra.Order.Round

/-! # Model of the JSON archive (storage/json.cpp)

The writer streams text; the reader goes through RapidJSON, which is modelled by a parser for the part
of JSON the writer produces (no exponents, no `\u` escapes: those are rejected).  Doubles are modelled
by exact rationals, printed with six decimals as `std::to_string` does. -/

namespace Dal.Json
open Strings DateText Dal.Date

/-- RapidJSON values: numbers with a decimal point are doubles, others integers. -/
inductive JVal
  | dbl (v : Rat)
  | int (n : Int)
  | str (s : List Char)
  | bool (b : Bool)
  | null
  | arr (vs : List JVal)
  | obj (ms : List (List Char × JVal))

/-! ### Writing -/

/-- `std::to_string(double)` (`"%f"`), strings.cpp:49: the sign and the absolute value times `10^6`. -/
def fixed6 (neg : Bool) (n : Nat) : List Char :=
  (if neg then ['-'] else []) ++ (Nat.toDigits 10 (n / 1000000) ++ '.' :: padded '0' 6 (n % 1000000))

/-- The number printed for `q`: rounded to a multiple of `10^-6`. -/
def millionths (q : Rat) : Int := round (q * 1000000)

/-- `operator=(double)`, json.cpp:91-94. -/
def writeDouble (q : Rat) : List Char := fixed6 (decide (q < 0)) (millionths q).natAbs

/-- `operator=(int)`, json.cpp:96-99 (and integers stored through `operator=(double)`). -/
def writeInt (n : Int) : List Char := writeDouble n

/-- `operator=(bool)`, json.cpp:100-103. -/
def writeBool (b : Bool) : List Char := if b then "true".toList else "false".toList

/-- `operator=(String_)`, json.cpp:104: no escaping. -/
def writeStr (s : List Char) : List Char := '"' :: (s ++ ['"'])

/-- `operator=(Date_)`, json.cpp:105. -/
def writeDate (d : Date) : List Char := writeStr (toString' d)

/-- The loop of `SetArray`, json.cpp:128-134, and of `SetMatrix`, 147-154. -/
def writeSep {V : Type} (sep : List Char) (w : V → List Char) : Bool → List V → List Char
  | _, [] => []
  | first, v :: vs => (if first then [] else sep) ++ w v ++ writeSep sep w false vs

/-- `SetArray`, json.cpp:126-136. -/
def writeArr {V : Type} (w : V → List Char) (vs : List V) : List Char :=
  '[' :: (writeSep [','] w true vs ++ [']'])

/-- `SetMatrix`, json.cpp:145-156, for a matrix given by its number of columns and its rows. -/
def writeMat {V : Type} (w : V → List Char) (cols : Nat) (rows : List (List V)) : List Char :=
  "{ \"rows\": ".toList ++ Nat.toDigits 10 rows.length ++ ",\n\"cols\": ".toList ++ Nat.toDigits 10 cols ++
    ",\n\"vals\": [".toList ++ writeSep [',', ' '] w true rows.flatten ++ "]}".toList

/-! ### The parser -/

/-- JSON white space. -/
def isWs (c : Char) : Bool := c == ' ' || c == '\n' || c == '\t' || c == '\r'

/-- Skip white space. -/
def ws (s : List Char) : List Char := s.dropWhile isWs

/-- The part of a string after the opening quote: its contents and the rest of the text.  Control
characters are errors; simple escapes are decoded. -/
def parseStr : List Char → Option (List Char × List Char)
  | [] => none
  | '"' :: r => some ([], r)
  | '\\' :: r =>
    match r with
    | [] => none
    | e :: r' =>
      match (if e = '"' then some '"' else if e = '\\' then some '\\' else if e = '/' then some '/'
        else if e = 'n' then some '\n' else if e = 't' then some '\t' else if e = 'r' then some '\r'
        else none) with
      | none => none
      | some c => (parseStr r').map fun x => (c :: x.1, x.2)
  | c :: r => if c.toNat < 32 then none else (parseStr r).map fun x => (c :: x.1, x.2)

/-- A number: digits without leading zeros, optionally a decimal point and digits. -/
def parseNum (neg : Bool) (s : List Char) : Option (JVal × List Char) :=
  let ip := s.takeWhile Char.isDigit
  let r := s.dropWhile Char.isDigit
  if ip = [] ∨ (ip.head? = some '0' ∧ ip ≠ ['0']) then none
  else
    let sg : Int := if neg then -1 else 1
    match r with
    | '.' :: r' =>
      let fp := r'.takeWhile Char.isDigit
      let r2 := r'.dropWhile Char.isDigit
      if fp = [] ∨ r2.head? = some 'e' ∨ r2.head? = some 'E' then none
      else some (.dbl (sg * (Nat.ofDigitChars 10 ip 0 +
        (Nat.ofDigitChars 10 fp 0 : Rat) / (10 : Rat) ^ fp.length)), r2)
    | r =>
      if r.head? = some 'e' ∨ r.head? = some 'E' then none
      else
        let n : Int := sg * (Nat.ofDigitChars 10 ip 0 : Int)
        if -2147483648 ≤ n ∧ n ≤ 2147483647 then some (.int n, r) else some (.dbl n, r)

mutual
/-- A value. -/
def parseValue : Nat → List Char → Option (JVal × List Char)
  | 0, _ => none
  | fuel + 1, s =>
    match s with
    | [] => none
    | '"' :: r => (parseStr r).map fun x => (.str x.1, x.2)
    | '[' :: r =>
      match ws r with
      | ']' :: r' => some (.arr [], r')
      | r' => (parseElems fuel r').map fun x => (.arr x.1, x.2)
    | '{' :: r =>
      match ws r with
      | '}' :: r' => some (.obj [], r')
      | r' => (parseMembers fuel r').map fun x => (.obj x.1, x.2)
    | '-' :: r => parseNum true r
    | c :: r =>
      if c = 't' ∧ r.take 3 = "rue".toList then some (.bool true, r.drop 3)
      else if c = 'f' ∧ r.take 4 = "alse".toList then some (.bool false, r.drop 4)
      else if c = 'n' ∧ r.take 3 = "ull".toList then some (.null, r.drop 3)
      else parseNum false (c :: r)
/-- The elements of an array up to the closing bracket. -/
def parseElems : Nat → List Char → Option (List JVal × List Char)
  | 0, _ => none
  | fuel + 1, s =>
    match parseValue fuel (ws s) with
    | none => none
    | some (v, r) =>
      match ws r with
      | ',' :: r' => (parseElems fuel r').map fun x => (v :: x.1, x.2)
      | ']' :: r' => some ([v], r')
      | _ => none
/-- The members of an object up to the closing brace. -/
def parseMembers : Nat → List Char → Option (List (List Char × JVal) × List Char)
  | 0, _ => none
  | fuel + 1, s =>
    match ws s with
    | '"' :: r =>
      match parseStr r with
      | none => none
      | some (name, r1) =>
        match ws r1 with
        | ':' :: r2 =>
          match parseValue fuel (ws r2) with
          | none => none
          | some (v, r3) =>
            match ws r3 with
            | ',' :: r4 => (parseMembers fuel r4).map fun x => ((name, v) :: x.1, x.2)
            | '}' :: r4 => some ([(name, v)], r4)
            | _ => none
        | _ => none
    | _ => none
end

/-! ### Reading -/

/-- `EDouble`, json.cpp:184-187. -/
def eDouble : JVal → Option Rat
  | .dbl v => some v
  | .int n => some (n : Rat)
  | _ => none

/-- `EInt`, json.cpp:188-191. -/
def eInt : JVal → Option Int
  | .int n => some n
  | _ => none

/-- `EBool`, json.cpp:192-195. -/
def eBool : JVal → Option Bool
  | .bool b => some b
  | _ => none

/-- `EString`, json.cpp:196-199. -/
def eString : JVal → Option (List Char)
  | .str s => some s
  | _ => none

/-- `EDate`, json.cpp:200-206, for strings (the writer only writes strings). -/
def eDate : JVal → Option Date
  | .str s => fromString s
  | _ => none

/-- A cell, cell.hpp:15-33. -/
inductive Cell
  | blank
  | num (q : Rat)
  | bool (b : Bool)
  | str (s : List Char)
  | date (d : Date)

/-- `operator=(Cell_)`, json.cpp:107-124. -/
def writeCell : Cell → List Char
  | .bool b => writeBool b
  | .date d => writeDate d
  | .str s => writeStr s
  | .num q => writeDouble q
  | .blank => writeStr []

/-- The regular expression `\d{4}-\d{2}-\d{2}`, json.cpp:219. -/
def datePattern (s : List Char) : Bool :=
  match s with
  | [a, b, c, d, e, f, g, h, i, j] =>
    a.isDigit && b.isDigit && c.isDigit && d.isDigit && e == '-' && f.isDigit && g.isDigit && h == '-' &&
      i.isDigit && j.isDigit
  | _ => false

/-- `ECell`, json.cpp:218-237, without the pattern for date-times. -/
def eCell : JVal → Option Cell
  | .dbl v => some (.num v)
  | .bool b => some (.bool b)
  | .str s => if datePattern s then (fromString s).map .date else some (.str s)
  | .null => some .blank
  | _ => none

/-- `AsVector`, json.cpp:164-172. -/
def asVector {V : Type} (e : JVal → Option V) : JVal → Option (List V)
  | .arr vs => vs.mapM e
  | _ => none

/-- `doc[name]`: the first member of that name; a missing one is undefined behaviour. -/
def member (name : List Char) : JVal → Option JVal
  | .obj ms => (ms.find? fun m => m.1 == name).map Prod.snd
  | _ => none

/-- Rows of `cols` values each. -/
def chunks {V : Type} (cols : Nat) : Nat → List V → List (List V)
  | 0, _ => []
  | n + 1, vs => vs.take cols :: chunks cols n (vs.drop cols)

/-- `AsMatrix`, json.cpp:174-181 and 282-290: columns and rows. -/
def asMatrix {V : Type} (e : JVal → Option V) (j : JVal) : Option (Int × List (List V)) :=
  match (member "cols".toList j).bind eInt, (member "vals".toList j).bind (asVector e) with
  | some cols, some vals =>
    if 0 < cols ∧ vals.length % cols.toNat = 0 then
      some (cols, chunks cols.toNat (vals.length / cols.toNat) vals)
    else none
  | _, _ => none

/-- Parsing a complete text. -/
def parse (s : List Char) : Option JVal :=
  match parseValue (s.length + 1) (ws s) with
  | some (v, r) => if ws r = [] then some v else none
  | none => none

end Dal.Json
