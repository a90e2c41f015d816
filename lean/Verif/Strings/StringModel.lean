import Mathlib.Data.Int.Order.Basic
import Mathlib.Data.List.Basic

/-! # Model of case-insensitive strings and text utilities
(strings.hpp, strings.cpp, stringutils.cpp, cell.cpp)

A `String_` is a list of characters; a character stands for the byte with the same number, so byte
strings are the lists whose characters are below 256 (`Bytes`).  `char` may be signed or unsigned;
where it matters the model takes a flag. -/

namespace Dal.Strings

abbrev Str := List Char

/-- All characters are bytes. -/
def Bytes (s : Str) : Prop := ∀ c ∈ s, c.toNat < 256

/-- All characters are ASCII. -/
def Ascii (s : Str) : Prop := ∀ c ∈ s, c.toNat < 128

/-- `CI_ORDER`, strings.hpp:17-22. -/
def ciTable : List Nat :=
  [0,  1,  2,  3,  4,  5,  6,  7,  8,  9,  10, 11, 12, 13, 14, 15, 16, 17, 18, 19, 20, 21, 22,  23, 24, 25,
   26, 27, 28, 29, 30, 31, 32, 33, 34, 35, 36, 37, 38, 39, 40, 41, 42, 43, 44, 45, 46, 47, 48,  49, 50, 51,
   52, 53, 54, 55, 56, 57, 58, 59, 60, 61, 62, 63, 64, 65, 66, 67, 68, 69, 70, 71, 72, 73, 74,  75, 76, 77,
   78, 79, 80, 81, 82, 83, 84, 85, 86, 87, 88, 89, 90, 91, 92, 93, 94, 95, 96, 65, 66, 67, 68,  69, 70, 71,
   72, 73, 74, 75, 76, 77, 78, 79, 80, 81, 82, 83, 84, 85, 86, 87, 88, 89, 90, 97, 98, 99, 100, 101]

theorem ciTable_length : ciTable.length = 128 := by rfl

/-- `CI_ORDER[x & 127]`. -/
def ciOrder (n : Nat) : Nat :=
  ciTable[n % 128]'(by rw [ciTable_length]; exact Nat.mod_lt _ (by decide))

/-- `ci_traits::SortVal`, strings.hpp:29: the high bit of the byte, or-ed with the table entry of the
low seven bits, converted to `char` (`sgn`: `char` is signed). -/
def sortVal (sgn : Bool) (c : Char) : Int :=
  let v : Nat := (if c.toNat ≥ 128 then 128 else 0) + ciOrder c.toNat
  if sgn ∧ v ≥ 128 then (v : Int) - 256 else v

/-- `ci_traits::compare`, strings.hpp:35-45, on the first `n` characters. -/
def traitsCompare (sgn : Bool) : Nat → Str → Str → Int
  | 0, _, _ => 0
  | n + 1, a :: l, b :: r =>
    if sortVal sgn a < sortVal sgn b then -1
    else if sortVal sgn b < sortVal sgn a then 1
    else traitsCompare sgn n l r
  | _ + 1, _, _ => 0

/-- `std::basic_string::compare` with these traits: the common prefix, then the sizes. -/
def compareS (sgn : Bool) (l r : Str) : Int :=
  let c := traitsCompare sgn (min l.length r.length) l r
  if c ≠ 0 then c else (l.length : Int) - r.length

/-- `operator==`, strings.hpp:68-71 (`std::basic_string`: same size and equal compare). -/
def eqS (sgn : Bool) (l r : Str) : Bool :=
  l.length = r.length ∧ traitsCompare sgn l.length l r = 0

/-- `operator<` of `std::basic_string`. -/
def ltS (sgn : Bool) (l r : Str) : Bool := compareS sgn l r < 0

/-- `std::map<String_, V>::insert`: the map is the list of its entries in order; an entry with an
equivalent key is left alone. -/
def mapInsert {V : Type} (sgn : Bool) (k : Str) (v : V) : List (Str × V) → List (Str × V)
  | [] => [(k, v)]
  | (k', v') :: m =>
    if ltS sgn k k' then (k, v) :: (k', v') :: m
    else if ltS sgn k' k then (k', v') :: mapInsert sgn k v m
    else (k', v') :: m

/-- `std::map<String_, V>::find`. -/
def mapFind {V : Type} (sgn : Bool) (k : Str) : List (Str × V) → Option V
  | [] => none
  | (k', v') :: m => if ¬ ltS sgn k k' ∧ ¬ ltS sgn k' k then some v' else mapFind sgn k m

/-- `IsFluff`, strings.cpp:57-65. -/
def isFluff (c : Char) : Bool := c = ' ' || c = '\t' || c = '_'

/-- `String::Condensed`, strings.cpp:68-75.  `toupper` in the "C" locale changes ASCII lower-case
letters only (for bytes above 127 the C standard leaves the call undefined; the model leaves them
unchanged). -/
def condensed (s : Str) : Str := (s.filter (fun c => !isFluff c)).map Char.toUpper

/-- `String::Equivalent`, strings.cpp:78-100; `rhs` is the text before the terminating null. -/
def equivalent (sgn : Bool) (lhs rhs : Str) : Bool :=
  match lhs with
  | [] => rhs = []
  | c :: l =>
    if isFluff c then equivalent sgn l rhs
    else match rhs with
      | [] => false
      | d :: r => if sortVal sgn c = sortVal sgn d then equivalent sgn l r else false

/-- `String::NextName`, strings.cpp:102-123, on the reversed name. -/
def nextRev : Str → Str
  | [] => ['0']
  | c :: r =>
    if c = '9' then '0' :: nextRev r
    else if '0' ≤ c ∧ c ≤ '8' then Char.ofNat (c.toNat + 1) :: r
    else '1' :: c :: r

/-- `String::NextName`, strings.cpp:102-123. -/
def nextName (s : Str) : Str := (nextRev s.reverse).reverse

/-- The loop of `String::Split`, strings.cpp:16-27, with the text from `start` on.  The fuel is the
length of the text, enough because each turn consumes a character. -/
def splitLoop {α : Type} [DecidableEq α] (sep : α) (keep : Bool) : Nat → List α → List (List α)
  | 0, _ => []
  | n + 1, s =>
    if s = [] then [] else
      let piece := s.takeWhile (· ≠ sep)
      let rest := (s.dropWhile (· ≠ sep)).tail
      if piece = [] ∧ !keep then splitLoop sep keep n rest else piece :: splitLoop sep keep n rest

/-- `String::Split`, strings.cpp:13-29. -/
def split {α : Type} [DecidableEq α] (sep : α) (keep : Bool) (s : List α) : List (List α) :=
  splitLoop sep keep s.length s

/-- `Joiner_::operator()`, strings.hpp:112-118. -/
def joiner {α : Type} (sep : List α) (skip : Bool) (soFar more : List α) : List α :=
  if soFar.isEmpty && skip then more
  else if more.isEmpty && skip then soFar
  else soFar ++ sep ++ more

/-- `String::Accumulate`, strings.hpp:121-125. -/
def accumulate {α : Type} (sep : List α) (skip : Bool) : List (List α) → List α
  | [] => []
  | p :: ps => ps.foldl (joiner sep skip) p

/-- `CharToBool`, stringutils.cpp:13-30; `none` is an exception. -/
def charToBool (c : Char) : Option Bool :=
  if c = 'T' ∨ c = 't' ∨ c = 'Y' ∨ c = 'y' ∨ c = '1' then some true
  else if c = 'F' ∨ c = 'f' ∨ c = 'N' ∨ c = 'n' ∨ c = '0' then some false
  else none

/-- `TestTrue`, stringutils.cpp:32-35. -/
def testTrue (s : Str) : Bool := s.map Char.toUpper = ['T', 'R', 'U', 'E']

/-- `TestFalse`, stringutils.cpp:37-40. -/
def testFalse (s : Str) : Bool := s.map Char.toUpper = ['F', 'A', 'L', 'S', 'E']

/-- `String::ToBool`, stringutils.cpp:44-52. -/
def toBool (s : Str) : Option Bool :=
  match s with
  | [] => none
  | [c] => charToBool c
  | _ => if testTrue s then some true else if testFalse s then some false else none

/-- `String::ToBoolVector`, stringutils.cpp:54-64.  `src.find(',')` compares with `SortVal`; no other
character sorts as a comma. -/
def toBoolVector (s : Str) : Option (List Bool) :=
  if ',' ∈ s then (split ',' true s).mapM toBool
  else if testTrue s then some [true]
  else if testFalse s then some [false]
  else s.mapM charToBool

/-- `Cell::FromBoolVector`, cell.cpp:98-103. -/
def fromBoolVector (v : List Bool) : Str := v.map fun b => if b then 'T' else 'F'

/-- A cell as far as `Cell::ToBoolVector`, cell.cpp:90-96, inspects it. -/
inductive BCell
  | bool (b : Bool)
  | string (s : Str)
  | other

/-- `Cell::ToBoolVector`, cell.cpp:90-96. -/
def cellToBoolVector : BCell → Option (List Bool)
  | .bool b => some [b]
  | .string s => toBoolVector s
  | .other => none

end Dal.Strings
