import Verif.Script.ParserModel
import Verif.Strings.EnumTables
import Verif.Time.DateTextModel
import Verif.Time.DayBasisModel

/-! # `DCF` in scripts (script/parser.cpp:254-292)

An iterator is the list of the tokens from it to the end of the vector, as in `ParserModel`; `closeIt` is the number `c` of tokens from the closing
parenthesis on, so that `cur != closeIt` is `cur.length ≠ c`.  Undefined behaviour is `none`, an exception `some none`.
Simplification: a reserved word among the tokens is taken in capitals (neither names of day bases nor dates are told apart by that). -/

namespace Dal.Dcf
open Dal.Script

/-- One of the loops `while (cur != closeIt && (*cur)[0] != ',')`, parser.cpp:262-265, 271-274, 281-284: the text put together, and the iterator then. -/
def field : List Tok → Nat → Option (List Char × List Tok)
  | [], c => if c = 0 then some ([], []) else none
  | t :: r, c =>
    if (t :: r).length = c then some ([], t :: r)
    else if t = .comma then some ([], t :: r)
    else (field r c).map fun p => (Tok.text t ++ p.1, p.2)

/-- `++cur`, parser.cpp:266 and 275; beyond the end of the vector it is undefined. -/
def next : List Tok → Option (List Tok)
  | [] => none
  | _ :: r => some r

/-- The loops `while (cur != closeIt && (*cur)[0] == ',')`, parser.cpp:267-268, 276-277. -/
def skip : List Tok → Nat → Option (List Tok)
  | [], c => if c = 0 then some [] else none
  | t :: r, c =>
    if (t :: r).length = c then some (t :: r)
    else if t = .comma then skip r c
    else some (t :: r)

/-- From the end of one field to the start of the next, parser.cpp:266-269 and 275-278: `some none` is the exception that there is none. -/
def advance (cur : List Tok) (c : Nat) : Option (Option (List Tok)) :=
  (next cur).bind fun r => (skip r c).map fun s => if s.length = c then none else some s

/-- `ParseDCF` after the opening parenthesis, parser.cpp:258-292; `frac` is what is done with the three texts in line 288. -/
def parse {D : Type} (frac : List Char → List Char → List Char → Option (Option D)) (cur : List Tok) (c : Nat) : Option (Option D) :=
  if cur.length = c then some none
  else
    (field cur c).bind fun f =>
      (advance f.2 c).bind fun
        | none => some none
        | some cur =>
          (field cur c).bind fun g =>
            (advance g.2 c).bind fun
              | none => some none
              | some cur => (field cur c).bind fun h => frac f.1 g.1 h.1

/-- `DayBasis_(day_basis)(Date::FromString(start_date), Date::FromString(end_date), nullptr)`, parser.cpp:288, with `DayBasis_::operator()`,
daybasis.cpp:66-84: without a context ACT/365L throws.  `depth` is the depth of the stack, for the recursion of ACT/ACT.  The extensions of `DayBasis_` are left
out: the library registers none. -/
def fraction (sgn : Bool) (depth : Nat) (basis start stop : List Char) : Option (Option Rat) :=
  match Strings.readEnum sgn Strings.dayBasisTable basis, DateText.fromString start, DateText.fromString stop with
  | some v, some a, some b =>
    if v = "ACT_360".toList then some (some (DayBasis.act360 a b))
    else if v = "ACT_365F".toList then some (some (DayBasis.act365F a b))
    else if v = "ACT_ACT".toList then (DayBasis.actAct depth a b).map some
    else if v = "ACT_365L".toList then some none
    else some (some (DayBasis.bond a b))
  | _, _, _ => some none

end Dal.Dcf
