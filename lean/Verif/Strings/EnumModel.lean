import Verif.Strings.StringModel

/-! # Model of the generated enumerated types

The files `/repo/dal/auto/MG_*_enum.hpp` and `MG_*_enum.inc` all have one form; they differ only in their tables, which are in `EnumTables`.

Simplifications: a value is the identifier of its enumerator; `_NOT_SET` and `_N_VALUES` are no values; the extensions of `DayBasis_` are apart, below.
Throwing is `none`. -/

namespace Dal.Strings

/-- An item of `...ListAll`, constructed from an enumerator or from text. -/
inductive Listed where
  | value (v : Str)
  | text (s : Str)
  deriving DecidableEq

/-- What differs between the enumerated types. -/
structure EnumTable where
  /-- The enumerators, in order. -/
  values : List Str
  /-- The cases of `String()`: enumerator and text. -/
  printed : List (Str × Str)
  /-- The tests of `ReadString..._::operator()` in order: text and enumerator. -/
  reads : List (Str × Str)
  /-- What `...ListAll` constructs. -/
  listed : List Listed

/-- The chain of tests of `ReadString..._::operator()` (for instance `MG_Clearer_enum.inc` 39–48). -/
def readChain (sgn : Bool) (src : Str) : List (Str × Str) → Option Str
  | [] => none
  | e :: es => if equivalent sgn src e.1 then some e.2 else readChain sgn src es

/-- `ReadString..._::operator()` and the constructor from text (`MG_Clearer_enum.inc` 32–57): the empty text is refused first. -/
def readEnum (sgn : Bool) (t : EnumTable) (src : Str) : Option Str := if src = [] then none else readChain sgn src t.reads

/-- `String()` (`MG_Clearer_enum.inc` 18–29): the null pointer where no case applies. -/
def printEnum (t : EnumTable) (v : Str) : Option Str := t.printed.lookup v

/-- `...ListAll` (`MG_Clearer_enum.inc` 9–15). -/
def listAll (sgn : Bool) (t : EnumTable) : Option (List Str) :=
  t.listed.mapM fun
    | .value v => some v
    | .text s => readEnum sgn t s

/-! ## Extensions, `MG_DayBasis_enum.inc` -/

/-- An extension: which one it is, and what its `String()` returns. -/
structure Ext where
  id : Nat
  text : Str
  deriving DecidableEq

/-- `TheDayBasisExtensions` (9–12), by condensed name, and whether `DayBasisListAll` was ever called (34–60). The keys are compared as they are: they are
condensed, and ASCII text that is condensed is equal exactly when it is the same (C15). -/
structure ExtReg where
  exts : List (Str × Ext)
  enumerated : Bool

/-- A value of `DayBasis_` (`MG_DayBasis_enum.hpp` 5–30). -/
inductive ExtValue where
  | fixed (v : Str)
  | extension (e : Ext)
  deriving DecidableEq

/-- The constructor from text (`MG_DayBasis_enum.inc` 141–158). -/
def readExt (sgn : Bool) (t : EnumTable) (r : ExtReg) (src : Str) : Option ExtValue :=
  match readEnum sgn t src with
  | some v => some (.fixed v)
  | none => (r.exts.lookup (condensed src)).map .extension

/-- `String()` (64–82). -/
def printExt (t : EnumTable) : ExtValue → Option Str
  | .fixed v => printEnum t v
  | .extension e => some e.text

/-- `operator==` (line 1): the enumerators are compared, and every extension has the enumerator `_EXTENSION`. -/
def eqExt : ExtValue → ExtValue → Bool
  | .fixed v, .fixed w => v = w
  | .extension _, .extension _ => true
  | _, _ => false

/-- `DayBasis_RejectDuplicate` (160–167) does not throw. -/
def fresh (sgn : Bool) (t : EnumTable) (r : ExtReg) (test : Str) : Bool := (readEnum sgn t test).isNone && (r.exts.lookup (condensed test)).isNone

/-- The loop of `RegisterExtension` (24–28): whether it ended, and the registry then. -/
def registerNames (sgn : Bool) (t : EnumTable) (imp : Ext) : List Str → ExtReg → Bool × ExtReg
  | [], r => (true, r)
  | n :: ns, r => if fresh sgn t r n then registerNames sgn t imp ns { r with exts := (condensed n, imp) :: r.exts } else (false, r)

/-- `DayBasis::RegisterExtension` (17–32): whether it returned, and the registry then. The text of an extension is always at the same place, so that the
comparison of pointers in line 31 compares the texts. -/
def register (sgn : Bool) (t : EnumTable) (names : List Str) (imp : Ext) (r : ExtReg) : Bool × ExtReg :=
  if r.enumerated then (false, r)
  else if fresh sgn t r imp.text then
    match registerNames sgn t imp names r with
    | (false, r) => (false, r)
    | (true, r) =>
      match readExt sgn t r imp.text with
      | none => (false, r)
      | some check => (decide (printExt t check = some imp.text), r)
  else (false, r)

end Dal.Strings
