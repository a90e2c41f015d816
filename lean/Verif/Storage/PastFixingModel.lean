import Verif.Storage.GlobalsModel
import Verif.Storage.JsonDocModel
import Verif.Strings.StringModel

/-! # Model of past fixings (indice/index.cpp, indice/index.hpp, indice/fixings.cpp, utilities/maps.hpp)

Objects are what they hold; the flag of `String_` comparisons is that of `StringModel`. -/

namespace Dal.Past
open DateText Env

variable {V E : Type}

/-- `Fixings_`, fixings.hpp:41-48: the name of the index and the map. -/
structure Fixings (V : Type) where
  name : List Char
  vals : List (DateTime × V)
  deriving DecidableEq

/-- `std::map<DateTime_, V>::insert`: an entry of that time is left alone. -/
def insertNew (k : DateTime) (v : V) : List (DateTime × V) → List (DateTime × V)
  | [] => [(k, v)]
  | e :: m => if Fix.ltB k e.1 then (k, v) :: e :: m else if Fix.ltB e.1 k then e :: insertNew k v m else e :: m

/-- `std::map<DateTime_, V>::find`. -/
def mapFind (t : DateTime) : List (DateTime × V) → Option V
  | [] => none
  | e :: m => if !Fix.ltB e.1 t && !Fix.ltB t e.1 then some e.2 else mapFind t m

/-- The loop of `ZipToMap`, maps.hpp:13-14. -/
def zipLoop : List DateTime → List V → List (DateTime × V) → List (DateTime × V)
  | t :: ts, v :: vs, m => zipLoop ts vs (insertNew t v m)
  | _, _, m => m

/-- `ZipToMap`, maps.hpp:9-16. -/
def zipToMap (ts : List DateTime) (vs : List V) : Option (List (DateTime × V)) :=
  if ts.length = vs.length then some (zipLoop ts vs []) else none

/-- `FixingsAccess_`, index.hpp:11-20: the map by names, with handles that can be empty (`none`). -/
abbrev Access (V : Type) := List (List Char × Option (Fixings V))

/-- `FixingsAccess_::Fetch`, index.hpp:13-19. -/
def fetch (sgn : Bool) (a : Access V) (name : List Char) : Option (Fixings V) :=
  match Strings.mapFind sgn name a with
  | some h => h
  | none => none

/-- Outcomes of `PastFixing`: a number, minus infinity, an exception, or a null pointer read. -/
inductive Outcome (V : Type)
  | value (v : V)
  | minusInfinity
  | throws
  | undefined
  deriving DecidableEq

/-- `Index::PastFixing`, index.cpp:11-25; `cast` is the dynamic cast to `FixingsAccess_`. -/
def pastFixing (sgn : Bool) (fuel : Nat) (env : EnvPtr E) (cast : E → Option (Access V)) (name : List Char) (t : DateTime) (quiet : Bool) : Outcome V :=
  match findE fuel env cast with
  | none => .undefined
  | some hist =>
    if hist.isNone && !quiet then .throws
    else match hist with
      | none => .undefined
      | some a =>
        let fixings := fetch sgn a name
        if fixings.isNone && !quiet then .throws
        else
          let vals := match fixings with
            | some f => f.vals
            | none => []
          match mapFind t vals with
          | some v => .value v
          | none => if quiet then .minusInfinity else .throws

/-- `Index_::Fixing`, index.cpp:27-29. -/
def fixing (sgn : Bool) (fuel : Nat) (env : EnvPtr E) (cast : E → Option (Access V)) (indexName : List Char) (t : DateTime) : Outcome V :=
  pastFixing sgn fuel env cast indexName t false

/-- `IndexKey_`, index.hpp:33-38: an empty handle has the empty name. -/
def keyName (index : Option (List Char)) : List Char :=
  match index with
  | some n => n
  | none => []

/-- `operator<` of keys, index.hpp:40. -/
def keyLess (sgn : Bool) (a b : Option (List Char)) : Bool := Strings.ltS sgn (keyName a) (keyName b)

/-- `operator==` of keys, index.hpp:42. -/
def keyEq (sgn : Bool) (a b : Option (List Char)) : Bool := Strings.eqS sgn (keyName a) (keyName b)

/-! ### Storage -/

/-- `Fixings_::Write`, fixings.cpp:39-41: the members of the archive, with `MapValues` and `Keys`. -/
def members (f : Fixings Rat) : Archive.Obj JsonDoc.Atom :=
  ⟨"Fixings".toList, [.one (.atom (.text f.name)), .one (.atom (.numbers (f.vals.map Prod.snd))), .one (.atom (.dateTimes (f.vals.map Prod.fst)))]⟩

/-- `Reader_::Build`, fixings.cpp:19-21. -/
def build (o : Archive.Obj JsonDoc.Atom) : Option (Fixings Rat) :=
  match o.vals with
  | [.one (.atom (.text name)), .one (.atom (.numbers vs)), .one (.atom (.dateTimes ts))] => (zipToMap ts vs).map fun m => ⟨name, m⟩
  | _ => none

/-- `JSON::WriteString` of fixings. -/
def toJson (f : Fixings Rat) : Option (List Char) := JsonDoc.writeString (fun t => Archive.library.lookup t) (fun _ => members f) 1 0

/-- `JSON::ReadString`, with the first object taken to its class. -/
def fromJson (s : List Char) : Option (Fixings Rat) :=
  (JsonDoc.readString (fun t => Archive.library.lookup t) 2 s).bind fun p => (p.2.heap[p.1]?).bind build

end Dal.Past
