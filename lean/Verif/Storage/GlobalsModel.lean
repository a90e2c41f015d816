import Verif.Time.DateTextModel
import Mathlib.Order.Basic

/-! # Model of environments, global dates and fixings

`utilities/environment.hpp`, `storage/globals.hpp`, `storage/globals.cpp`, `indice/fixings.cpp`. -/

namespace Dal.Env

variable {E : Type}

/-- A `const Environment_*`: null, a `Base_` (environment.hpp:77-93) or an `XDecorated_`
(environment.hpp:95-117) with its parent pointer and its entry.  Environments are immutable while they
are reachable, so a pointer is modelled by what it points to. -/
inductive EnvPtr (E : Type)
  | null
  | base (vals : List E)
  | deco (parent : EnvPtr E) (val : E)

/-- `IterImp_`: `Base_::MyIter_` (79-88; the entries from the current position on) or
`XDecorated_::I1` (100-107). -/
inductive IterImp (E : Type)
  | myIter (rest : List E)
  | i1 (parent : EnvPtr E) (val : E)

/-- `XBegin`, environment.hpp:92 and 116; calling it through a null pointer is undefined (`none`). -/
def xBegin : EnvPtr E → Option (IterImp E)
  | .null => none
  | .base vals => some (.myIter vals)
  | .deco p v => some (.i1 p v)

/-- `Iterator_::IsValid`, environment.hpp:34 with `Valid` 85 and 104; an iterator is an implementation
or a null handle. -/
def isValid : Option (IterImp E) → Bool
  | none => false
  | some (.myIter rest) => !rest.isEmpty
  | some (.i1 _ _) => true

/-- `operator++` (environment.cpp:8-11) with `Next` (environment.hpp:86, 105). -/
def next : Option (IterImp E) → Option (IterImp E)
  | none => none
  | some (.myIter rest) => some (.myIter rest.tail)
  | some (.i1 p _) => match p with
    | .null => none
    | p => xBegin p

/-- `operator*`, environment.hpp:87 and 106. -/
def deref : Option (IterImp E) → Option E
  | none => none
  | some (.myIter rest) => rest.head?
  | some (.i1 _ v) => some v

/-- The loop `for (pe = Begin(); pe.IsValid(); ++pe) func(*pe)`, environment.hpp:46-47, with a bound on
the number of rounds (`none`: bound reached or undefined behaviour). -/
def iterLoop {β : Type} (f : β → E → β) : Nat → Option (IterImp E) → β → Option β
  | 0, _, _ => none
  | fuel + 1, it, acc =>
    if isValid it then (deref it).bind fun e => iterLoop f fuel (next it) (f acc e) else some acc

/-- `Environment::Iterate`, environment.hpp:44-48. -/
def iterate {β : Type} (fuel : Nat) (env : EnvPtr E) (f : β → E → β) (acc : β) : Option β :=
  match env with
  | .null => some acc
  | env => iterLoop f fuel (xBegin env) acc

/-- `Environment::Collect`, environment.hpp:50-60; `cast` is the dynamic cast. -/
def collect {T : Type} (fuel : Nat) (env : EnvPtr E) (cast : E → Option T) : Option (List T) :=
  iterate fuel env (fun acc e => match cast e with | some t => acc ++ [t] | none => acc) []

/-- The loop of `Environment::Find`, environment.hpp:65-67. -/
def findLoop {T : Type} (f : E → Option T) : Nat → Option (IterImp E) → Option (Option T)
  | 0, _ => none
  | fuel + 1, it =>
    if isValid it then (deref it).bind fun e =>
      match f e with
      | some t => some (some t)
      | none => findLoop f fuel (next it)
    else some none

/-- `Environment::Find`, environment.hpp:62-75; the inner `none` is the null result. -/
def findE {T : Type} (fuel : Nat) (env : EnvPtr E) (f : E → Option T) : Option (Option T) :=
  match env with
  | .null => some none
  | env => findLoop f fuel (xBegin env)

/-- Code using environments: `ENV_ADD(e)` followed by the rest of its block (environment.hpp:122-124),
`ENV_SEED(e)` followed by the rest of its block (125), calls handing `_env` over by value, exceptions,
and probes observing the environment. -/
inductive Prog (E : Type)
  | skip
  | probe
  | throw
  | seq (p q : Prog E)
  | tryCatch (p q : Prog E)
  | add (e : E) (p : Prog E)
  | seed (e : E) (p : Prog E)
  | call (p : Prog E)

/-- Execution from the current value of `_env`: the environments seen by the probes, the value of
`_env` afterwards and whether an exception is propagating.  `add` runs the constructor 110-113, the
block, and the destructor 114 (also when unwinding). -/
def exec : Prog E → EnvPtr E → List (EnvPtr E) × EnvPtr E × Bool
  | .skip, env => ([], env, false)
  | .probe, env => ([env], env, false)
  | .throw, env => ([], env, true)
  | .seq p q, env =>
    let a := exec p env
    if a.2.2 then a else
      let b := exec q a.2.1
      (a.1 ++ b.1, b.2.1, b.2.2)
  | .tryCatch p q, env =>
    let a := exec p env
    if a.2.2 then
      let b := exec q a.2.1
      (a.1 ++ b.1, b.2.1, b.2.2)
    else a
  | .add e p, env =>
    let parent := env
    let a := exec p (.deco parent e)
    (a.1, parent, a.2.2)
  | .seed e p, env =>
    let a := exec p (.deco .null e)
    (a.1, env, a.2.2)
  | .call p, env =>
    let a := exec p env
    (a.1, env, a.2.2)

end Dal.Env

namespace Dal.Glob

/-- The two global dates, globals.cpp:41-48. -/
inductive Which
  | accounting | evaluation
  deriving DecidableEq

/-- The date store by name (`RepoStore_`, see `C22_store_get_set`). -/
abbrev Store (D : Type) := Which → Option D

variable {D : Type}

/-- `Set`. -/
def setS (st : Store D) (w : Which) (d : D) : Store D := fun x => if x = w then some d else st x

/-- `GetGlobalDate`, globals.cpp:28-38; `today` is `Date::Today()`. -/
def getGlobal (today : D) (w : Which) (st : Store D) : D × Store D :=
  match st w with
  | some d => (d, st)
  | none => (today, setS st w today)

/-- `ScopedOverride_`, globals.hpp:51-55; `target` is `setFunc_` (null: `none`). -/
structure Guard (D : Type) where
  saved : D
  target : Option Which

/-- `SetXInScope`, globals.cpp:68-78, up to the return statement. -/
def inScope (today : D) (w : Which) (d : D) (st : Store D) : Guard D × Store D :=
  let x := getGlobal today w st
  (⟨x.1, some w⟩, setS x.2 w d)

/-- The move constructor, globals.hpp:61-64: the new guard and the emptied one. -/
def moveCtor (g : Guard D) : Guard D × Guard D := (⟨g.saved, g.target⟩, ⟨g.saved, none⟩)

/-- Move assignment `lhs = std::move(rhs)` of distinct guards, globals.hpp:66-73. -/
def moveAssign (_lhs rhs : Guard D) : Guard D × Guard D := (⟨rhs.saved, rhs.target⟩, ⟨rhs.saved, none⟩)

/-- The destructor, globals.hpp:74-77. -/
def dtor (g : Guard D) (st : Store D) : Store D :=
  match g.target with
  | some w => setS st w g.saved
  | none => st

/-- Code using the global dates. -/
inductive Prog (D : Type)
  | skip
  | throw
  | read (w : Which)
  | set (w : Which) (d : D)
  | seq (p q : Prog D)
  | tryCatch (p q : Prog D)
  | scope (w : Which) (d : D) (p : Prog D)

/-- Execution: the dates read, the store afterwards and whether an exception is propagating.  `scope`
is `auto g = SetXInScope(d); p` — the returned guard is moved into `g`, the moved-from one destroyed,
and `g` is destroyed when the block is left in whichever way. -/
def exec (today : D) : Prog D → Store D → List (Which × D) × Store D × Bool
  | .skip, st => ([], st, false)
  | .throw, st => ([], st, true)
  | .read w, st => ([(w, (getGlobal today w st).1)], (getGlobal today w st).2, false)
  | .set w d, st => ([], setS st w d, false)
  | .seq p q, st =>
    let a := exec today p st
    if a.2.2 then a else
      let b := exec today q a.2.1
      (a.1 ++ b.1, b.2.1, b.2.2)
  | .tryCatch p q, st =>
    let a := exec today p st
    if a.2.2 then
      let b := exec today q a.2.1
      (a.1 ++ b.1, b.2.1, b.2.2)
    else a
  | .scope w d p, st =>
    let x := inScope today w d st
    let m := moveCtor x.1
    let st1 := dtor m.2 x.2
    let a := exec today p st1
    (a.1, dtor m.1 a.2.1, a.2.2)

end Dal.Glob

namespace Dal.Fix
open DateText

variable {V : Type}

/-- `operator<` of date-times as a decision, see `Dal.ltDT`. -/
def ltB (a b : DateTime) : Bool :=
  decide (a.date.serial < b.date.serial) || (decide (a.date = b.date) && decide (a.frac < b.frac))

/-- `all[key] = value` on `std::map<DateTime_, double>`. -/
def put (k : DateTime) (v : V) : List (DateTime × V) → List (DateTime × V)
  | [] => [(k, v)]
  | e :: m => if ltB k e.1 then (k, v) :: e :: m else if ltB e.1 k then e :: put k v m else (e.1, v) :: m

/-- The fixings store: rows of each index. -/
abbrev Store (V : Type) := List Char → List (DateTime × V)

/-- `Fixings_::History`, globals.cpp:91-105. -/
def history (st : Store V) (index : List Char) : List (DateTime × V) := st index

/-- `XGLOBAL::StoreFixings`, globals.cpp:107-127: the new store and the number of rows. -/
def storeFixings (st : Store V) (index : List Char) (fixings : List (DateTime × V)) (append : Bool) :
    Store V × Nat :=
  let old := if append then (history st index).foldl (fun m e => put e.1 e.2 m) [] else []
  let all := fixings.foldl (fun m e => put e.1 e.2 m) old
  (fun x => if x = index then all else st x, all.length)

/-- `FixHistory_::Find`, fixings.cpp:28-37; the outer `none` is the exception, the inner one `-INF`. -/
def findFix (vals : List (DateTime × V)) (t : DateTime) (quiet : Bool) : Option (Option V) :=
  match vals.dropWhile (fun e => ltB e.1 t) with
  | [] => if quiet then some none else none
  | e :: _ => if e.1 = t then some (some e.2) else if quiet then some none else none

end Dal.Fix
