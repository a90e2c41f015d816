import Verif.Strings.StringModel

/-! # Model of the object repository (storage/_repository.cpp, storage/_repository.hpp)

The repository is an ordered map from tags (case-insensitive strings) to objects; it is modelled by
the list of its entries in map order.  An object is known by its type, its name, the text of its
address (`String::Uniquifier`, strings.cpp:125-129) and a payload. -/

namespace Dal.Repo
open Strings

/-- `Storable_`, storable.hpp:14-23, with the text of its address and its contents. -/
structure Obj (α : Type) where
  type : Str
  name : Str
  addr : Str
  data : α

variable {α : Type}

/-- `TypeTag`, _repository.cpp:27. -/
def typeTag (t : Str) : Str := '~' :: (t ++ ['~'])

/-- `BaseTag`, _repository.cpp:28. -/
def baseTag (t n : Str) : Str := typeTag t ++ n ++ ['~']

/-- The full tag, _repository.cpp:61. -/
def tag (o : Obj α) : Str := baseTag o.type o.name ++ o.addr

/-- `TheObjects()`, _repository.cpp:22. -/
abbrev Repo (α : Type) := List (Str × Obj α)

/-- `pHigh->first.substr(0, start.size()) == start`, _repository.cpp:35. -/
def hasPrefix (sgn : Bool) (start k : Str) : Bool := eqS sgn (k.take start.length) start

/-- `EraseByStart`, _repository.cpp:31-38: the entries before `lower_bound(start)` stay; from there on
entries are dropped as long as they start with `start`. -/
def eraseByStart (sgn : Bool) (start : Str) (r : Repo α) : Repo α :=
  r.takeWhile (fun e => ltS sgn e.1 start) ++
    (r.dropWhile (fun e => ltS sgn e.1 start)).dropWhile (fun e => hasPrefix sgn start e.1)

/-- `RepositoryErase_`, _repository.hpp:15-26. -/
inductive EraseRule
  | none
  | nameNonempty
  | name
  | type

/-- The erasing part of `AddBase`, _repository.cpp:42-58. -/
def eraseFor (sgn : Bool) (rule : EraseRule) (s : Obj α) (r : Repo α) : Repo α :=
  match rule with
  | .nameNonempty => if s.name = [] then r else eraseByStart sgn (baseTag s.type s.name) r
  | .name => eraseByStart sgn (baseTag s.type s.name) r
  | .type => eraseByStart sgn (typeTag s.type) r
  | .none => r

/-- The inserting part of `AddBase`, _repository.cpp:60-63. -/
def insertObj (sgn : Bool) (s : Obj α) (r : Repo α) : Repo α := mapInsert sgn (tag s) s r

/-- `ObjectAccess_::AddBase`, _repository.cpp:41-64; the returned tag is `tag s`. -/
def add (sgn : Bool) (rule : EraseRule) (s : Obj α) (r : Repo α) : Repo α :=
  insertObj sgn s (eraseFor sgn rule s r)

/-- The loop of `ObjectAccess_::Erase(pattern)`, _repository.cpp:69-77; the regular expression is a
predicate on tags.  Returns the repository and the number erased. -/
def erasePattern (p : Str → Bool) : Repo α → Repo α × Nat
  | [] => ([], 0)
  | e :: r =>
    let x := erasePattern p r
    if p e.1 then (x.1, x.2 + 1) else (e :: x.1, x.2)

/-- `std::map::erase(key)`. -/
def eraseKey (sgn : Bool) (k : Str) : Repo α → Repo α
  | [] => []
  | e :: r => if ¬ ltS sgn k e.1 ∧ ¬ ltS sgn e.1 k then r else e :: eraseKey sgn k r

/-- `ObjectAccess_::Erase(object)`, _repository.cpp:81-88. -/
def eraseObject (sgn : Bool) (o : Obj α) (r : Repo α) : Repo α × Bool :=
  if (mapFind sgn (tag o) r).isSome then (eraseKey sgn (tag o) r, true) else (r, false)

/-- `ObjectAccess_::Size`, _repository.cpp:90-93. -/
def size (r : Repo α) : Nat := r.length

/-- `ObjectAccess_::Find`, _repository.cpp:95-105. -/
def find (p : Str → Bool) (r : Repo α) : List (Obj α) :=
  r.foldl (fun acc e => if p e.1 then acc ++ [e.2] else acc) []

/-- `ObjectAccess_::Fetch`, _repository.cpp:142-153. -/
def fetch (sgn : Bool) (t : Str) (r : Repo α) : Option (Obj α) := mapFind sgn t r

/-- `Repository_Erase`, _repository.cpp:107-112. -/
def eraseObjects (sgn : Bool) (os : List (Obj α)) (r : Repo α) : Repo α × Nat :=
  os.foldl (fun acc o =>
    let x := eraseObject sgn o acc.1
    (x.1, acc.2 + if x.2 then 1 else 0)) (r, 0)

/-- The name under which `RepoStore_` keeps a global, _repository.cpp:117-121. -/
def globalName (name : Str) : Str := "##GLOBAL##".toList ++ name

/-- The type name of `Box_`, box.hpp:26. -/
def boxType : Str := "Box".toList

/-- `RepoStore_::Set`, _repository.cpp:120-123; `addr` is the address of the new box. -/
def storeSet (sgn : Bool) (addr name : Str) (v : α) (r : Repo α) : Repo α :=
  add sgn .name ⟨boxType, globalName name, addr, v⟩ r

/-- The lookup inside `RepoStore_::Get`, _repository.cpp:126-134. -/
def lowerEntry (sgn : Bool) (start : Str) (r : Repo α) : Option α :=
  match r.dropWhile (fun e => ltS sgn e.1 start) with
  | [] => Option.none
  | e :: _ => if hasPrefix sgn start e.1 then some e.2.data else Option.none

/-- `RepoStore_::Get`, _repository.cpp:124-136 (for non-empty contents). -/
def storeGet (sgn : Bool) (name : Str) (r : Repo α) : Option α :=
  lowerEntry sgn (baseTag boxType (globalName name)) r

/-- Operations on the repository. -/
inductive Op (α : Type)
  | add (rule : EraseRule) (s : Obj α)
  | erasePattern (p : Str → Bool)
  | eraseObject (o : Obj α)

/-- One operation. -/
def step (sgn : Bool) (r : Repo α) : Op α → Repo α
  | .add rule s => add sgn rule s r
  | .erasePattern p => (erasePattern p r).1
  | .eraseObject o => (eraseObject sgn o r).1

/-- A thread executing `AddBase`: the lock is taken twice, so other threads can run between the two
critical sections. -/
inductive AddPc
  | erase | insert | done
  deriving DecidableEq

/-- One atomic step (critical section) of a thread adding `s`. -/
def addStep (sgn : Bool) (rule : EraseRule) (s : Obj α) : AddPc × Repo α → AddPc × Repo α
  | (.erase, r) => (.insert, eraseFor sgn rule s r)
  | (.insert, r) => (.done, insertObj sgn s r)
  | (.done, r) => (.done, r)

end Dal.Repo
