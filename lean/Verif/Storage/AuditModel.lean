import Verif.Storage.GlobalsModel
import Verif.Strings.StringModel

/-!
# Model of auditors and bags

`dal/storage/audit.cpp`, `audit.hpp`, `bag.hpp`, `bag.cpp` and `ZipToMultimap` of `dal/utilities/maps.hpp`.  A handle is the identity of an object, or nothing for an
empty handle; a cast is a test on identities.  Auditors live in a store, and an entry of an environment is an auditor, by its number, or something else.
An exception keeps what was done before it.
-/

namespace Dal.Audit
open Strings Env

/-! ### `std::multimap<String_, …>`, the list of its entries in order -/

/-- `insert`: after all entries with an equivalent key. -/
def mmInsert {V : Type} (sgn : Bool) (k : Str) (v : V) : List (Str × V) → List (Str × V)
  | [] => [(k, v)]
  | e :: m => if ltS sgn k e.1 then (k, v) :: e :: m else e :: mmInsert sgn k v m

/-- `equal_range`. -/
def mmRange {V : Type} (sgn : Bool) (k : Str) (m : List (Str × V)) : List (Str × V) :=
  (m.dropWhile fun e => ltS sgn e.1 k).takeWhile fun e => !ltS sgn k e.1

/-- `erase(key)`. -/
def mmErase {V : Type} (sgn : Bool) (k : Str) (m : List (Str × V)) : List (Str × V) :=
  (m.takeWhile fun e => ltS sgn e.1 k) ++ (m.dropWhile fun e => ltS sgn e.1 k).dropWhile fun e => !ltS sgn k e.1

/-- `ZipToMultimap` (`maps.hpp` 18–25); `none`: exception. -/
def zipToMultimap {V : Type} (sgn : Bool) (ks : List Str) (vs : List V) : Option (List (Str × V)) :=
  if ks.length = vs.length then some ((ks.zip vs).foldl (fun m e => mmInsert sgn e.1 e.2 m) []) else none

/-- What `Bag_::Write` (`bag.cpp` 22–24) stores: the keys and the contents. -/
def bagWrite {V : Type} (m : List (Str × V)) : List Str × List V := (m.map Prod.fst, m.map Prod.snd)

/-- What `Reader_::Build` (`bag.cpp` 17–19) makes of them. -/
def bagRead {V : Type} (sgn : Bool) (s : List Str × List V) : Option (List (Str × V)) := zipToMultimap sgn s.1 s.2

/-! ### Auditors -/

/-- The modes (`audit.hpp` 24–29). -/
inductive Mode
  | passive
  | reading
  | readingExclusive
  | showing
  deriving DecidableEq

/-- How a call ends. -/
inductive End (α : Type)
  | ok (a : α)
  | throws
  | undefined
  deriving DecidableEq

/-- `AuditorImp_` (`audit.hpp` 20–33); a new auditor has an empty bag and a mode that was never set. -/
structure Auditor where
  mode : Option Mode
  bag : List (Str × Option Nat)

/-- The constructor (`audit.hpp` 30). -/
def Auditor.new : Auditor := ⟨none, []⟩

/-- `Notice` (`audit.cpp` 21–32): the mode is read, and the bag changed in the reading modes only. -/
def notice (sgn : Bool) (a : Auditor) (key : Str) (value : Option Nat) : End Auditor :=
  match a.mode with
  | none => .undefined
  | some .readingExclusive => .ok ⟨a.mode, mmInsert sgn key value (mmErase sgn key a.bag)⟩
  | some .reading => .ok ⟨a.mode, mmInsert sgn key value a.bag⟩
  | some .passive => .throws
  | some .showing => .throws

/-- `Find` (`audit.cpp` 34–42); `first`: no auditor has been searched before in this process, and the function dereferences the first entry of its bag. -/
def find (sgn first : Bool) (a : Auditor) (key : Str) : End (List (Option Nat)) :=
  if first && a.bag.isEmpty then .undefined
  else
    match a.mode with
    | none => .undefined
    | some .showing => .ok ((mmRange sgn key a.bag).map Prod.snd)
    | some _ => .ok []

/-- The store of auditors, by number. -/
abbrev Store := Nat → Auditor

/-- Replace one auditor. -/
def put (s : Store) (i : Nat) (a : Auditor) : Store := fun j => if j = i then a else s j

/-- The functor `ShowToAuditor_` (`audit.cpp` 11–19), skipping everything after an exception. -/
def show1 (sgn : Bool) (key : Str) (value : Option Nat) (s : Store × End Unit) (e : Option Nat) : Store × End Unit :=
  match s.2, e with
  | .ok _, some i =>
    match notice sgn (s.1 i) key value with
    | .ok a => (put s.1 i a, .ok ())
    | .throws => (s.1, .throws)
    | .undefined => (s.1, .undefined)
  | _, _ => s

/-- `Environment::AuditBase` (`audit.cpp` 44–47). -/
def audit (sgn : Bool) (fuel : Nat) (env : EnvPtr (Option Nat)) (s : Store) (key : Str) (value : Option Nat) : Option (Store × End Unit) :=
  iterate fuel env (show1 sgn key value) (s, .ok ())

/-- The loop over what one auditor shows (`audit.hpp` 49–55); `isT`: the cast succeeds. -/
def recallHandles (isT : Nat → Bool) : List (Option Nat) → Option Nat → End (Option Nat)
  | [], v => .ok v
  | h :: hs, v =>
    let temp := h.filter isT
    if temp ≠ none ∧ temp ≠ v then
      if v = none then recallHandles isT hs temp else .throws
    else recallHandles isT hs v

/-- `Recall_` (`audit.hpp` 41–58) on one entry; the second part of the state: an auditor was searched before. -/
def recall1 (sgn : Bool) (isT : Nat → Bool) (s : Store) (key : Str) (st : Bool × End (Option Nat)) (e : Option Nat) : Bool × End (Option Nat) :=
  match st.2, e with
  | .ok v, some i =>
    match find sgn (!st.1) (s i) key with
    | .ok hs => (true, recallHandles isT hs v)
    | .throws => (true, .throws)
    | .undefined => (true, .undefined)
  | _, _ => st

/-- `Environment::Recall` (`audit.hpp` 60–64) into an empty handle; `searched`: an auditor was searched before in this process. -/
def recall (sgn : Bool) (isT : Nat → Bool) (fuel : Nat) (env : EnvPtr (Option Nat)) (s : Store) (searched : Bool) (key : Str) : Option (End (Option Nat)) :=
  (iterate fuel env (recall1 sgn isT s key) (searched, .ok none)).map Prod.snd

/-- What the owner of an auditor does with it. -/
inductive Op
  | setMode (m : Mode)
  | notice (key : Str) (value : Option Nat)

/-- One operation; a notice that fails leaves the auditor as it is. -/
def step (sgn : Bool) (a : Auditor) : Op → Auditor
  | .setMode m => ⟨some m, a.bag⟩
  | .notice k v => match Audit.notice sgn a k v with
    | .ok a' => a'
    | _ => a

end Dal.Audit
