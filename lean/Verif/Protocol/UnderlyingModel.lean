import Mathlib.Order.Defs.LinearOrder

/-!
# Requirements of trades

`/repo/dal/protocol/underlying.hpp` 15–31 and `underlying.cpp` 10–52.

Simplifications: a `std::map` is the list of its entries, in the order of the keys; the keys and the dates are of linearly ordered types (names that
compare equal are one key: for `String_` see C16, for `DateTime_` C10); `parent_` is left out, `operator+=` does not touch it.
-/

namespace Dal.Protocol

variable {κ V : Type} [LinearOrder κ] [LinearOrder V]

/-- Reading an entry of a `std::map`. -/
def get (m : List (κ × V)) (k : κ) : Option V :=
  match m with
  | [] => none
  | e :: m => if k = e.1 then some e.2 else get m k

/-- Assigning to an entry of a `std::map`, in the order of the keys. -/
def put (m : List (κ × V)) (k : κ) (v : V) : List (κ × V) :=
  match m with
  | [] => [(k, v)]
  | e :: m => if k < e.1 then (k, v) :: e :: m else if k = e.1 then (k, v) :: m else e :: put m k v

/-- `std::max`: the first unless the second is greater. -/
def stdMax (a b : V) : V := if a < b then b else a

/-- The body of the loop of `MergeMax` (`underlying.cpp` 14–17), and of `Include` (30–33, 38–41, 46–49). -/
def include1 (m : List (κ × V)) (k : κ) (v : V) : List (κ × V) :=
  match get m k with
  | some w => put m k (stdMax w v)
  | none => put m k v

/-- `MergeMax` (`underlying.cpp` 11–19). -/
def mergeMax (base other : List (κ × V)) : List (κ × V) := other.foldl (fun m e => include1 m e.1 e.2) base

/-- `Underlying_` (`underlying.hpp` 21–24), for keys `C`, `I`, `N` of currencies, indices and names, and dates `D` and times `T`. -/
structure Underlying (C I N D T : Type) where
  payCcys : List (C × D)
  indices : List (I × T)
  credits : List (N × D)

variable {C I N D T : Type} [LinearOrder C] [LinearOrder I] [LinearOrder N] [LinearOrder D] [LinearOrder T]

/-- `Underlying_::operator+=` (`underlying.cpp` 22–27). -/
def Underlying.add (u more : Underlying C I N D T) : Underlying C I N D T :=
  ⟨mergeMax u.payCcys more.payCcys, mergeMax u.indices more.indices, mergeMax u.credits more.credits⟩

/-- `Include` of a currency (`underlying.cpp` 29–35). -/
def Underlying.includeCcy (u : Underlying C I N D T) (ccy : C) (d : D) : Underlying C I N D T := { u with payCcys := include1 u.payCcys ccy d }

/-- `Include` of an index (`underlying.cpp` 37–43). -/
def Underlying.includeIndex (u : Underlying C I N D T) (index : I) (t : T) : Underlying C I N D T := { u with indices := include1 u.indices index t }

/-- `Include` of a credit name (`underlying.cpp` 45–51). -/
def Underlying.includeName (u : Underlying C I N D T) (name : N) (d : D) : Underlying C I N D T := { u with credits := include1 u.credits name d }

end Dal.Protocol
