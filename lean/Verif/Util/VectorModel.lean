import Mathlib.Algebra.Order.Field.Basic
import Mathlib.Algebra.Order.Floor.Ring
import Mathlib.Algebra.Order.BigOperators.Ring.List
import Mathlib.Data.Rat.Floor

/-! # Model of vectors, algorithms on containers and statistics (vectors.hpp, algorithms.hpp, maps.hpp, numerics.hpp/.cpp)

`Vector_` is a list.  Numbers are elements of an ordered field; `sqrt` and `fabs` are parameters or operations of the field.
`REQUIRE` is on.  Simplification: integer element types, for which divisions by `size_t` behave differently, are not modelled. -/

namespace Dal.Containers

/-- The outcome of a call: a value, an exception, undefined behaviour (reads and writes outside, `0 / 0`). -/
inductive Res (α : Type)
  | ok (a : α)
  | throws
  | undefined
  deriving DecidableEq

/-- Going on with the value. -/
def Res.bind {α β : Type} (x : Res α) (f : α → Res β) : Res β :=
  match x with
  | .ok a => f a
  | .throws => .throws
  | .undefined => .undefined

/-! ### Vectors (vectors.hpp) -/

/-- `std::transform` of two ranges, as in vectors.hpp:50-56, 142-146: the second range is read as far as the first goes. -/
def transform2 {α β γ : Type} (f : α → β → γ) : List α → List β → Res (List γ)
  | [], _ => .ok []
  | _ :: _, [] => .undefined
  | a :: as, b :: bs => (transform2 f as bs).bind fun l => .ok (f a b :: l)

/-- `operator+=` of vectors, vectors.hpp:50-52. -/
def addAssign {K : Type} [Add K] (v w : List K) : Res (List K) := transform2 (· + ·) v w

/-- `operator-=` of vectors, vectors.hpp:54-56. -/
def subAssign {K : Type} [Sub K] (v w : List K) : Res (List K) := transform2 (· - ·) v w

/-- `operator*` of vectors, vectors.hpp:142-146. -/
def mulVec {K : Type} [Mul K] (v w : List K) : Res (List K) := transform2 (· * ·) v w

/-- `operator*=`, `operator+=`, `operator-=` with a number, vectors.hpp:38-48. -/
def scaleAssign {K : Type} [Mul K] (v : List K) (s : K) : List K := v.map (· * s)

/-- `operator+=` with a number. -/
def shiftAssign {K : Type} [Add K] (v : List K) (s : K) : List K := v.map (· + s)

/-- `EqualElements`, vectors.hpp:97-102. -/
def equalElements {α : Type} [DecidableEq α] : List α → List α → Res Bool
  | [], _ => .ok true
  | _ :: _, [] => .undefined
  | a :: as, b :: bs => if a ≠ b then .ok false else equalElements as bs

/-- `Equal`, vectors.hpp:104-106, behind `operator==`. -/
def equal {α : Type} [DecidableEq α] (l r : List α) : Res Bool := if l.length = r.length then equalElements l r else .ok false

/-- Writing an element; outside it is undefined. -/
def write {K : Type} (x : List K) (i : Nat) (v : K) : Res (List K) := if i < x.length then .ok (x.set i v) else .undefined

/-- The loop of `XRange`, vectors.hpp:123-124, from `i` on, `n` turns. -/
def xloop {K : Type} [Field K] (start dx : K) : Nat → Nat → List K → Res (List K)
  | 0, _, x => .ok x
  | n + 1, i, x => (write x i (start + i * dx)).bind fun x => xloop start dx n (i + 1) x

/-- `XRange`, vectors.hpp:120-127; `points - 1` is a `size_t`. -/
def xRange {K : Type} [Field K] (start finish : K) (points : Nat) : Res (List K) :=
  let last : Nat := (points + (2 ^ 64 - 1)) % 2 ^ 64
  let dx := (finish - start) / (last : K)
  (xloop start dx last 0 (List.replicate points 0)).bind fun x => write x last finish

/-! ### Algorithms (algorithms.hpp, maps.hpp) -/

/-- `Transform` of one source into a destination of the same size, algorithms.hpp:24-27. -/
def transform {α β : Type} (src : List α) (op : α → β) (dst : List β) : Res (List β) := if src.length = dst.length then .ok (src.map op) else .throws

/-- `Apply` with two sources, algorithms.hpp:59-65. -/
def apply2 {α β γ : Type} (op : α → β → γ) (a : List α) (b : List β) : Res (List γ) :=
  if a.length = b.length then transform2 op a b else .throws

/-- `Zip`, algorithms.hpp:175-178. -/
def zip {α β : Type} (a : List α) (b : List β) : Res (List (α × β)) := apply2 Prod.mk a b

/-- `std::unique`: of consecutive equal elements the first is kept. -/
def uniqueAdj {α : Type} [DecidableEq α] : List α → List α
  | [] => []
  | a :: l => match uniqueAdj l with
    | [] => [a]
    | b :: m => if a = b then a :: m else a :: b :: m

/-- What `std::sort` may leave, of all that it may: some order without an inversion. -/
def SortOf {α : Type} (less : α → α → Bool) (src s : List α) : Prop := s.Perm src ∧ s.Pairwise fun a b => less b a = false

/-- `Unique`, algorithms.hpp:101-106: the results it may give. -/
def UniqueOf {α : Type} [DecidableEq α] (less : α → α → Bool) (src out : List α) : Prop := ∃ s, SortOf less src s ∧ out = uniqueAdj s

/-- `IsMonotonic`, algorithms.hpp:140-149. -/
def isMonotonic {α : Type} (pred : α → α → Bool) : List α → Bool
  | a :: b :: l => if !pred a b then false else isMonotonic pred (b :: l)
  | _ => true

/-- `std::map::insert`: an entry that is there stays. -/
def mapInsert {κ ν : Type} [LT κ] [DecidableLT κ] (k : κ) (v : ν) : List (κ × ν) → List (κ × ν)
  | [] => [(k, v)]
  | e :: m => if k < e.1 then (k, v) :: e :: m else if e.1 < k then e :: mapInsert k v m else e :: m

/-- `std::multimap::insert`: behind the entries with the same key. -/
def multiInsert {κ ν : Type} [LT κ] [DecidableLT κ] (k : κ) (v : ν) : List (κ × ν) → List (κ × ν)
  | [] => [(k, v)]
  | e :: m => if k < e.1 then (k, v) :: e :: m else e :: multiInsert k v m

/-- The entries of two vectors inserted in turn. -/
def insertAll {κ ν μ : Type} (ins : κ → ν → μ → μ) : List κ → List ν → μ → Res μ
  | [], _, m => .ok m
  | _ :: _, [], _ => .undefined
  | k :: ks, v :: vs, m => insertAll ins ks vs (ins k v m)

/-- `ZipToMap`, maps.hpp:10-17. -/
def zipToMap {κ ν : Type} [LT κ] [DecidableLT κ] (ks : List κ) (vs : List ν) : Res (List (κ × ν)) :=
  if ks.length = vs.length then insertAll mapInsert ks vs [] else .throws

/-- `ZipToMultimap`, maps.hpp:19-26. -/
def zipToMultimap {κ ν : Type} [LT κ] [DecidableLT κ] (ks : List κ) (vs : List ν) : Res (List (κ × ν)) :=
  if ks.length = vs.length then insertAll multiInsert ks vs [] else .throws

/-- `std::map::find`. -/
def mapFind {κ ν : Type} [LT κ] [DecidableLT κ] (k : κ) : List (κ × ν) → Option ν
  | [] => none
  | e :: m => if k < e.1 ∨ e.1 < k then mapFind k m else some e.2

/-- `Keys`, algorithms.hpp:153-160. -/
def keys {κ ν : Type} (m : List (κ × ν)) : List κ := m.map Prod.fst

/-- `MapValues`, algorithms.hpp:162-169. -/
def mapValues {κ ν : Type} (m : List (κ × ν)) : List ν := m.map Prod.snd

/-! ### Numbers and statistics (numerics.hpp, numerics.cpp) -/

/-- The conversion to `int`: toward zero. -/
def toInt (q : Rat) : Int := if 0 ≤ q then ⌊q⌋ else ⌈q⌉

/-- `AsInt`, numerics.cpp:12-15; `none` is an exception. -/
def asInt (q : Rat) : Option Int := if |q| < 2147483647 then some (toInt (q + if q > 0 then 1 / 1000000000 else -(1 / 1000000000))) else none

/-- `NearestInt`, numerics.cpp:17-20. -/
def nearestInt (q : Rat) : Option Int := if |q| < 2147483647 then some (toInt (q + if q > 0 then 1 / 2 else -(1 / 2))) else none

/-- `AsInt` of a difference of pointers, numerics.cpp:22-25; the absolute value of the smallest one is undefined. -/
def asIntPtr (n : Int) : Res Int := if n = -2 ^ 63 then .undefined else if |n| < 2147483647 then .ok n else .throws

variable {K : Type} [Field K] [LinearOrder K]

/-- `Accumulate`, numerics.hpp:18-26. -/
def accumulate (op : K → K → K) (src : List K) : K := src.foldl op 0

/-- `InnerProduct`, numerics.hpp:28-31. -/
def innerFrom : K → List K → List K → Res K
  | s, [], _ => .ok s
  | _, _ :: _, [] => .undefined
  | s, a :: as, b :: bs => innerFrom (s + a * b) as bs

/-- `InnerProduct`. -/
def innerProduct (a b : List K) : Res K := innerFrom 0 a b

/-- The smallest part added to norms, 1e-14. -/
def tiny : K := 1 / 100000000000000

/-- `L1Normalized`, numerics.hpp:34-40. -/
def l1Normalized (base : List K) : List K :=
  let l1 := accumulate (fun x y => x + |y|) base
  base.map fun x => x / (l1 + tiny)

/-- `L2Normalized`, numerics.hpp:42-48. -/
def l2Normalized (sqrt : K → K) (base : List K) : List K :=
  let l2 := sqrt (accumulate (fun x y => x + y * y) base)
  base.map fun x => x / (l2 + tiny)

/-- `Centralized`, numerics.hpp:50-56; the mean of nothing is not used. -/
def centralized (base : List K) : List K :=
  let mean := accumulate (· + ·) base / base.length
  base.map fun x => x - mean

/-- `Covariance`, numerics.hpp:58-64; without elements it is `0 / 0`. -/
def covariance (a b : List K) : Res K :=
  if a.length = b.length then
    (innerProduct (centralized a) (centralized b)).bind fun s => if a.length = 0 then .undefined else .ok (s / a.length)
  else .throws

/-- `Correlation`, numerics.hpp:66-71. -/
def correlation (sqrt : K → K) (a b : List K) : Res K :=
  if a.length = b.length then innerProduct (l2Normalized sqrt (centralized a)) (l2Normalized sqrt (centralized b)) else .throws

end Dal.Containers
