import Verif.Time.DateModel

/-!
# Model of holiday calendars (dal/time/holidays.cpp, dal/time/holidaydata.cpp)

Dates inside holiday lists are represented by their serial (`Date.serial`).
-/

namespace Dal.Hol
open Dal.Date

/-- `HolidayCenterData_`, holidaydata.hpp. -/
structure Center where
  name : String
  holidays : List Nat
  workWeekends : List Nat
  deriving DecidableEq, Repr

/-- `Holidays_`: the handles `parts_` (holidays.hpp). -/
abbrev Hols := List Center

/-- Iterator returned by `std::lower_bound` (algorithms.hpp:110-112) as an offset: the standard's
contract on a sorted range, the partition point of `· < x`. -/
def lowerBound (l : List Nat) (x : Nat) : Nat := (l.takeWhile (· < x)).length

/-- `std::binary_search` (algorithms.hpp:118-120): `first != last && !(value < *first)` with
`first = lower_bound`. -/
def binarySearch (l : List Nat) (x : Nat) : Bool :=
  match l.drop (lowerBound l x) with
  | [] => false
  | y :: _ => !(decide (x < y))

/-- `Date::IsWeekEnd` on a serial. -/
def weekEnd (s : Nat) : Bool := isWeekEnd ⟨s⟩

/-- `Holidays_::IsHoliday`, holidays.cpp:43-48. -/
def isHoliday (h : Hols) (d : Nat) : Bool := h.any (fun p => binarySearch p.holidays d)

/-- `Holidays_::IsWorkWeekends`, holidays.cpp:50-55. -/
def isWorkWeekends (h : Hols) (d : Nat) : Bool := h.any (fun p => binarySearch p.workWeekends d)

/-- The condition of the loops of NextBus and PrevBus, holidays.cpp:109 and 116. -/
def isBus (h : Hols) (d : Nat) : Bool := isWorkWeekends h d || (!weekEnd d && !isHoliday h d)

/-- Insertion into a sorted list (the sort inside `Unique`; any sorting algorithm gives the same
list). -/
def insertSorted (x : Nat) : List Nat → List Nat
  | [] => [x]
  | y :: ys => if x ≤ y then x :: y :: ys else y :: insertSorted x ys

/-- `std::sort`. -/
def sort : List Nat → List Nat
  | [] => []
  | x :: xs => insertSorted x (sort xs)

/-- `std::unique` (removal of consecutive duplicates). -/
def dedupAdj : List Nat → List Nat
  | [] => []
  | [x] => [x]
  | x :: y :: r => if x = y then dedupAdj (y :: r) else x :: dedupAdj (y :: r)

/-- `Unique`, algorithms.hpp:101-108. -/
def unique (l : List Nat) : List Nat := dedupAdj (sort l)

/-- The merged calendar built by the constructor of `CountBusDays_`, holidays.cpp:63-76
(the cache `TheCombinations` is keyed by the list of centre names, and a centre never changes once
added, so it returns what is computed here). -/
def merged (h : Hols) : List Nat × List Nat :=
  (unique (h.flatMap Center.holidays), unique (h.flatMap Center.workWeekends))

/-- One iteration of the loop of `CountBusDays_::operator()`, holidays.cpp:92-102: `p1`/`p2` are the
remaining ranges `[p1Stop, end)`, `[p2Stop, end)`. -/
def countStep (d : Nat) (p1 p2 : List Nat) (acc : Int) : List Nat × List Nat × Int :=
  let a := if weekEnd d then (p1, acc)
    else if p1.head? = some d then (p1.tail, acc) else (p1, acc + 1)
  if p2.head? = some d then (a.1, p2.tail, a.2 + 1) else (a.1, p2, a.2)

/-- The loop of `CountBusDays_::operator()`, holidays.cpp:91-103, with `n` days remaining. -/
def countLoop : Nat → Nat → List Nat → List Nat → Int → Int
  | 0, _, _, _, acc => acc
  | n + 1, d, p1, p2, acc =>
    countLoop n (d + 1) (countStep d p1 p2 acc).1 (countStep d p1 p2 acc).2.1
      (countStep d p1 p2 acc).2.2

/-- `CountBusDays_::operator()`, holidays.cpp:78-105, on the merged lists. -/
def countBusDays (hols wws : List Nat) (b e : Nat) : Int :=
  if e ≤ b then 0 else
    let weeks : Nat := (e - b) / 7
    let stop := b + 7 * weeks
    let p1 := lowerBound hols stop
    let p2 := lowerBound wws stop
    let holsToStop : Int := (p1 : Int) - lowerBound hols b
    let wwsToAdd : Int := (p2 : Int) - lowerBound wws b
    countLoop (e - stop) stop (hols.drop p1) (wws.drop p2) (5 * weeks - holsToStop + wwsToAdd)

/-- `CountBusDays_(hols)(begin, end)`. -/
def countBus (h : Hols) (b e : Nat) : Int := countBusDays (merged h).1 (merged h).2 b e

/-- `Holidays::NextBus`, holidays.cpp:107-112.  The serial wraps modulo 2^16, so 65536 iterations
visit every serial; `none` means the C++ loop never returns. -/
def nextBusLoop (h : Hols) : Nat → Nat → Option Nat
  | 0, _ => none
  | fuel + 1, d => if isBus h d then some d else nextBusLoop h fuel ((d + 1) % 65536)

def nextBus (h : Hols) (d : Nat) : Option Nat := nextBusLoop h 65536 d

/-- `Holidays::PrevBus`, holidays.cpp:114-119 (same remark). -/
def prevBusLoop (h : Hols) : Nat → Nat → Option Nat
  | 0, _ => none
  | fuel + 1, d => if isBus h d then some d else prevBusLoop h fuel ((d + 65535) % 65536)

def prevBus (h : Hols) (d : Nat) : Option Nat := prevBusLoop h 65536 d

/-- `IsMonotonic` with `std::less`, algorithms.hpp:140-151. -/
def isMonotonic : List Nat → Bool
  | x :: y :: r => decide (x < y) && isMonotonic (y :: r)
  | _ => true

/-- The checks of `Holidays::AddCenter` on the new data, holidaydata.cpp:54-57. -/
def acceptable (hols wws : List Nat) : Bool :=
  hols.all (fun d => !weekEnd d) && wws.all weekEnd && isMonotonic hols && isMonotonic wws

/-- `HolidayData_`: the vector of centres and the index map (holidaydata.hpp). -/
structure Registry where
  centers : List Center
  index : List (String × Nat)
  deriving Repr, DecidableEq

/-- `HolidayData_::IsValid`, holidaydata.cpp:14-25. -/
def Registry.isValid (r : Registry) : Bool :=
  r.index.length == r.centers.length &&
  r.index.all (fun ci => match r.centers[ci.2]? with
    | some c => c.name == ci.1
    | none => false)

/-- `Holidays::AddCenter` executed by one thread, holidaydata.cpp:52-69; `none` is an exception. -/
def addCenter (r : Registry) (city : String) (hols wws : List Nat) : Option Registry :=
  if r.isValid && acceptable hols wws && !(r.index.any (fun p => p.1 == city)) then
    let r' : Registry := ⟨r.centers ++ [⟨city, hols, wws⟩], r.index ++ [(city, r.centers.length)]⟩
    if r'.isValid then some r' else none
  else none

/-- `Holidays::OfCenter(String_)`, holidaydata.cpp:71-83. -/
def ofCenter (r : Registry) (city : String) : Option Center :=
  match r.index.find? (fun p => p.1 == city) with
  | none => none
  | some p => r.centers[p.2]?

/-- `n` steps of the form `NextBus(AddDays(1))` (dateincrement.cpp:133-136, conventions.cpp:19-22). -/
def stepFwd (h : Hols) : Nat → Nat → Option Nat
  | 0, d => some d
  | n + 1, d => (nextBus h ((d + 1) % 65536)).bind (stepFwd h n)

/-- `n` steps of the form `PrevBus(AddDays(-1))` (dateincrement.cpp:133-136, conventions.cpp:31-33). -/
def stepBack (h : Hols) : Nat → Nat → Option Nat
  | 0, d => some d
  | n + 1, d => (prevBus h ((d + 65535) % 65536)).bind (stepBack h n)

/-- `Libor::StartFromFix`, conventions.cpp:13-23 (holidays and days of the currency as arguments). -/
def startFromFix (h : Hols) (nDays : Nat) (fix : Nat) : Option Nat :=
  if nDays = 0 then nextBus h fix else stepFwd h nDays fix

/-- `FixDateFromStart`, conventions.cpp:26-35. -/
def fixFromStart (h : Hols) (nDays : Nat) (start : Nat) : Option Nat :=
  if nDays = 0 then prevBus h start else stepBack h nDays start

end Dal.Hol
