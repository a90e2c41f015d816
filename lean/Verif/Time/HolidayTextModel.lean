import Verif.Time.HolidaysModel
import Verif.Strings.StringModel

/-!
# Model of calendars named by text and of the cache of combinations
(dal/time/holidays.cpp, dal/time/holidaydata.cpp)

Names are `String_`, compared without regard to case (`Strings.eqS`).  Every operation runs alone
(the race of concurrent registrations is the subject of C12).
-/

namespace Dal.HolText
open Dal.Strings

/-- `HolidayCenterData_`, holidaydata.hpp:13-19. -/
structure TCenter where
  name : Str
  holidays : List Nat
  workWeekends : List Nat
  deriving DecidableEq, Repr

/-- The same centre with its name as a text, as used by the model of business days. -/
def TCenter.toHol (c : TCenter) : Hol.Center := ⟨String.ofList c.name, c.holidays, c.workWeekends⟩

/-- The process-wide data: the registered centres (`TheHolidayData`, holidaydata.cpp:33), the
combinations (`TheCombinations`, holidays.cpp:27-29), and the `parts_` of the `Holidays_` objects
made so far. -/
structure St where
  reg : List TCenter
  combos : List (Str × TCenter)
  objs : List (List TCenter)

/-- What `std::sort` promises: the same elements, in an order in which no later one is less.  Which
of several equivalent names comes first is left open. -/
structure Sorter (sgn : Bool) where
  run : List Str → List Str
  perm : ∀ l, (run l).Perm l
  sorted : ∀ l, (run l).Pairwise fun a b => ltS sgn b a = false

/-- `std::unique` with `operator==` of `String_`: an element equal to the last one kept is dropped. -/
def dedup (sgn : Bool) : List Str → List Str
  | [] => []
  | [x] => [x]
  | x :: y :: r => if eqS sgn x y then dedup sgn (x :: r) else x :: dedup sgn (y :: r)
  termination_by l => l.length

/-- `Unique` on names, algorithms.hpp:101-108. -/
def uniqueNames {sgn : Bool} (s : Sorter sgn) (l : List Str) : List Str := dedup sgn (s.run l)

/-- `Holidays::OfCenter(String_)`, holidaydata.cpp:71-83: `centerIndex_` maps the name of each centre
to its place (`IsValid`, C12); `none` is the exception. -/
def ofCenter (sgn : Bool) (reg : List TCenter) (w : Str) : Option TCenter :=
  reg.find? fun c => eqS sgn c.name w

/-- `Holidays::AddCenter`, holidaydata.cpp:52-69; `none` is an exception. -/
def addCenter (sgn : Bool) (reg : List TCenter) (city : Str) (hols wws : List Nat) :
    Option (List TCenter) :=
  if Hol.acceptable hols wws && !(reg.any fun c => eqS sgn c.name city) then
    some (reg ++ [⟨city, hols, wws⟩])
  else none

/-- `NameFromCenter`, holidays.cpp:22-25, and `Holidays_::String`, holidays.cpp:57. -/
def nameOf (parts : List TCenter) : Str := accumulate [' '] true (parts.map TCenter.name)

/-- The constructor of `Holidays_`, holidays.cpp:32-41: the handles `parts_`. -/
def fromText {sgn : Bool} (s : Sorter sgn) (st : St) (src : Str) : Option (List TCenter) :=
  match (uniqueNames s (split ' ' false src)).mapM (ofCenter sgn st.reg) with
  | none => none
  | some parts =>
    if parts.length > 1 then
      match mapFind sgn (nameOf parts) st.combos with
      | some c => some [c]
      | none => some parts
    else some parts

/-- The constructor of `CountBusDays_`, holidays.cpp:62-76: the new cache and the centre in `hols_`. -/
def countCtor (sgn : Bool) (st : St) (h : List TCenter) : St × TCenter :=
  match mapFind sgn (nameOf h) st.combos with
  | some c => (st, c)
  | none =>
    let c : TCenter := ⟨nameOf h, Hol.unique (h.flatMap TCenter.holidays),
      Hol.unique (h.flatMap TCenter.workWeekends)⟩
    ({ st with combos := mapInsert sgn (nameOf h) c st.combos }, c)

/-- `Holidays_::IsHoliday`, holidays.cpp:43-48. -/
def isHoliday (h : List TCenter) (d : Nat) : Bool := Hol.isHoliday (h.map TCenter.toHol) d

/-- `Holidays_::IsWorkWeekends`, holidays.cpp:50-55. -/
def isWorkWeekends (h : List TCenter) (d : Nat) : Bool := Hol.isWorkWeekends (h.map TCenter.toHol) d

/-- `CountBusDays_(h)(b, e)`, holidays.cpp:78-105, on the centre kept by the constructor. -/
def count (sgn : Bool) (st : St) (h : List TCenter) (b e : Nat) : Int :=
  Hol.countBusDays (countCtor sgn st h).2.holidays (countCtor sgn st h).2.workWeekends b e

/-- `operator==` of `Holidays_`, holidays.cpp:59. -/
def sameHols (sgn : Bool) (h h' : List TCenter) : Bool := eqS sgn (nameOf h) (nameOf h')

/-- Everything a program can reach: centres are added, calendars are made from texts, counters are
made from existing calendars.  (`hols_` of a counter is private, so it is no calendar.) -/
inductive Reachable {sgn : Bool} (s : Sorter sgn) : St → Prop
  | init : Reachable s ⟨[], [], []⟩
  | add {st : St} {reg' : List TCenter} (city : Str) (hols wws : List Nat) (r : Reachable s st)
      (h : addCenter sgn st.reg city hols wws = some reg') : Reachable s { st with reg := reg' }
  | text {st : St} {h : List TCenter} (src : Str) (r : Reachable s st)
      (e : fromText s st src = some h) : Reachable s { st with objs := h :: st.objs }
  | count {st : St} {h : List TCenter} (r : Reachable s st) (m : h ∈ st.objs) :
      Reachable s (countCtor sgn st h).1

end Dal.HolText
