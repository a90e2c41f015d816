import Verif.Numeric.NdModel

/-!
# Risk reports

`/repo/dal/risk/report.hpp` 18–58 and `report.cpp` 56–129.

Simplifications: the names of axes are of a type with decidable equality (for the equivalence of `String_` see C16); sizes and locations are natural
numbers, without overflow (a negative first size asks for a huge deque and throws; locations are asserted not to be negative, in debug builds only,
at `report.cpp` 95 and 105); headers are left out.
-/

namespace Dal.Risk

open Dal.Nd (inner)

/-- The fields of `Report_` that address values (`report.hpp` 38–40). `axes` is a map: the list of its entries in any order. -/
structure Report (N K : Type) where
  axes : List (N × Nat)
  strides : List Nat
  vals : List K

variable {N K : Type} [DecidableEq N]

/-- `axes_[a.name_] = which` (`report.cpp` 63). -/
def assign (m : List (N × Nat)) (name : N) (which : Nat) : List (N × Nat) :=
  if m.any (fun e => e.1 = name) then m.map (fun e => if e.1 = name then (name, which) else e) else m ++ [(name, which)]

/-- `axes_.find` (`report.cpp` 90, 121): the first entry with the name. -/
def find (m : List (N × Nat)) (name : N) : Option Nat := (m.find? fun e => e.1 = name).map (·.2)

/-- One turn of the loop of the constructor (`report.cpp` 59–69): `none` when it throws. -/
def addAxis (acc : List (N × Nat) × List Nat) (a : N × Nat) : Option (List (N × Nat) × List Nat) :=
  let which := acc.1.length
  if 0 < a.2 ∨ which = 0 then some (assign acc.1 a.1 which, acc.2.map (· * a.2) ++ [1]) else none

/-- The whole loop (`report.cpp` 59–69). -/
def addAxes : List (N × Nat) → List (N × Nat) × List Nat → Option (List (N × Nat) × List Nat)
  | [], acc => some acc
  | a :: rest, acc => (addAxis acc a).bind (addAxes rest)

/-- The constructor (`report.cpp` 56–71): `none` when it throws. -/
def newReport (zero : K) (axes : List (N × Nat)) : Option (Report N K) :=
  match axes with
  | [] => none
  | a :: _ => (addAxes axes ([], [])).bind fun acc => match acc.2 with
    | t :: _ => some ⟨acc.1, acc.2, List.replicate (a.2 * t) zero⟩
    | [] => none

/-- `std::deque::resize`: drops values from the end or adds zeroes. -/
def resize (zero : K) (vals : List K) (n : Nat) : List K := vals.take n ++ List.replicate (n - vals.length) zero

/-- `Report_::MakeAddress` (`report.cpp` 129, `report.hpp` 21). -/
def makeAddress (r : Report N K) : List Nat := List.replicate r.axes.length 0

/-- Writing through `Address_::operator[]` (`report.cpp` 119–127): `none` when it throws or writes beyond the locations. -/
def setLoc (r : Report N K) (loc : List Nat) (name : N) (x : Nat) : Option (List Nat) :=
  (find r.axes name).bind fun w => if w < loc.length then some (loc.set w x) else none

/-- `operator[]` (`report.cpp` 94–102): the report afterwards, and the place of the value or `none` when it throws. Outer `none` when the strides or
the location are read beyond their end. -/
def locate (zero : K) (r : Report N K) (loc : List Nat) : Option (Report N K × Option Nat) :=
  (inner loc r.strides).bind fun which =>
    if which < r.vals.length then some (r, some which)
    else match loc, r.strides with
      | l :: _, t :: _ =>
        let vals := resize zero r.vals ((l + 1) * t)
        some ({ r with vals := vals }, if which < vals.length then some which else none)
      | _, _ => none

/-- Assigning to `operator[]` (`report.cpp` 94–102): `none` when it throws. -/
def write (zero : K) (r : Report N K) (loc : List Nat) (x : K) : Option (Report N K) :=
  match locate zero r loc with
  | some (r, some which) => some { r with vals := r.vals.set which x }
  | _ => none

/-- `operator[] const` (`report.cpp` 104–109): `none` when it throws. -/
def readCell (r : Report N K) (loc : List Nat) : Option K := (inner loc r.strides).bind fun which => r.vals[which]?

/-- `Size` (`report.cpp` 88–92): `none` when it throws or divides by zero. -/
def size (r : Report N K) (name : N) : Option Nat :=
  (find r.axes name).bind fun which =>
    (if 0 < which then r.strides[which - 1]? else some r.vals.length).bind fun upper =>
      r.strides[which]?.bind fun t => if t = 0 then none else some (upper / t)

/-- `SetAll` (`report.cpp` 111–116): `none` when it throws. -/
def setAll (r : Report N K) (vals : List K) : Option (Report N K) :=
  match r.strides with
  | [] => none
  | t :: _ => if vals.length % t = 0 ∧ r.vals.length ≤ vals.length then some { r with vals := vals } else none

/-- The axes that `Write` stores (`report.cpp` 73–82): the name whose place is the position, and the size. -/
def writtenAxes (r : Report N K) : Option (List (N × Nat)) :=
  (List.range r.axes.length).mapM fun which => (r.axes.find? fun e => e.2 = which).bind fun e => (size r e.1).map fun n => (e.1, n)

/-- Reading a stored report back (`report.cpp` 30–52): from the stored axes and values. -/
def build (zero : K) (axes : List (N × Nat)) (vals : List K) : Option (Report N K) := (newReport zero axes).bind fun r => setAll r vals

end Dal.Risk
