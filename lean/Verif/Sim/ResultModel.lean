import Verif.Concurrency.BatchModel
import Mathlib.Algebra.Field.Defs
import Mathlib.Algebra.Order.Ring.Nat

/-!
# Parameters of simulation models, their clones and the results of a simulation

Source: `dal/model/blackscholes.hpp`, `dal/model/dupire.hpp`, `dal/model/base.hpp`, `dal/model/factory.hpp`, `dal/script/simulation.hpp`, `public/src/value.cpp`.

Simplifications: names are lists of characters in one case, since `String_` compares without case. `std::map` is a partial function from names. The text of a number with two
decimals is a parameter. A pointer is an object and a member of it; `none` in a vector of pointers is the null pointer. `none` as a result stands for undefined behaviour.
-/

namespace Dal.Results

/-- A member of a model that is a parameter. -/
inductive Field
  | spot
  | vol
  | rate
  | div
  | lvol (i j : Nat)
  deriving DecidableEq

/-- A pointer to a member of an object. -/
structure Ptr where
  obj : Nat
  field : Field
  deriving DecidableEq

/-- `parameters_[k] = x` or `parameterLabels_[k] = x`: undefined outside the vector. -/
def put {A : Type} (v : List A) (k : Nat) (x : A) : Option (List A) := if k < v.length then some (v.set k x) else none

/-- `BlackScholes_::SetParamPointers` (`blackscholes.hpp` 38–43). -/
def bsPointers (id : Nat) (v : List (Option Ptr)) : Option (List (Option Ptr)) :=
  (put v 0 (some ⟨id, .spot⟩)).bind fun v => (put v 1 (some ⟨id, .vol⟩)).bind fun v => (put v 2 (some ⟨id, .rate⟩)).bind fun v => put v 3 (some ⟨id, .div⟩)

/-- The labels of a Black–Scholes model (`blackscholes.hpp` 58–61). -/
def bsLabels : List (List Char) := ["spot".toList, "vol".toList, "rate".toList, "div".toList]

/-- The inner loop of `SetParameterPointers` and of the labels (`dupire.hpp` 73–78 and 170–173): `cols` steps from column `j`, each of which increments the counter and then
writes. -/
def innerLoop {A : Type} (x : Nat → Nat → A) (i : Nat) : Nat → Nat → Nat → List A → Option (Nat × List A)
  | 0, _, k, v => some (k, v)
  | cols + 1, j, k, v => (put v (k + 1) (x i j)).bind fun v => innerLoop x i cols (j + 1) (k + 1) v

/-- The outer loop (`dupire.hpp` 72–78 and 169–174). -/
def outerLoop {A : Type} (x : Nat → Nat → A) (cols : Nat) : Nat → Nat → Nat → List A → Option (List A)
  | 0, _, _, v => some v
  | rows + 1, i, k, v => (innerLoop x i cols 0 k v).bind fun r => outerLoop x cols rows (i + 1) r.1 r.2

/-- Three writes and the two loops. -/
def dupireVector {A : Type} (a b c : A) (x : Nat → Nat → A) (rows cols : Nat) (v : List A) : Option (List A) :=
  (put v 0 a).bind fun v => (put v 1 b).bind fun v => (put v 2 c).bind fun v => outerLoop x cols rows 0 2 v

/-- `Dupire_::SetParameterPointers` (`dupire.hpp` 164–175); `repo` is the member `div`. -/
def dupirePointers (id rows cols : Nat) (v : List (Option Ptr)) : Option (List (Option Ptr)) :=
  dupireVector (some ⟨id, .spot⟩) (some ⟨id, .rate⟩) (some ⟨id, .div⟩) (fun i j => some ⟨id, .lvol i j⟩) rows cols v

/-- The labels of a Dupire model (`dupire.hpp` 69–78): `txt` is the text of a number with two decimals. -/
def dupireLabels {K : Type} (txt : K → List Char) (spots times : Nat → K) (rows cols : Nat) : Option (List (List Char)) :=
  dupireVector "spot".toList "rate".toList "repo".toList (fun i j => "lvol ".toList ++ txt (spots i) ++ " ".toList ++ txt (times j)) rows cols
    (List.replicate (rows * cols + 3) [])

/-- The kind of a model, with the size of its matrix. -/
inductive Kind
  | bs
  | dupire (rows cols : Nat)

/-- The constructors of the vectors of pointers, and the functions that set them. -/
def Kind.size : Kind → Nat
  | .bs => 4
  | .dupire rows cols => rows * cols + 3

def Kind.setPointers (k : Kind) (id : Nat) (v : List (Option Ptr)) : Option (List (Option Ptr)) :=
  match k with
  | .bs => bsPointers id v
  | .dupire rows cols => dupirePointers id rows cols v

/-- The objects: what their members hold, and their vectors of pointers. -/
structure Heap (V : Type) where
  mem : Nat → Field → V
  params : Nat → List (Option Ptr)

/-- The constructor of a model (`blackscholes.hpp` 52–64, `dupire.hpp` 58–82). -/
def construct {V : Type} (h : Heap V) (k : Kind) (id : Nat) (vals : Field → V) : Option (Heap V) :=
  (k.setPointers id (List.replicate k.size none)).map fun v => ⟨fun o => if o = id then vals else h.mem o, fun o => if o = id then v else h.params o⟩

/-- `Clone` (`blackscholes.hpp` 78–82, `dupire.hpp` 95–99): the copy constructor copies the pointers, which are then set. -/
def clone {V : Type} (h : Heap V) (k : Kind) (src dst : Nat) : Option (Heap V) :=
  let h' : Heap V := ⟨fun o => if o = dst then h.mem src else h.mem o, fun o => if o = dst then h.params src else h.params o⟩
  (k.setPointers dst (h'.params dst)).map fun v => { h' with params := fun o => if o = dst then v else h'.params o }

/-- A write through a parameter (`param->PutOnTape()`, `simulation.hpp` 47–48). -/
def write {V : Type} (h : Heap V) (id k : Nat) (x : V) : Option (Heap V) :=
  match (h.params id)[k]? with
  | some (some p) => some { h with mem := fun o f => if o = p.obj ∧ f = p.field then x else h.mem o f }
  | _ => none

/-- A read through a parameter (`model->Parameters()[j]->Adjoint()`, `simulation.hpp` 222–223). -/
def fetch {V : Type} (h : Heap V) (id k : Nat) : Option V :=
  match (h.params id)[k]? with
  | some (some p) => some (h.mem p.obj p.field)
  | _ => none

/-! ## Model data -/

/-- `BSModelData_` (`blackscholes.hpp` 149–168). -/
structure BsData (K : Type) where
  name : List Char
  spot : K
  vol : K
  rate : K
  div : K

/-- The parameters of the constructor of `BlackScholes_` in the order of `CreateModel` (`factory.hpp` 27–32, `blackscholes.hpp` 52–57). -/
def createBs {K : Type} [Zero K] (d : BsData K) : Field → K
  | .spot => d.spot
  | .vol => d.vol
  | .rate => d.rate
  | .div => d.div
  | .lvol _ _ => 0

/-- `BSModelData_::MutantModel` (`blackscholes.cpp` 19–26): the new name is read through the pointer. -/
def mutant1 {K : Type} (d : BsData K) (newName : Option (List Char)) : Option (BsData K) := newName.map fun n => { d with name := n }

/-- `ModelData_::MutantModel` (`base.hpp` 56–63). -/
def mutant {K S : Type} (d : BsData K) (newName : List Char) (slides : List S) : Option (BsData K) :=
  slides.foldl (fun acc _ => acc.bind fun d => mutant1 d none) (mutant1 d (some newName))

/-! ## Results -/

variable {K : Type}

/-- The vector of risks and the map of a `SimResults_` (`simulation.hpp` 23–37). The map holds indices into the vector of the object `owner`, whose values are `mem owner`. -/
structure SimResults where
  owner : Nat
  names : List (List Char)
  map : List Char → Option (Nat × Nat)

/-- The loop of the constructor (`simulation.hpp` 25–26). -/
def buildMap (owner : Nat) : Nat → List (List Char) → (List Char → Option (Nat × Nat)) → List Char → Option (Nat × Nat)
  | _, [], m => m
  | i, n :: ns, m => buildMap owner (i + 1) ns fun x => if x = n then some (owner, i) else m x

/-- The constructor of `SimResults_` (`simulation.hpp` 24–27). -/
def newResults (owner : Nat) (names : List (List Char)) : SimResults := ⟨owner, names, buildMap owner 0 names fun _ => none⟩

/-- The copy of a `SimResults_`, with its own vector `owner` and the pointers of the source. -/
def SimResults.copy (r : SimResults) (owner : Nat) : SimResults := { r with owner := owner }

/-- `operator[]` (`simulation.hpp` 33–35): a name that is not there is inserted with the null pointer, which is then read. -/
def SimResults.at (r : SimResults) (mem : Nat → List K) (name : List Char) : Option K := (r.map name).bind fun p => (mem p.1)[p.2]?

/-- `ValueByMonteCarlo` with sensitivities (`value.cpp` 33–38): the map of results, for the aggregated value `agg`. -/
def report [DivisionRing K] (r : SimResults) (mem : Nat → List K) (agg : K) (nPaths : Nat) : Option (List Char → Option K) :=
  r.names.foldl (fun acc n => acc.bind fun m => (r.at mem n).map fun v => fun x => if x = "d_".toList ++ n then some v else m x)
    (some fun x => if x = "PV".toList then some (agg / nPaths) else none)

/-- One task of the simulation with `AAD::Number_` (`simulation.hpp` 222–226): the adjoints gathered over the paths of the task, over the number of paths, are added to the risks of
the thread. -/
def riskOn [DivisionRing K] (grad : Nat → K) (n : Nat) (slots : List K) (e : (Int × Int) × Nat) : List K := slots.modify e.2 (· + Batch.taskSum grad e.1 / n)

/-- The risk of one parameter (`simulation.hpp` 258–264): the threads are added up. -/
def risk [DivisionRing K] (grad : Nat → K) (n threads : Nat) (ex : List ((Int × Int) × Nat)) : K :=
  (ex.foldl (riskOn grad n) (List.replicate threads 0)).foldl (· + ·) 0

end Dal.Results
