/-! # Model of archives of objects that refer to each other (storage/archive.hpp, archive.cpp and the generated readers and writers)

Objects in memory have addresses; a handle is an address or empty. A class is described by its list of members, as in the generated `MG_*_Write.inc` and `MG_*_Read.inc`, which name the
same members in the same order with matching functions (`Set` and `Get`, `SetOptional` and `GetOptional`, `SetMultiple` and `GetMultiple`). How single values other than handles are stored
is a parameter (`enc`, `dec`; C25 and C26 are about them). `none` is an exception, a recursion deeper than the given depth, or reading a JSON member that is not there, which is undefined.
A reference to an object stored before is a node with a tag and nothing else in both formats (json.cpp:57-72, splat.cpp:74-84). Texts are compared exactly as in JSON. -/

namespace Dal.Archive

abbrev Str := List Char
abbrev Addr := Nat

/-- How a member is stored: `Set`, `SetOptional`, `SetMultiple`, and `SetMultiple` with the check of the reader that something was found (MG_Report_v1_Read.inc:18-21). -/
inductive Mode
  | required | optional | multiple | nonempty
  deriving DecidableEq

/-- A member of a class; no kind means a handle. -/
structure Member (K : Type) where
  name : Str
  mode : Mode
  kind : Option K

/-- A single value. -/
inductive Item (A : Type)
  | atom (a : A)
  | null
  | ref (r : Addr)
  deriving DecidableEq

/-- The value of a member. -/
inductive Value (A : Type)
  | one (x : Item A)
  | many (xs : List (Item A))
  deriving DecidableEq

/-- An object: its class and the values of its members. -/
structure Obj (A : Type) where
  type : Str
  vals : List (Value A)
  deriving DecidableEq

/-- A stored node: a value, or an object with tag, type and children; empty texts where there is no tag or no type. -/
inductive Node (E : Type)
  | atom (e : E)
  | obj (tag type : Str) (children : List (Str × Node E))

/-- `String::FromInt` for what is not negative. -/
def digits (n : Nat) : Str := Nat.toDigits 10 n

section
variable {K A E : Type} [DecidableEq A]

/-! ### Writing -/

/-- `sharedTags_`, json.cpp:43, splat.cpp:34. -/
abbrev Tags := List (Addr × Str)

/-- `Set`, archive.hpp:116-123: for handles `SetStorable`, the parameter `w`; null handles throw. -/
def put (enc : K → A → E) (w : Addr → Tags → Option (Node E × Tags)) (kind : Option K) (name : Str) : Item A → Tags → Option ((Str × Node E) × Tags)
  | .atom a, tags => kind.bind fun k => some ((name, .atom (enc k a)), tags)
  | .null, _ => none
  | .ref r, tags => match kind with
    | some _ => none
    | none => (w r tags).bind fun p => some ((name, p.1), p.2)

/-- `SetMultiple`, archive.hpp:137-140. -/
def putMany (enc : K → A → E) (w : Addr → Tags → Option (Node E × Tags)) (kind : Option K) (name : Str) : Nat → List (Item A) → Tags → Option (List (Str × Node E) × Tags)
  | _, [], tags => some ([], tags)
  | i, x :: xs, tags => (put enc w kind (name ++ digits i) x tags).bind fun p =>
      (putMany enc w kind name (i + 1) xs p.2).bind fun q => some (p.1 :: q.1, q.2)

/-- `T_()`. -/
def dfltItem (dflt : K → A) : Option K → Item A
  | some k => .atom (dflt k)
  | none => .null

/-- `Set`, `SetOptional` (archive.hpp:126-129) or `SetMultiple` of a member. -/
def putMember (enc : K → A → E) (dflt : K → A) (w : Addr → Tags → Option (Node E × Tags)) (m : Member K) (v : Value A) (tags : Tags) : Option (List (Str × Node E) × Tags) :=
  match m.mode, v with
  | .required, .one x => (put enc w m.kind m.name x tags).bind fun p => some ([p.1], p.2)
  | .optional, .one x =>
    if x = dfltItem dflt m.kind then some ([], tags) else (put enc w m.kind m.name x tags).bind fun p => some ([p.1], p.2)
  | .multiple, .many xs => putMany enc w m.kind m.name 0 xs tags
  | .nonempty, .many xs => putMany enc w m.kind m.name 0 xs tags
  | _, _ => none

/-- `XWrite` of a class. -/
def putMembers (enc : K → A → E) (dflt : K → A) (w : Addr → Tags → Option (Node E × Tags)) : List (Member K) → List (Value A) → Tags → Option (List (Str × Node E) × Tags)
  | [], [], tags => some ([], tags)
  | m :: ms, v :: vs, tags => (putMember enc dflt w m v tags).bind fun p =>
      (putMembers enc dflt w ms vs p.2).bind fun q => some (p.1 ++ q.1, q.2)
  | _, _, _ => none

/-- `SetStorable`, archive.cpp:17-23, with `StoreRef`, json.cpp:63-72 and splat.cpp:74-84. -/
def setStorable (enc : K → A → E) (dflt : K → A) (classes : Str → Option (List (Member K))) (heap : Addr → Obj A) : Nat → Addr → Tags → Option (Node E × Tags)
  | 0, _, _ => none
  | n + 1, a, tags =>
    match tags.lookup a with
    | some tag => some (.obj tag [] [], tags)
    | none =>
      let tag := digits (1 + tags.length)
      (classes (heap a).type).bind fun ms =>
      (putMembers enc dflt (setStorable enc dflt classes heap n) ms (heap a).vals (tags ++ [(a, tag)])).bind fun p => some (.obj tag (heap a).type p.1, p.2)

/-- `JSON::WriteString` and `Splat`, json.cpp:336-342, splat.cpp:394-401: the top level has no tag. -/
def archive (enc : K → A → E) (dflt : K → A) (classes : Str → Option (List (Member K))) (heap : Addr → Obj A) (n : Nat) (a : Addr) : Option (Node E) :=
  (classes (heap a).type).bind fun ms =>
  (putMembers enc dflt (setStorable enc dflt classes heap n) ms (heap a).vals []).bind fun p => some (.obj [] (heap a).type p.1)

/-! ### Reading -/

/-- What has been built: the new objects, and `known_` of archive.hpp:46-49. -/
structure Built (A : Type) where
  heap : List (Obj A)
  known : Str → Option Addr

/-- Nothing built. -/
def Built.empty : Built A := ⟨[], fun _ => none⟩

/-- A value, or an object by `Builder_` (archive.hpp:91-104), the parameter `x`. -/
def getItem (dec : K → E → Option A) (x : Node E → Built A → Option (Addr × Built A)) (kind : Option K) (node : Node E) (b : Built A) : Option (Item A × Built A) :=
  match kind, node with
  | some k, .atom e => (dec k e).bind fun a => some (.atom a, b)
  | some _, .obj _ _ _ => none
  | none, node => (x node b).bind fun p => some (.ref p.1, p.2)

/-- The loop of `GetMultiple`, archive.hpp:155-165: at most `fuel` children. -/
def getMany (dec : K → E → Option A) (x : Node E → Built A → Option (Addr × Built A)) (kind : Option K) (look : Str → Option (Node E)) (name : Str) :
    Nat → Nat → Built A → Option (List (Item A) × Built A)
  | 0, _, _ => none
  | fuel + 1, i, b => match look (name ++ digits i) with
    | none => some ([], b)
    | some node => (getItem dec x kind node b).bind fun p => (getMany dec x kind look name fuel (i + 1) p.2).bind fun q => some (p.1 :: q.1, q.2)

/-- `Get`, `GetOptional`, `GetMultiple`, archive.hpp:142-165. -/
def getMember (dec : K → E → Option A) (dflt : K → A) (x : Node E → Built A → Option (Addr × Built A)) (look : Str → Option (Node E)) (fuel : Nat) (m : Member K) (b : Built A) :
    Option (Value A × Built A) :=
  match m.mode with
  | .required => (look m.name).bind fun node => (getItem dec x m.kind node b).bind fun p => some (.one p.1, p.2)
  | .optional => match look m.name with
    | none => some (.one (dfltItem dflt m.kind), b)
    | some node => (getItem dec x m.kind node b).bind fun p => some (.one p.1, p.2)
  | .multiple => (getMany dec x m.kind look m.name fuel 0 b).bind fun p => some (.many p.1, p.2)
  | .nonempty => (getMany dec x m.kind look m.name fuel 0 b).bind fun p => if p.1 = [] then none else some (.many p.1, p.2)

/-- The constructor of a reader. -/
def getMembers (dec : K → E → Option A) (dflt : K → A) (x : Node E → Built A → Option (Addr × Built A)) (look : Str → Option (Node E)) (fuel : Nat) :
    List (Member K) → Built A → Option (List (Value A) × Built A)
  | [], b => some ([], b)
  | m :: ms, b => (getMember dec dflt x look fuel m b).bind fun p => (getMembers dec dflt x look fuel ms p.2).bind fun q => some (p.1 :: q.1, q.2)

/-- `Extract`, archive.cpp:27-40; `Build` makes a new object. The place in `known_` is filled when the object is complete. -/
def extract (dec : K → E → Option A) (dflt : K → A) (classes : Str → Option (List (Member K))) : Nat → Node E → Built A → Option (Addr × Built A)
  | 0, _, _ => none
  | _ + 1, .atom _, _ => none
  | n + 1, .obj tag type children, b =>
    match b.known tag with
    | some a => some (a, b)
    | none =>
      if type = [] then none
      else (classes type).bind fun ms =>
        (getMembers dec dflt (extract dec dflt classes n) (fun name => children.lookup name) (children.length + 1) ms b).bind fun p =>
        some (p.2.heap.length, ⟨p.2.heap ++ [⟨type, p.1⟩], fun t => if t = tag then some p.2.heap.length else p.2.known t⟩)

end

/-! ### The classes of the library -/

/-- The types of members that are not handles. -/
inductive Kind
  | text | number | boolean | texts | numbers | ints | dates | dateTimes | cells | matrix | cellMatrix
  deriving DecidableEq

/-- All generated pairs of readers and writers, dal/auto/MG_*_Write.inc and MG_*_Read.inc. -/
def library : List (Str × List (Member Kind)) := [
  ("BSModelData_v1".toList, [⟨"name".toList, .optional, some .text⟩, ⟨"spot".toList, .required, some .number⟩, ⟨"vol".toList, .required, some .number⟩, ⟨"rate".toList, .required, some .number⟩, ⟨"div".toList, .required, some .number⟩]),
  ("Bag".toList, [⟨"name".toList, .optional, some .text⟩, ⟨"contents".toList, .multiple, none⟩, ⟨"keys".toList, .optional, some .texts⟩]),
  ("Box".toList, [⟨"name".toList, .optional, some .text⟩, ⟨"contents".toList, .required, some .cellMatrix⟩]),
  ("Cubic1".toList, [⟨"name".toList, .optional, some .text⟩, ⟨"x".toList, .required, some .numbers⟩, ⟨"f".toList, .required, some .numbers⟩, ⟨"fpp".toList, .required, some .numbers⟩]),
  ("DiscountPWLF_v1".toList, [⟨"name".toList, .optional, some .text⟩, ⟨"knotDates".toList, .required, some .dates⟩, ⟨"leftVals".toList, .required, some .numbers⟩, ⟨"rightVals".toList, .required, some .numbers⟩, ⟨"base".toList, .optional, none⟩]),
  ("DupireModelData_v1".toList, [⟨"name".toList, .optional, some .text⟩, ⟨"spot".toList, .required, some .number⟩, ⟨"rate".toList, .required, some .number⟩, ⟨"repo".toList, .required, some .number⟩, ⟨"spots".toList, .required, some .numbers⟩, ⟨"times".toList, .required, some .numbers⟩, ⟨"vols".toList, .required, some .matrix⟩]),
  ("Fixings".toList, [⟨"name".toList, .optional, some .text⟩, ⟨"fixings".toList, .required, some .numbers⟩, ⟨"fixing_times".toList, .required, some .dateTimes⟩]),
  ("Interp1Linear_v1".toList, [⟨"name".toList, .optional, some .text⟩, ⟨"x".toList, .required, some .numbers⟩, ⟨"f".toList, .required, some .numbers⟩]),
  ("Interp2Linear_v1".toList, [⟨"name".toList, .optional, some .text⟩, ⟨"x".toList, .required, some .numbers⟩, ⟨"y".toList, .required, some .numbers⟩, ⟨"f".toList, .required, some .matrix⟩]),
  ("PiecewiseConstant_v1".toList, [⟨"knotDates".toList, .required, some .dates⟩, ⟨"fRight".toList, .required, some .numbers⟩, ⟨"name".toList, .optional, some .text⟩]),
  ("PseudoRSG_v1".toList, [⟨"name".toList, .optional, some .text⟩, ⟨"seed".toList, .required, some .number⟩, ⟨"n_dim".toList, .required, some .number⟩, ⟨"precise".toList, .required, some .boolean⟩]),
  ("Report_v1".toList, [⟨"name".toList, .optional, some .text⟩, ⟨"axis_names".toList, .required, some .texts⟩, ⟨"sizes".toList, .required, some .ints⟩, ⟨"vals".toList, .required, some .numbers⟩, ⟨"header_labels".toList, .nonempty, some .texts⟩, ⟨"header_values".toList, .nonempty, some .cellMatrix⟩]),
  ("ScriptProductData_v1".toList, [⟨"name".toList, .optional, some .text⟩, ⟨"dates".toList, .required, some .cells⟩, ⟨"events".toList, .required, some .texts⟩]),
  ("SobolRSG_v1".toList, [⟨"name".toList, .optional, some .text⟩, ⟨"i_path".toList, .required, some .number⟩, ⟨"n_dim".toList, .required, some .number⟩, ⟨"precise".toList, .required, some .boolean⟩])]

/-- The overload of `Store_::operator=` (archive.hpp:30-44) that stores a `bool`: there is none for `bool`, the best is that for `double`. -/
def storeBool {X : Type} (storeDouble : Rat → X) (b : Bool) : X := storeDouble (if b then 1 else 0)

/-! ### Registration -/

/-- `TheBuilders().insert`, archive.cpp:46-48: an entry that is there stays. -/
def register {B : Type} (type : Str) (reader : B) (table : List (Str × B)) : List (Str × B) :=
  if (table.lookup type).isSome then table else table ++ [(type, reader)]

/-- `equal_range` and the two checks, archive.cpp:33-36: the entries of the type, which must be exactly one. -/
def builderFor {B : Type} (type : Str) (table : List (Str × B)) : Option B :=
  match table.filter (fun p => p.1 == type) with
  | [p] => some p.2
  | _ => none

end Dal.Archive
