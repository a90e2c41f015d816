/-! # Model of exceptions and their notes (exceptions.hpp, exceptions.cpp)

One thread: the stack of notes is `thread_local`. Notes are on (`DAL_USE_NOTE`). Values are known by their text; a value is read where it lives, when the
message is made. Memory is a list of cells by address; a cell whose variable has ended holds nothing, reading it is undefined. Programs are blocks with
variables, notes, throws and catches. Simplification: running out of memory is not modelled, and variables change only by assignment. -/

namespace Dal.Notes

/-- Text. -/
abbrev Str := List Char

/-- `XStackInfo_`, exceptions.hpp:27-42: a name and where the value is; `none` is a note without a value. -/
structure Info where
  name : Str
  value : Option Nat
  deriving DecidableEq

/-- What a throw knows: `__FILE__`, `__LINE__`, `__func__` and the message. -/
structure Site where
  file : Str
  line : Str
  func : Str
  msg : Str
  deriving DecidableEq

/-- The memory, the vector behind `XTheStack` (exceptions.cpp:62-71; `none` is the null pointer), and the messages that were caught. -/
structure State where
  mem : List (Option Str)
  inst : Option (List Info)
  caught : List Str
  deriving DecidableEq

/-- Reading a cell. -/
def readCell (mem : List (Option Str)) (a : Nat) : Option Str := (mem[a]?).join

/-- `XStackInfo_::Message`, exceptions.cpp:31-49; `none` is undefined. -/
def message (mem : List (Option Str)) (i : Info) : Option Str :=
  match i.value with
  | none => some i.name
  | some a => (readCell mem a).map fun v => i.name ++ " = ".toList ++ v

/-- `format`, exceptions.cpp:107-116. -/
def format (s : Site) : Str :=
  "\n".toList ++ s.file ++ ":".toList ++ s.line ++ ": ".toList ++
    (if s.func ≠ "(unknown)".toList then "In function `".toList ++ s.func ++ "': \n".toList else []) ++ s.msg

/-- The loop of `MsgWithStack`, exceptions.cpp:121-122. -/
def append (mem : List (Option Str)) : Str → List Info → Option Str
  | acc, [] => some acc
  | acc, i :: is => (message mem i).bind fun m => append mem (acc ++ ("\n".toList ++ m)) is

/-- `XTheStack`, exceptions.cpp:62-71: the new pointer. -/
def xTheStack (freeIfEmpty : Bool) (inst : Option (List Info)) : Option (List Info) :=
  match inst with
  | none => some []
  | some l => if freeIfEmpty && l.isEmpty then none else some l

/-- `TheStack`, exceptions.cpp:73: the vector, and the pointer afterwards. -/
def theStack (inst : Option (List Info)) : List Info × Option (List Info) :=
  match xTheStack false inst with
  | some l => (l, some l)
  | none => ([], none)

/-- `PushStack`, exceptions.cpp:77. -/
def pushStack (inst : Option (List Info)) (i : Info) : Option (List Info) := some ((theStack inst).1 ++ [i])

/-- `PopStack`, exceptions.cpp:79-88. -/
def popStack (inst : Option (List Info)) : Option (List Info) :=
  let s := (theStack inst).1
  xTheStack true (some (if !s.isEmpty then s.dropLast else s))

/-- How a block ends. -/
inductive Outcome
  | done
  | thrown (what : Str)
  | undefined
  deriving DecidableEq

/-- Blocks. Variables are numbered from the innermost. -/
inductive Prog
  | skip
  | seq (p q : Prog)
  | assign (x : Nat) (v : Str)
  | throw (s : Site)
  | var (v : Str) (body : Prog)
  /-- `NOTE(msg); body` -/
  | note (name : Str) (body : Prog)
  /-- `NOTICE2(name, x); body` with a variable -/
  | notice (name : Str) (x : Nat) (body : Prog)
  /-- `NOTICE2(name, f()); body` with a value that ends with the statement, as in report.cpp:134 -/
  | noticeTemp (name : Str) (body : Prog)
  | attempt (body handler : Prog)
  deriving DecidableEq

/-- The destructor of `StackRegister_`, exceptions.hpp:47-48: also run while an exception leaves the block. -/
def leave (r : Outcome × State) : Outcome × State :=
  match r.1 with
  | .undefined => r
  | _ => (r.1, { r.2 with inst := popStack r.2.inst })

/-- The end of the life of a variable. -/
def kill (a : Nat) (r : Outcome × State) : Outcome × State := (r.1, { r.2 with mem := r.2.mem.set a none })

/-- Running a block; `env` has the addresses of the variables. -/
def run : Prog → List Nat → State → Outcome × State
  | .skip, _, s => (.done, s)
  | .seq p q, env, s =>
    match run p env s with
    | (.done, s) => run q env s
    | r => r
  | .assign x v, env, s =>
    match env[x]? with
    | some a => (.done, { s with mem := s.mem.set a (some v) })
    | none => (.undefined, s)
  | .throw site, _, s =>
    match append s.mem (format site) (theStack s.inst).1 with
    | some m => (.thrown m, { s with inst := (theStack s.inst).2 })
    | none => (.undefined, s)
  | .var v body, env, s => kill s.mem.length (run body (s.mem.length :: env) { s with mem := s.mem ++ [some v] })
  | .note name body, env, s => leave (run body env { s with inst := pushStack s.inst ⟨name, none⟩ })
  | .notice name x body, env, s =>
    match env[x]? with
    | some a => leave (run body env { s with inst := pushStack s.inst ⟨name, some a⟩ })
    | none => (.undefined, s)
  | .noticeTemp name body, env, s =>
    leave (run body env { s with mem := s.mem ++ [none], inst := pushStack s.inst ⟨name, some s.mem.length⟩ })
  | .attempt body handler, env, s =>
    match run body env s with
    | (.thrown m, s) => run handler env { s with caught := s.caught ++ [m] }
    | r => r

end Dal.Notes
