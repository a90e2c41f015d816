import Mathlib.Algebra.Order.Floor.Ring
import Mathlib.Data.Rat.Floor

/-! # Model of the printed form of scripts (script/visitor/debugger.hpp, `ScriptProduct_::Debug` of script/event.cpp)

Doubles are rational numbers, so there is no negative zero and nothing infinite. The stack of texts is a list, its top first; C44 relates `Stack_` to lists.
Reading the top of an empty stack is undefined (`none`). The stream accepts everything. -/

namespace Dal.Debug

/-- Text. -/
abbrev Str := List Char

/-- `std::to_string(int)`. -/
def intText (n : Int) : Str := if n < 0 then '-' :: Nat.toDigits 10 n.natAbs else Nat.toDigits 10 n.natAbs

/-- The nearest integer, the even one of two (how `printf` rounds exact values). -/
def roundEven (q : Rat) : Nat :=
  let n := ⌊q⌋.toNat
  let r := q - n
  if r < 1 / 2 ∨ (r = 1 / 2 ∧ n % 2 = 0) then n else n + 1

/-- `std::to_string(double)`: the format `%f`, six digits. -/
def numText (q : Rat) : Str :=
  let n := roundEven (|q| * 1000000)
  let frac := Nat.toDigits 10 (n % 1000000)
  (if q < 0 then ['-'] else []) ++ Nat.toDigits 10 (n / 1000000) ++ '.' :: (List.replicate (6 - frac.length) '0' ++ frac)

/-- Nodes without attributes of their own, debugger.hpp:67-81,94-97,117-135,144-145. -/
inductive Plain
  | collect | uplus | uminus | add | sub | multi | div | pow | log | exp | sqrt | max | min | not | and | or | assign | pays | spot | true | false
  deriving DecidableEq

/-- Comparisons, debugger.hpp:83-115. -/
inductive Cmp
  | equal | sup | supEqual
  deriving DecidableEq

/-- The nodes and what is printed of them. -/
inductive Kind
  | plain (p : Plain)
  | cmp (c : Cmp) (discrete : Bool) (eps lb rb : Rat)
  | ite (firstElse : Int)
  | const (v : Rat)
  | var (name : Str) (index : Int) (v : Rat)
  | constVar (name : Str) (index : Int) (v : Rat)
  deriving DecidableEq

/-- The words of the visitors. -/
def Plain.word : Plain → Str
  | .collect => "COLLECT".toList
  | .uplus => "UPLUS".toList
  | .uminus => "UMINUS".toList
  | .add => "ADD".toList
  | .sub => "SUBTRACT".toList
  | .multi => "MULT".toList
  | .div => "DIV".toList
  | .pow => "POW".toList
  | .log => "LOG".toList
  | .exp => "EXP".toList
  | .sqrt => "SQRT".toList
  | .max => "MAX".toList
  | .min => "MIN".toList
  | .not => "NOT".toList
  | .and => "AND".toList
  | .or => "OR".toList
  | .assign => "ASSIGN".toList
  | .pays => "PAYS".toList
  | .spot => "SPOT".toList
  | .true => "TRUE".toList
  | .false => "FALSE".toList

def Cmp.word : Cmp → Str
  | .equal => "EQUALZERO".toList
  | .sup => "GTZERO".toList
  | .supEqual => "GTEQUALZERO".toList

/-- The text of comparisons, debugger.hpp:83-115. -/
def cmpText (word : Str) (discrete : Bool) (eps lb rb : Rat) : Str :=
  if discrete then word ++ "[DISCRETE,".toList ++ ("BOUNDS=".toList ++ numText lb ++ ",".toList ++ numText rb ++ "]".toList)
  else word ++ ("[CONT,EPS=".toList ++ numText eps ++ "]".toList)

/-- The text of `if`. -/
def iteText (n : Int) : Str := "IF".toList ++ ("[FIRSTELSE=".toList ++ intText n ++ "]".toList)

/-- The text of constants. -/
def constText (v : Rat) : Str := "CONST[".toList ++ (numText v ++ "]".toList)

/-- The text of variables; `word` has the bracket. -/
def varText (word name : Str) (index : Int) (v : Rat) : Str := word ++ name ++ (",".toList ++ intText index) ++ ",".toList ++ numText v ++ "]".toList

/-- The text of a node, the `Visit` functions of debugger.hpp:66-153. -/
def ident : Kind → Str
  | .plain p => p.word
  | .cmp c discrete eps lb rb => cmpText c.word discrete eps lb rb
  | .ite n => iteText n
  | .const v => constText v
  | .var s i v => varText "VAR[".toList s i v
  | .constVar s i v => varText "CONST_VAR[".toList s i v

mutual
/-- A node with its arguments, nodebase.hpp. -/
inductive Tree
  | node (k : Kind) (args : Trees)
inductive Trees
  | nil
  | cons (t : Tree) (ts : Trees)
end

def Trees.length : Trees → Nat
  | .nil => 0
  | .cons _ ts => ts.length + 1

/-- The members of a debugger: `prefix_` and `stack_`. -/
structure St where
  pre : Str
  stack : List Str
  deriving DecidableEq

/-- `stack_.Top()` and `stack_.Pop()`. -/
def topPop (s : List Str) : Option (Str × List Str) :=
  match s with
  | [] => none
  | t :: s => some (t, s)

/-- The loop over the arguments 2 to n-1, debugger.hpp:42-45: how many are left, the text so far, the stack. -/
def middleArgs (pre : Str) : Nat → Str → List Str → Option (Str × List Str)
  | 0, str, s => some (str, s)
  | c + 1, str, s => (topPop s).bind fun (t, s) => middleArgs pre c (str ++ (t ++ pre ++ ",\n".toList)) s

/-- `Debug` after the arguments were visited, debugger.hpp:28-58. -/
def finish (n : Nat) (nodeId : Str) (st : St) : Option St :=
  let str := st.pre ++ nodeId
  (if n ≠ 0 then
    let str := str ++ "(\n".toList
    (topPop st.stack).bind fun (t, s) =>
    let str := str ++ t
    let str := if n > 1 then str ++ (st.pre ++ ",\n".toList) else str
    (middleArgs st.pre (n - 1 - 1) str s).bind fun (str, s) =>
    (if n > 1 then (topPop s).bind fun (t, s) => some (str ++ t, s) else some (str, s)).bind fun (str, s) =>
    some (str ++ (st.pre ++ ")".toList), s)
  else some (str, st.stack)).bind fun (str, s) => some { st with stack := (str ++ "\n".toList) :: s }

mutual
/-- `Debug`, debugger.hpp:19-59. -/
def visit : Tree → St → Option St
  | .node k args, st => (visitArgs args { st with pre := st.pre ++ ['\t'] }).bind fun st =>
      finish args.length (ident k) { st with pre := st.pre.dropLast }
/-- The loop over the arguments, right to left, debugger.hpp:23-24. -/
def visitArgs : Trees → St → Option St
  | .nil, st => some st
  | .cons t ts, st => (visitArgs ts st).bind fun st => visit t st
end

/-- The loop over the statements of an event, event.cpp:173-178: the count, the stream, the debugger. -/
def statements : List Tree → Nat → Str → St → Option (Str × St)
  | [], _, out, d => some (out, d)
  | t :: ts, s, out, d => (visit t d).bind fun d => (topPop d.stack).bind fun (text, _) =>
      statements ts (s + 1) (out ++ "Statement_: ".toList ++ Nat.toDigits 10 (s + 1) ++ ['\n'] ++ text ++ ['\n']) d

/-- The loop over the events, event.cpp:169-179; an event is the text of its date and its statements. -/
def events : List (Str × List Tree) → Nat → Str → St → Option Str
  | [], _, out, _ => some out
  | (date, ts) :: es, e, out, d =>
    (statements ts 0 (out ++ "EventTime_: ".toList ++ date ++ "\tEvent_: ".toList ++ Nat.toDigits 10 (e + 1) ++ ['\n']) d).bind fun (out, d) =>
      events es (e + 1) out d

/-- The loop over the variables, event.cpp:164-165. -/
def varLines : List Str → Nat → Str → Str
  | [], _, out => out
  | x :: xs, v, out => varLines xs (v + 1) (out ++ "Var[".toList ++ Nat.toDigits 10 v ++ "] = ".toList ++ x ++ ['\n'])

/-- `ScriptProduct_::Debug`, event.cpp:162-180. -/
def debugProduct (vars : List Str) (evs : List (Str × List Tree)) : Option Str := events evs 0 (varLines vars 0 []) ⟨[], []⟩

end Dal.Debug
