import Verif.Script.IndexModel

/-! # Models of constant marking (script/visitor/constprocessor.hpp), of the compiler and of the
evaluation of compiled streams (script/visitor/compiler.hpp)

The integer opcodes are an enumeration, kept apart from integer operands; reading one where the other
is expected is an error (`none`).  The `Smooth` instruction is never emitted and is left out.
Derivatives (`T_ = Number_`) are not modelled. -/

namespace Dal.Script
variable {D : Type}

/-! ### Constant marking -/

/-- `varConst_`/`varConstVal_`, constprocessor.hpp:29-30. -/
abbrev ConstSt (D : Type) := Nat → Option D

/-- All variables start as constants with value 0, constprocessor.hpp:54-55. -/
def constInit (o : Ops D) : ConstSt D := fun _ => some o.zero

/-- `VisitBinary`, `VisitUnary` and `Visit(NodeVar_&)`, constprocessor.hpp:60-120 and 169-175.  A node
whose arguments are not all constant keeps its mark. -/
def constE (o : Ops D) (vc : ConstSt D) : Expr Nat D → Expr Nat D
  | .bin op l r k =>
    let l' := constE o vc l
    let r' := constE o vc r
    .bin op l' r' (match l'.kval, r'.kval with
      | some x, some y => some (evalBin o op x y)
      | _, _ => k)
  | .un op a k =>
    let a' := constE o vc a
    .un op a' (match a'.kval with
      | some x => some (evalUn o op x)
      | none => k)
  | .extra m x k =>
    let m' := constE o vc m
    let x' := constE o vc x
    .extra m' x' (match m'.kval, x'.kval with
      | some v, some _ => some v
      | _, _ => k)
  | .const c => .const c
  | .var i _ => .var i (vc i)
  | .constVar i c => .constVar i c
  | .spot => .spot

/-- Conditions: only their arguments are visited. -/
def constC (o : Ops D) (vc : ConstSt D) : Cond Nat D → Cond Nat D
  | .cmp op e a f => .cmp op (constE o vc e) a f
  | .and l r f => .and (constC o vc l) (constC o vc r) f
  | .or l r f => .or (constC o vc l) (constC o vc r) f
  | .not c f => .not (constC o vc c) f
  | .tt => .tt
  | .ff => .ff

/-- Setting the status of a variable. -/
def setC (vc : ConstSt D) (i : Nat) (v : Option D) : ConstSt D := fun j => if j = i then v else vc j

mutual
/-- `Visit(NodeIf_&)`, `Visit(NodeAssign_&)`, `Visit(NodePays_&)`, constprocessor.hpp:123-166; `cond` is
`isInConditional_`. -/
def constS (o : Ops D) (cond : Bool) (vc : ConstSt D) : Stmt Nat D → ConstSt D × Stmt Nat D
  | .assign x e =>
    let e' := constE o vc e
    (setC vc x.v (if cond then none else e'.kval), .assign x e')
  | .pays x e =>
    let vc' := setC vc x.v none
    (vc', .pays x (constE o vc' e))
  | .ite c t he e af f =>
    let c' := constC o vc c
    let a := constSs o true vc t
    let b := constSs o true a.1 e
    (b.1, .ite c' a.2 he b.2 af f)
  | .collect b => let a := constSs o cond vc b; (a.1, .collect a.2)
/-- Statements in order. -/
def constSs (o : Ops D) (cond : Bool) (vc : ConstSt D) : Stmts Nat D → ConstSt D × Stmts Nat D
  | .nil => (vc, .nil)
  | .cons s ss =>
    let a := constS o cond vc s
    let b := constSs o cond a.1 ss
    (b.1, .cons a.2 b.2)
end

/-- `ScriptProduct_::ConstProcess`, event.cpp:121-124: past events, then future events. -/
def constEvents (o : Ops D) (vc : ConstSt D) : List (Stmts Nat D) → ConstSt D × List (Stmts Nat D)
  | [] => (vc, [])
  | e :: es =>
    let a := constSs o false vc e
    let b := constEvents o a.1 es
    (b.1, a.2 :: b.2)

mutual
/-- `PastEvaluator_`, pastevaluator.hpp: like the interpreter, but `Pays` only evaluates its right-hand
side and the spot is 30. -/
def pastExec (o : Ops D) (cv : Nat → D) (sp : Sample D) : Stmt Nat D → (Nat → D) → (Nat → D)
  | .assign x e, σ => upd σ x.v (evalE o cv sp σ e)
  | .pays _ _, σ => σ
  | .ite c t he e _ _, σ =>
    if evalC o cv sp σ c then pastExecs o cv sp t σ
    else if he then pastExecs o cv sp e σ else σ
  | .collect b, σ => pastExecs o cv sp b σ
/-- Past statements in order. -/
def pastExecs (o : Ops D) (cv : Nat → D) (sp : Sample D) : Stmts Nat D → (Nat → D) → (Nat → D)
  | .nil, σ => σ
  | .cons s ss, σ => pastExecs o cv sp ss (pastExec o cv sp s σ)
end

/-- `ScriptProduct_::PastEvaluate`, event.cpp:103-107, from variables at 0. -/
def pastEvaluate (o : Ops D) (cv : Nat → D) (sp : Sample D) (past : List (Stmts Nat D)) : Nat → D :=
  past.foldl (fun σ ev => pastExecs o cv sp ev σ) (fun _ => o.zero)

/-! ### The compiler -/

/-- `NodeType_`, compiler.hpp:103-144. -/
inductive Op
  | add | addConst | sub | subConst | constSub | multi | multiConst | div | divConst | constDiv
  | pow | powConst | constPow | max2 | max2Const | min2 | min2Const | spot | var | const
  | assign | assignConst | pays | paysConst | iff | ifElse | equal | sup | supEqual | and | or
  | sqrt | log | exp | not | uminus | true' | false' | constVar
  deriving DecidableEq, Repr

/-- An entry of `nodeStream_`. -/
inductive Word
  | op (o : Op)
  | arg (n : Nat)
  deriving DecidableEq, Repr

/-- `nodeStream_` and `constStream_`. -/
structure Streams (D : Type) where
  ns : List Word := []
  cs : List D := []

/-- `nodeStream_.emplace_back`. -/
def Streams.op (s : Streams D) (o : Op) : Streams D := { s with ns := s.ns ++ [.op o] }
/-- `nodeStream_.emplace_back` of an operand. -/
def Streams.arg (s : Streams D) (n : Nat) : Streams D := { s with ns := s.ns ++ [.arg n] }
/-- Instruction, position in the constant stream, constant. -/
def Streams.opConst (s : Streams D) (o : Op) (c : D) : Streams D :=
  { ns := s.ns ++ [.op o, .arg s.cs.length], cs := s.cs ++ [c] }

/-- Instructions chosen by `Visit(NodeAdd_&)`, ..., compiler.hpp:190-198. -/
def opBin : BinOp → Op
  | .add => .add | .sub => .sub | .mul => .multi | .div => .div | .pow => .pow | .max => .max2 | .min => .min2
/-- `IfConstLeft`. -/
def opConstLeft : BinOp → Op
  | .add => .addConst | .sub => .constSub | .mul => .multiConst | .div => .constDiv | .pow => .constPow
  | .max => .max2Const | .min => .min2Const
/-- `IfConstRight`. -/
def opConstRight : BinOp → Op
  | .add => .addConst | .sub => .subConst | .mul => .multiConst | .div => .divConst | .pow => .powConst
  | .max => .max2Const | .min => .min2Const

/-- Expressions, compiler.hpp:163-217 and 296-318.  `force` ignores the mark of the node itself: it is
used for a `MAX`/`MIN` node with more than two arguments, whose mark is the one of the whole node. -/
def compE (force : Bool) (s : Streams D) : Expr Nat D → Streams D
  | .bin op l r k =>
    match (if force then none else k) with
    | some v => s.opConst .const v
    | none =>
      match l.kval with
      | some x => (compE false s r).opConst (opConstLeft op) x
      | none =>
        match r.kval with
        | some y => (compE false s l).opConst (opConstRight op) y
        | none => (compE false (compE false s l) r).op (opBin op)
  | .un op a k =>
    match op with
    | .uplus => compE false s a
    | .uminus => match k with
      | some v => s.opConst .const v
      | none => (compE false s a).op .uminus
    | .log => match k with
      | some v => s.opConst .const v
      | none => (compE false s a).op .log
    | .sqrt => match k with
      | some v => s.opConst .const v
      | none => (compE false s a).op .sqrt
    | .exp => match k with
      | some v => s.opConst .const v
      | none => (compE false s a).op .exp
  | .extra m _ k =>
    match (if force then none else k) with
    | some v => s.opConst .const v
    | none => compE true s m
  | .const c => s.opConst .const c
  | .var i _ => (s.op .var).arg i
  | .constVar _ c => s.opConst .constVar c
  | .spot => s.op .spot

/-- The test folded at compile time, compiler.hpp:232-241; `eps` is `Dal::EPSILON`. -/
def foldCmp (o : Ops D) (eps : D) (op : CmpOp) (x : D) : Bool :=
  match op with
  | .equal => o.eq x o.zero
  | .sup => o.lt o.zero x
  | .supEq => o.lt (o.neg eps) x

/-- The instruction of a comparison. -/
def opCmp : CmpOp → Op
  | .equal => .equal | .sup => .sup | .supEq => .supEqual

/-- Conditions, compiler.hpp:220-260 and 313-315. -/
def compC (o : Ops D) (eps : D) (s : Streams D) : Cond Nat D → Streams D
  | .cmp op e _ _ =>
    match e.kval with
    | some v => s.op (if foldCmp o eps op v then .true' else .false')
    | none => (compE false s e).op (opCmp op)
  | .and l r _ => (compC o eps (compC o eps s l) r).op .and
  | .or l r _ => (compC o eps (compC o eps s l) r).op .or
  | .not c _ => (compC o eps s c).op .not
  | .tt => s.op .true'
  | .ff => s.op .false'

mutual
/-- Statements, compiler.hpp:264-292 and 321-351. -/
def compS (o : Ops D) (eps : D) (s : Streams D) : Stmt Nat D → Streams D
  | .assign x e =>
    match e.kval with
    | some v => (s.opConst .assignConst v).arg x.v
    | none => ((compE false s e).op .assign).arg x.v
  | .pays x e =>
    match e.kval with
    | some v => (s.opConst .paysConst v).arg x.v
    | none => ((compE false s e).op .pays).arg x.v
  | .ite c t he e _ _ =>
    let s1 := compC o eps s c
    let this := s1.ns.length
    if he then
      let s2 := ((s1.op .ifElse).arg 0).arg 0
      let s3 := compSs o eps s2 t
      let s4 : Streams D := { s3 with ns := s3.ns.set (this + 1) (.arg s3.ns.length) }
      let s5 := compSs o eps s4 e
      { s5 with ns := s5.ns.set (this + 2) (.arg s5.ns.length) }
    else
      let s2 := (s1.op .iff).arg 0
      let s3 := compSs o eps s2 t
      { s3 with ns := s3.ns.set (this + 1) (.arg s3.ns.length) }
  | .collect b => compSs o eps s b
/-- Statements in order. -/
def compSs (o : Ops D) (eps : D) (s : Streams D) : Stmts Nat D → Streams D
  | .nil => s
  | .cons st ss => compSs o eps (compS o eps s st) ss
end

/-! ### Running a stream -/

/-- The condition stack: after the nested call of compiler.hpp:519 its pointer may be popped below the
empty position (`under`), and pushing there writes outside the array. -/
structure BStack where
  items : List Bool := []
  under : Nat := 0

/-- `StaticStack_::Push`, stacks.hpp: `none` when the cell written lies before the array. -/
def BStack.push (b : BStack) (x : Bool) : Option BStack :=
  if b.under = 0 then some { b with items := x :: b.items } else none
/-- `StaticStack_::Pop`: unchecked. -/
def BStack.pop (b : BStack) : BStack :=
  match b.items with
  | [] => { b with under := b.under + 1 }
  | _ :: r => { b with items := r }

/-- The thread-local stacks and the variables. -/
structure RunSt (D : Type) where
  d : List D
  b : BStack
  σ : Nat → D

/-- Instructions on the two top values; `a` is below `b`. -/
def semBin (o : Ops D) : Op → Option (D → D → D)
  | .add => some o.add
  | .sub => some o.sub
  | .multi => some o.mul
  | .div => some o.div
  | .pow => some o.pow
  | .max2 => some (fun a b => if o.lt a b then b else a)
  | .min2 => some (fun a b => if o.lt b a then b else a)
  | _ => none

/-- Instructions with a constant operand; `t` is the top value. -/
def semConst (o : Ops D) : Op → Option (D → D → D)
  | .addConst => some (fun c t => o.add t c)
  | .subConst => some (fun c t => o.sub t c)
  | .constSub => some (fun c t => o.sub c t)
  | .multiConst => some (fun c t => o.mul t c)
  | .divConst => some (fun c t => o.div t c)
  | .constDiv => some (fun c t => o.div c t)
  | .powConst => some (fun c t => o.pow t c)
  | .constPow => some (fun c t => o.pow c t)
  | .max2Const => some (fun c t => if o.lt t c then c else t)
  | .min2Const => some (fun c t => if o.lt c t then c else t)
  | _ => none

/-- Instructions on the top value. -/
def semUn (o : Ops D) : Op → Option (D → D)
  | .sqrt => some o.sqrt
  | .log => some o.log
  | .exp => some o.exp
  | .uminus => some o.neg
  | _ => none

/-- Instructions turning the top value into a condition. -/
def semCmp (o : Ops D) : Op → Option (D → Bool)
  | .equal => some (fun x => o.eq x o.zero)
  | .sup => some (fun x => o.lt o.zero x)
  | .supEqual => some (fun x => o.le o.zero x)
  | _ => none

/-- The operand at position `i`. -/
def argAt (ns : List Word) (i : Nat) : Option Nat :=
  match ns[i]? with
  | some (.arg n) => some n
  | _ => none

/-- The constant an operand points to. -/
def constAt (ns : List Word) (cs : List D) (i : Nat) : Option D :=
  match argAt ns i with
  | some k => cs[k]?
  | none => none

/-- One instruction other than `IfElse`, compiler.hpp:384-595: the next position and state. -/
def step (o : Ops D) (ns : List Word) (cs : List D) (sp : Sample D) (i : Nat) (op : Op) (s : RunSt D) :
    Option (Nat × RunSt D) :=
  match semBin o op with
  | some f => match s.d with
    | b :: a :: d => some (i + 1, { s with d := f a b :: d })
    | _ => none
  | none =>
  match semConst o op with
  | some f => match s.d, constAt ns cs (i + 1) with
    | t :: d, some c => some (i + 2, { s with d := f c t :: d })
    | _, _ => none
  | none =>
  match semUn o op with
  | some f => match s.d with
    | t :: d => some (i + 1, { s with d := f t :: d })
    | _ => none
  | none =>
  match semCmp o op with
  | some f => match s.d with
    | t :: d => (s.b.push (f t)).map (fun b => (i + 1, { s with d := d, b := b }))
    | _ => none
  | none =>
  match op with
  | .spot => some (i + 1, { s with d := sp.spot :: s.d })
  | .var => (argAt ns (i + 1)).map (fun k => (i + 2, { s with d := s.σ k :: s.d }))
  | .const => (constAt ns cs (i + 1)).map (fun c => (i + 2, { s with d := c :: s.d }))
  | .constVar => (constAt ns cs (i + 1)).map (fun c => (i + 2, { s with d := c :: s.d }))
  | .assign => match s.d, argAt ns (i + 1) with
    | t :: d, some k => some (i + 2, { s with d := d, σ := upd s.σ k t })
    | _, _ => none
  | .assignConst => match constAt ns cs (i + 1), argAt ns (i + 2) with
    | some c, some k => some (i + 3, { s with σ := upd s.σ k c })
    | _, _ => none
  | .pays => match s.d, argAt ns (i + 1) with
    | t :: d, some k => some (i + 2, { s with d := d, σ := upd s.σ k (o.add (s.σ k) (o.div t sp.numeraire)) })
    | _, _ => none
  | .paysConst => match constAt ns cs (i + 1), argAt ns (i + 2) with
    | some c, some k => some (i + 3, { s with σ := upd s.σ k (o.add (s.σ k) (o.div c sp.numeraire)) })
    | _, _ => none
  | .iff => match s.b.items with
    | true :: _ => some (i + 2, { s with b := s.b.pop })
    | false :: _ => (argAt ns (i + 1)).map (fun k => (k, { s with b := s.b.pop }))
    | [] => none
  | .and => match s.b.items with
    | t :: u :: r => some (i + 1, { s with b := { s.b with items := (if u then t else u) :: r } })
    | _ => none
  | .or => match s.b.items with
    | t :: u :: r => some (i + 1, { s with b := { s.b with items := (if u then u else t) :: r } })
    | _ => none
  | .not => match s.b.items with
    | t :: r => some (i + 1, { s with b := { s.b with items := (!t) :: r } })
    | _ => none
  | .true' => (s.b.push true).map (fun b => (i + 1, { s with b := b }))
  | .false' => (s.b.push false).map (fun b => (i + 1, { s with b := b }))
  | _ => none

/-- What the instruction at a position asks for: go on at `j`, or (`IfElse` taken) call `EvalCompiled`
on the positions `i + 3` to `m` and then go on at `k`. -/
inductive Act (D : Type)
  | goto (j : Nat) (s : RunSt D)
  | call (m k : Nat)

/-- The instruction at position `i`; `IfElse` is compiler.hpp:514-523. -/
def act (o : Ops D) (ns : List Word) (cs : List D) (sp : Sample D) (i : Nat) (s : RunSt D) : Option (Act D) :=
  match ns[i]? with
  | some (.op .ifElse) =>
    match s.b.items with
    | false :: _ => (argAt ns (i + 1)).map (fun k => .goto k { s with b := s.b.pop })
    | true :: _ => match argAt ns (i + 1), argAt ns (i + 2) with
      | some m, some k => some (.call (if m = 0 then ns.length else m) k)
      | _, _ => none
    | [] => none
  | some (.op op) => (step o ns cs sp i op s).map (fun r => .goto r.1 r.2)
  | _ => none

/-- Both stacks are `StaticStack_<T, 128>` (compiler.hpp:376, 378 with stacks.hpp:131-137): `Push` writes `data_[++sp_]` unchecked, so
an instruction must leave at most 128 items on each. -/
def RunSt.fits (s : RunSt D) : Prop := s.d.length ≤ 128 ∧ s.b.items.length ≤ 128

instance (s : RunSt D) : Decidable s.fits := inferInstanceAs (Decidable (_ ∧ _))

/-- `EvalCompiled`, compiler.hpp:355-598, with both stacks already reset: the loop from `i` to `n`.
The nested call resets the shared stacks, and the caller pops the condition afterwards
(compiler.hpp:519-522).  `none` is undefined behaviour, such as pushing on a full stack, or exhausted fuel. -/
def run (o : Ops D) (ns : List Word) (cs : List D) (sp : Sample D) : Nat → Nat → Nat → RunSt D → Option (RunSt D)
  | 0, _, _, _ => none
  | fuel + 1, n, i, s =>
    if i < n then
      match act o ns cs sp i s with
      | some (.goto j s') => if s'.fits then run o ns cs sp fuel n j s' else none
      | some (.call m k) =>
        match run o ns cs sp fuel m (i + 3) ⟨[], {}, s.σ⟩ with
        | some s' => run o ns cs sp fuel n k { s' with b := s'.b.pop }
        | none => none
      | none => none
    else some s

/-- The streams of one event, event.cpp:196-208. -/
def compileEvent (o : Ops D) (eps : D) (ev : Stmts Nat D) : Streams D := compSs o eps {} ev

/-- `EvaluateCompiled`, event.hpp:129-141. -/
def evaluateCompiled (o : Ops D) (fuel : Nat) : List (Streams D × Sample D) → (Nat → D) → Option (Nat → D)
  | [], σ => some σ
  | (s, sp) :: es, σ =>
    match run o s.ns s.cs sp fuel s.ns.length 0 ⟨[], {}, σ⟩ with
    | some r => evaluateCompiled o fuel es r.σ
    | none => none

end Dal.Script
