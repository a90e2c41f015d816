import Verif.Aad.AdjointModel
import Verif.Script.CompileModel
import Verif.Sim.DupireModel
import Mathlib.Analysis.SpecialFunctions.Pow.Real

/-!
# Compiled simulations with `Number_`: what the tape records

Source: `dal/script/visitor/compiler.hpp` 73–101 and 355–598, `dal/script/event.hpp` 129–141, `dal/script/simulation.hpp` 38–58 and 203–228, `dal/model/blackscholes.hpp` 38–146,
`dal/math/aad/sample.hpp` 47–54, `dal/math/aad/expr.hpp` 492–620.

The stacks and the variables hold numbers, that is positions on the tape. Making a number from a double or from an expression records a node; copying a number shares it.

Simplifications: doubles are real numbers. One task of one thread is modelled, with the random numbers given. A variable index that does not exist stands for one more leaf of value zero instead
of undefined behaviour. The product has dates that rise strictly and are not negative, and its sample definitions ask for the numeraire, as `event.cpp` 150–157 makes them. `none` stands for undefined
behaviour or exhausted fuel.
-/

namespace Dal.TapeRun

open Dal.Adj Dal.Script

/-- The values of the recorded numbers by position, and their nodes. -/
structure Tape where
  env : Nat → ℝ
  nodes : List Node

/-- A tape after `Rewind`. -/
noncomputable def Tape.empty : Tape := ⟨fun _ => 0, []⟩

/-- A number from a double, or `PutOnTape` (`expr.hpp` 494–502 and 517). -/
noncomputable def Tape.leaf (t : Tape) (v : ℝ) : Tape × Nat :=
  (⟨Function.update t.env t.nodes.length v, t.nodes ++ [[]]⟩, t.nodes.length)

/-- A number from an expression (`expr.hpp` 504–515). -/
noncomputable def Tape.expr (lib : Lib) (t : Tape) (e : Ex) : Tape × Nat :=
  (⟨Function.update t.env t.nodes.length (e.value lib t.env), t.nodes ++ [e.push lib t.env 1]⟩, t.nodes.length)

/-- Numbers from doubles, in order. -/
noncomputable def Tape.leaves (t : Tape) : List ℝ → Tape
  | [] => t
  | v :: vs => (t.leaf v).1.leaves vs

/-! ### Instructions -/

/-- Instructions on the two top numbers (`compiler.hpp` 386–391, 396–401, 410–414, 419–423, 432–436, 445–450, 457–463); `a` is below `b`. The larger and the smaller number are copies. -/
noncomputable def tBin (lib : Lib) : Op → Option (Tape → Nat → Nat → Tape × Nat)
  | .add => some fun t a b => t.expr lib (.bin .add (.num a) (.num b))
  | .sub => some fun t a b => t.expr lib (.bin .sub (.num a) (.num b))
  | .multi => some fun t a b => t.expr lib (.bin .mult (.num a) (.num b))
  | .div => some fun t a b => t.expr lib (.bin .div (.num a) (.num b))
  | .pow => some fun t a b => t.expr lib (.bin .pow (.num a) (.num b))
  | .max2 => some fun t a b => (t, if t.env a < t.env b then b else a)
  | .min2 => some fun t a b => (t, if t.env b < t.env a then b else a)
  | _ => none

/-- Instructions with a constant (`compiler.hpp` 392–395, 402–409, 415–418, 424–431, 437–444, 451–456, 464–469); `x` is the top number. `MAX` and `MIN` make a number from the constant first. -/
noncomputable def tConst (lib : Lib) : Op → Option (Tape → ℝ → Nat → Tape × Nat)
  | .addConst => some fun t c x => t.expr lib (.un .addD c (.num x))
  | .subConst => some fun t c x => t.expr lib (.un .subDR c (.num x))
  | .constSub => some fun t c x => t.expr lib (.un .subDL c (.num x))
  | .multiConst => some fun t c x => t.expr lib (.un .multD c (.num x))
  | .divConst => some fun t c x => t.expr lib (.un .divDR c (.num x))
  | .constDiv => some fun t c x => t.expr lib (.un .divDL c (.num x))
  | .powConst => some fun t c x => t.expr lib (.un .powDR c (.num x))
  | .constPow => some fun t c x => t.expr lib (.un .powDL c (.num x))
  | .max2Const => some fun t c x => ((t.leaf c).1, if t.env x < c then (t.leaf c).2 else x)
  | .min2Const => some fun t c x => ((t.leaf c).1, if c < t.env x then (t.leaf c).2 else x)
  | _ => none

/-- Instructions on the top number (`compiler.hpp` 568–579 and 584–587); the unary minus is `expr.hpp` 451–454. -/
noncomputable def tUn (lib : Lib) : Op → Option (Tape → Nat → Tape × Nat)
  | .sqrt => some fun t x => t.expr lib (.un .sqrt 0 (.num x))
  | .log => some fun t x => t.expr lib (.un .log 0 (.num x))
  | .exp => some fun t x => t.expr lib (.un .exp 0 (.num x))
  | .uminus => some fun t x => t.expr lib (.un .subDL 0 (.num x))
  | _ => none

/-- Instructions turning the top number into a condition (`compiler.hpp` 524–535) look at the value. -/
noncomputable def tCmp : Op → Option (ℝ → Bool)
  | .equal => some fun x => decide (x = 0)
  | .sup => some fun x => decide (0 < x)
  | .supEqual => some fun x => decide (0 ≤ x)
  | _ => none

/-- What `PAYS` records (`compiler.hpp` 494–505): one node for the sum and the quotient. -/
noncomputable def tPays (lib : Lib) (t : Tape) (x amount numeraire : Nat) : Tape × Nat :=
  t.expr lib (.bin .add (.num x) (.bin .div (.num amount) (.num numeraire)))

/-- One instruction other than `IfElse` (`compiler.hpp` 384–595): the next position, the tape and the state. `ConstVar` makes a number from the constant like `Const` (478–482). -/
noncomputable def tstep (lib : Lib) (ns : List Word) (cs : List ℝ) (sp : Script.Sample Nat) (i : Nat) (op : Op) (t : Tape) (s : RunSt Nat) :
    Option (Nat × Tape × RunSt Nat) :=
  match tBin lib op with
  | some f => match s.d with
    | b :: a :: d => some (i + 1, (f t a b).1, { s with d := (f t a b).2 :: d })
    | _ => none
  | none =>
  match tConst lib op with
  | some f => match s.d, constAt ns cs (i + 1) with
    | x :: d, some c => some (i + 2, (f t c x).1, { s with d := (f t c x).2 :: d })
    | _, _ => none
  | none =>
  match tUn lib op with
  | some f => match s.d with
    | x :: d => some (i + 1, (f t x).1, { s with d := (f t x).2 :: d })
    | _ => none
  | none =>
  match tCmp op with
  | some f => match s.d with
    | x :: d => (s.b.push (f (t.env x))).map fun b => (i + 1, t, { s with d := d, b := b })
    | _ => none
  | none =>
  match op with
  | .spot => some (i + 1, t, { s with d := sp.spot :: s.d })
  | .var => (argAt ns (i + 1)).map fun k => (i + 2, t, { s with d := s.σ k :: s.d })
  | .const => (constAt ns cs (i + 1)).map fun c => (i + 2, (t.leaf c).1, { s with d := (t.leaf c).2 :: s.d })
  | .constVar => (constAt ns cs (i + 1)).map fun c => (i + 2, (t.leaf c).1, { s with d := (t.leaf c).2 :: s.d })
  | .assign => match s.d, argAt ns (i + 1) with
    | x :: d, some k => some (i + 2, t, { s with d := d, σ := upd s.σ k x })
    | _, _ => none
  | .assignConst => match constAt ns cs (i + 1), argAt ns (i + 2) with
    | some c, some k => some (i + 3, (t.leaf c).1, { s with σ := upd s.σ k (t.leaf c).2 })
    | _, _ => none
  | .pays => match s.d, argAt ns (i + 1) with
    | x :: d, some k =>
      let r := tPays lib t (s.σ k) x sp.numeraire
      some (i + 2, r.1, { s with d := d, σ := upd s.σ k r.2 })
    | _, _ => none
  | .paysConst => match constAt ns cs (i + 1), argAt ns (i + 2) with
    | some c, some k =>
      let r := tPays lib (t.leaf c).1 (s.σ k) (t.leaf c).2 sp.numeraire
      some (i + 3, r.1, { s with σ := upd s.σ k r.2 })
    | _, _ => none
  | .iff => match s.b.items with
    | true :: _ => some (i + 2, t, { s with b := s.b.pop })
    | false :: _ => (argAt ns (i + 1)).map fun k => (k, t, { s with b := s.b.pop })
    | [] => none
  | .and => match s.b.items with
    | x :: y :: r => some (i + 1, t, { s with b := { s.b with items := (if y then x else y) :: r } })
    | _ => none
  | .or => match s.b.items with
    | x :: y :: r => some (i + 1, t, { s with b := { s.b with items := (if y then y else x) :: r } })
    | _ => none
  | .not => match s.b.items with
    | x :: r => some (i + 1, t, { s with b := { s.b with items := (!x) :: r } })
    | _ => none
  | .true' => (s.b.push true).map fun b => (i + 1, t, { s with b := b })
  | .false' => (s.b.push false).map fun b => (i + 1, t, { s with b := b })
  | _ => none

/-- What the instruction at a position asks for. -/
inductive TAct
  /-- go on at `j` -/
  | goto (j : Nat) (t : Tape) (s : RunSt Nat)
  /-- a nested call up to `m`, then go on at `k` -/
  | call (m k : Nat)

/-- The instruction at position `i`; `IfElse` is `compiler.hpp` 514–523. -/
noncomputable def tact (lib : Lib) (ns : List Word) (cs : List ℝ) (sp : Script.Sample Nat) (i : Nat) (t : Tape) (s : RunSt Nat) : Option TAct :=
  match ns[i]? with
  | some (.op .ifElse) =>
    match s.b.items with
    | false :: _ => (argAt ns (i + 1)).map fun k => .goto k t { s with b := s.b.pop }
    | true :: _ => match argAt ns (i + 1), argAt ns (i + 2) with
      | some m, some k => some (.call (if m = 0 then ns.length else m) k)
      | _, _ => none
    | [] => none
  | some (.op op) => (tstep lib ns cs sp i op t s).map fun r => .goto r.1 r.2.1 r.2.2
  | _ => none

/-- `EvalCompiled` (`compiler.hpp` 355–598) with `Number_`. -/
noncomputable def trun (lib : Lib) (ns : List Word) (cs : List ℝ) (sp : Script.Sample Nat) : Nat → Nat → Nat → Tape → RunSt Nat → Option (Tape × RunSt Nat)
  | 0, _, _, _, _ => none
  | fuel + 1, n, i, t, s =>
    if i < n then
      match tact lib ns cs sp i t s with
      | some (.goto j t' s') => if s'.fits then trun lib ns cs sp fuel n j t' s' else none
      | some (.call m k) =>
        match trun lib ns cs sp fuel m (i + 3) t ⟨[], {}, s.σ⟩ with
        | some r => trun lib ns cs sp fuel n k r.1 { r.2 with b := r.2.b.pop }
        | none => none
      | none => none
    else some (t, s)

/-- The loop of `EvaluateCompiled` over the events (`event.hpp` 133–140). -/
noncomputable def tEvents (lib : Lib) (fuel : Nat) : List (Streams ℝ × Script.Sample Nat) → Tape → (Nat → Nat) → Option (Tape × (Nat → Nat))
  | [], t, σ => some (t, σ)
  | (s, sp) :: es, t, σ =>
    match trun lib s.ns s.cs sp fuel s.ns.length 0 t ⟨[], {}, σ⟩ with
    | some r => tEvents lib fuel es r.1 r.2.σ
    | none => none

/-- `EvalState_::Init` (`compiler.hpp` 88–91): a leaf for each variable (and one for all other indices). -/
noncomputable def tInit (t : Tape) (vars : List ℝ) : Tape × (Nat → Nat) :=
  (t.leaves (vars ++ [0]), fun i => t.nodes.length + if i < vars.length then i else vars.length)

/-- `EvaluateCompiled` (`event.hpp` 129–141). -/
noncomputable def tEvaluate (lib : Lib) (fuel : Nat) (vars : List ℝ) (es : List (Streams ℝ × Script.Sample Nat)) (t : Tape) : Option (Tape × (Nat → Nat)) :=
  tEvents lib fuel es (tInit t vars).1 (tInit t vars).2

/-! ### The model -/

/-- The lengths of the steps of a time line. -/
def steps : List ℝ → List ℝ
  | a :: b :: r => (b - a) :: steps (b :: r)
  | _ => []

/-- The loop of `BlackScholes_::Init` over the steps (`blackscholes.hpp` 112–117): the positions of the deviation and of the drift. -/
noncomputable def tSteps (lib : Lib) (vol mu : Nat) : List ℝ → Tape → Tape × List (Nat × Nat)
  | [], t => (t, [])
  | dt :: r, t =>
    let a := t.expr lib (.un .multD (Real.sqrt dt) (.num vol))
    let c := a.1.expr lib (.un .multD dt (.bin .sub (.num mu) (.bin .mult (.un .multD 0.5 (.num vol)) (.num vol))))
    let rest := tSteps lib vol mu r c.1
    (rest.1, (a.2, c.2) :: rest.2)

/-- The loop of `BlackScholes_::Init` over the numeraires (`blackscholes.hpp` 119–122). -/
noncomputable def tNums (lib : Lib) (rate : Nat) : List ℝ → Tape → Tape × List Nat
  | [], t => (t, [])
  | T :: r, t =>
    let a := t.expr lib (.un .exp 0 (.un .multD T (.num rate)))
    let rest := tNums lib rate r a.1
    (rest.1, a.2 :: rest.2)

/-- What a simulation knows before its paths: the tape up to the mark, the steps and the numeraires. -/
structure Base where
  tape : Tape
  steps : List (Nat × Nat)
  nums : List Nat

/-- `InitModel4ParallelAAD` (`simulation.hpp` 38–53) with the order of the parameters of `blackscholes.hpp` 38–43: the spot, the volatility, the rate and the dividend yield at positions 0 to 3, then the
constant variables, then `Init` and the samples (`sample.hpp` 47–54, each `T_` a leaf). -/
noncomputable def base (lib : Lib) (b : Models.BS ℝ) (consts : List ℝ) (line product : List ℝ) : Base :=
  let t0 := Tape.empty.leaves ([b.spot, b.vol, b.rate, b.div] ++ consts)
  let mu := t0.expr lib (.bin .sub (.num 2) (.num 3))
  let st := tSteps lib 1 mu.2 (steps line) mu.1
  let nm := tNums lib 2 product st.1
  ⟨nm.1.leaves (product.flatMap fun _ => [0, 1, 1, 1, 1]), st.2, nm.2⟩

/-- The loop of `BlackScholes_::GeneratePath` (`blackscholes.hpp` 140–145) from step `i` on: the positions of the spots. -/
noncomputable def tPath (lib : Lib) (gauss : Nat → ℝ) : List (Nat × Nat) → Nat → Nat → Tape → Tape × List Nat
  | [], _, _, t => (t, [])
  | (std, drift) :: r, i, x, t =>
    let a := t.expr lib (.bin .add (.num x) (.bin .add (.num drift) (.un .multD (gauss i) (.num std))))
    let c := a.1.expr lib (.un .exp 0 (.num a.2))
    let rest := tPath lib gauss r (i + 1) a.2 c.1
    (rest.1, c.2 :: rest.2)

/-- `BlackScholes_::GeneratePath` (`blackscholes.hpp` 128–146): the samples. -/
noncomputable def tScenario (lib : Lib) (bs : Base) (today : Bool) (gauss : Nat → ℝ) : Tape × List (Script.Sample Nat) :=
  let a := bs.tape.expr lib (.un .log 0 (.num 0))
  let p := tPath lib gauss bs.steps 0 a.2 a.1
  (p.1, ((if today then 0 :: p.2 else p.2).zip bs.nums).map fun s => ⟨s.1, s.2⟩)

/-! ### The simulation -/

/-- What is simulated: the streams of the events, the initial variables, the index of the payoff. -/
structure Product where
  code : List (Streams ℝ)
  vars : List ℝ
  payoff : Nat

/-- One path (`simulation.hpp` 210–218): rewinding to the mark, the path, the evaluation, and the propagation of the payoff to the mark. The result is the payoff and the adjoints. -/
noncomputable def tOne (lib : Lib) (eps : ℝ) (fuel : Nat) (p : Product) (bs : Base) (today : Bool) (gauss : Nat → ℝ) (adj : Nat → ℝ) : Option (ℝ × (Nat → ℝ)) :=
  let sc := tScenario lib bs today gauss
  match tEvaluate lib fuel p.vars (p.code.zip sc.2) sc.1 with
  | none => none
  | some (t, σ) =>
    match propagateFrom eps t.nodes (σ p.payoff) bs.tape.nodes.length (fun k => if k < bs.tape.nodes.length then adj k else 0) with
    | none => none
    | some adj' => some (t.env (σ p.payoff), adj')

/-- All paths: the sum of the payoffs and the adjoints. -/
noncomputable def tPaths (lib : Lib) (eps : ℝ) (fuel : Nat) (p : Product) (bs : Base) (today : Bool) : List (Nat → ℝ) → ℝ → (Nat → ℝ) → Option (ℝ × (Nat → ℝ))
  | [], sum, adj => some (sum, adj)
  | g :: gs, sum, adj =>
    match tOne lib eps fuel p bs today g adj with
    | none => none
    | some r => tPaths lib eps fuel p bs today gs (sum + r.1) r.2

/-- One task (`simulation.hpp` 207–228): the sum of the payoffs, and the risks of the parameters and of the constant variables. -/
noncomputable def tSimulate (lib : Lib) (eps : ℝ) (fuel : Nat) (p : Product) (b : Models.BS ℝ) (consts product : List ℝ) (nPaths : Nat) (gs : List (Nat → ℝ)) :
    Option (ℝ × List ℝ) :=
  match TimeLine.bsAllocate product with
  | none => none
  | some (line, flags) =>
    let bs := base lib b consts line product
    match tPaths lib eps fuel p bs (flags.headD false) gs 0 (fun _ => 0) with
    | none => none
    | some (sum, adj) =>
      match propagate eps bs.tape.nodes (bs.tape.nodes.length - 1) 0 adj with
      | none => none
      | some adj' => some (sum, (List.range (4 + consts.length)).map fun j => adj' j / nPaths)

end Dal.TapeRun
