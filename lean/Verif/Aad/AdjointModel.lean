import Mathlib.Analysis.SpecialFunctions.Pow.Deriv
import Mathlib.Analysis.SpecialFunctions.Sqrt
import Mathlib.Analysis.SpecialFunctions.ExpDeriv
import Mathlib.Analysis.SpecialFunctions.Log.Deriv

/-! # Model of expressions, recording and propagation of adjoints (dal/math/aad/expr.hpp, node.hpp)

Doubles are real numbers.  A `Number_` is known by the position of its node on the tape (positions and addresses correspond, C42); a
program is the sequence of its `Number_` constructions and assignments, each of which records one node. -/

namespace Dal.Adj

/-- `NCDF` and `erfc` are library functions. -/
structure Lib where
  /-- `NCDF`, specialfunctions.cpp:38 -/
  ncdf : ℝ → ℝ
  /-- `std::erfc` -/
  erfc : ℝ → ℝ

/-- `NPDF`, specialfunctions.hpp:10. -/
noncomputable def npdf (z : ℝ) : ℝ := if z < -10 ∨ 10 < z then 0 else Real.exp (-0.5 * z * z) / 2.506628274631

/-- The operators with one expression and possibly a double, expr.hpp:161-268. -/
inductive UOp where
  /-- `OPExp_` -/
  | exp
  /-- `OPLog_` -/
  | log
  /-- `OPSqrt_` -/
  | sqrt
  /-- `OPFabs_` -/
  | fabs
  /-- `OPNormalDens_` -/
  | npdf
  /-- `OPNormalCdf_` -/
  | ncdf
  /-- `OPErfc_` -/
  | erfc
  /-- `OPMultD_` -/
  | multD
  /-- `OPAddD_` -/
  | addD
  /-- `OPSubDL_` -/
  | subDL
  /-- `OPSubDR_` -/
  | subDR
  /-- `OPDivDL_` -/
  | divDL
  /-- `OPDivDR_` -/
  | divDR
  /-- `OPPowDL_` -/
  | powDL
  /-- `OPPowDR_` -/
  | powDR
  /-- `OPMaxD_` -/
  | maxD
  /-- `OPMinD_` -/
  | minD

/-- `Eval`. -/
noncomputable def UOp.eval (lib : Lib) : UOp → ℝ → ℝ → ℝ
  | .exp, r, _ => Real.exp r
  | .log, r, _ => Real.log r
  | .sqrt, r, _ => Real.sqrt r
  | .fabs, r, _ => |r|
  | .npdf, r, _ => Adj.npdf r
  | .ncdf, r, _ => lib.ncdf r
  | .erfc, r, _ => lib.erfc r
  | .multD, r, d => r * d
  | .addD, r, d => r + d
  | .subDL, r, d => d - r
  | .subDR, r, d => r - d
  | .divDL, r, d => d / r
  | .divDR, r, d => r / d
  | .powDL, r, d => d ^ r
  | .powDR, r, d => r ^ d
  | .maxD, r, d => max r d
  | .minD, r, d => min r d

/-- `Derivative`. -/
noncomputable def UOp.der : UOp → ℝ → ℝ → ℝ → ℝ
  | .exp, _, v, _ => v
  | .log, r, _, _ => 1 / r
  | .sqrt, _, v, _ => 0.5 / v
  | .fabs, r, _, _ => if r > 0 then 1 else -1
  | .npdf, r, v, _ => -r * v
  | .ncdf, r, _, _ => Adj.npdf r
  | .erfc, r, _, _ => -1.12837916709551 * Real.exp (-r * r)
  | .multD, _, _, d => d
  | .addD, _, _, _ => 1
  | .subDL, _, _, _ => -1
  | .subDR, _, _, _ => 1
  | .divDL, r, _, d => -d / r / r
  | .divDR, _, _, d => 1 / d
  | .powDL, _, v, d => Real.log d * v
  | .powDR, r, v, d => d * v / r
  | .maxD, r, _, d => if r > d then 1 else 0
  | .minD, r, _, d => if r < d then 1 else 0

/-- The operators with two expressions, expr.hpp:42-96. -/
inductive BOp where
  /-- `OPMult_` -/
  | mult
  /-- `OPAdd_` -/
  | add
  /-- `OPSub_` -/
  | sub
  /-- `OPDiv_` -/
  | div
  /-- `OPPow_` -/
  | pow
  /-- `OPMax_` -/
  | max
  /-- `OPMin_` -/
  | min

/-- `Eval`. -/
noncomputable def BOp.eval : BOp → ℝ → ℝ → ℝ
  | .mult, l, r => l * r
  | .add, l, r => l + r
  | .sub, l, r => l - r
  | .div, l, r => l / r
  | .pow, l, r => l ^ r
  | .max, l, r => Max.max l r
  | .min, l, r => Min.min l r

/-- `LeftDerivative`. -/
noncomputable def BOp.left : BOp → ℝ → ℝ → ℝ → ℝ
  | .mult, _, r, _ => r
  | .add, _, _, _ => 1
  | .sub, _, _, _ => 1
  | .div, _, r, _ => 1 / r
  | .pow, l, r, v => r * v / l
  | .max, l, r, _ => if l > r then 1 else 0
  | .min, l, r, _ => if l < r then 1 else 0

/-- `RightDerivative`. -/
noncomputable def BOp.right : BOp → ℝ → ℝ → ℝ → ℝ
  | .mult, l, _, _ => l
  | .add, _, _, _ => 1
  | .sub, _, _, _ => -1
  | .div, l, r, _ => -l / r / r
  | .pow, l, _, v => Real.log l * v
  | .max, l, r, _ => if r > l then 1 else 0
  | .min, l, r, _ => if r < l then 1 else 0

/-- An expression: `Number_` leaves by the position of their node, `UnaryExpression_` with its double, `BinaryExpression_`. -/
inductive Ex where
  /-- a `Number_` -/
  | num (i : Nat)
  /-- `UnaryExpression_`, lines 141-163 -/
  | un (op : UOp) (d : ℝ) (e : Ex)
  /-- `BinaryExpression_`, lines 18-40 -/
  | bin (op : BOp) (a b : Ex)

/-- `value()`; `env` are the values of the numbers. -/
noncomputable def Ex.value (lib : Lib) (env : Nat → ℝ) : Ex → ℝ
  | .num i => env i
  | .un op d e => op.eval lib (e.value lib env) d
  | .bin op a b => op.eval (a.value lib env) (b.value lib env)

/-- A node: `pAdjPtrs_` and `pDerivatives_` side by side. -/
abbrev Node := List (Nat × ℝ)

/-- `PushAdjoint`, lines 33-39, 159-162 and 487-490. -/
noncomputable def Ex.push (lib : Lib) (env : Nat → ℝ) : Ex → ℝ → Node
  | .num i, adj => [(i, adj)]
  | .un op d e, adj => e.push lib env (adj * op.der (e.value lib env) (op.eval lib (e.value lib env) d) d)
  | .bin op a b, adj =>
    let l := a.value lib env
    let r := b.value lib env
    a.push lib env (adj * op.left l r (op.eval l r)) ++ b.push lib env (adj * op.right l r (op.eval l r))

/-- What records a node: a `Number_` from a double (or put on the tape), lines 494-502 and 517, or from an expression, lines 504-515. -/
inductive Stmt where
  /-- from a double -/
  | leaf (v : ℝ)
  /-- from an expression -/
  | expr (e : Ex)

/-- The value of the new number. -/
noncomputable def Stmt.value (lib : Lib) (env : Nat → ℝ) : Stmt → ℝ
  | .leaf v => v
  | .expr e => e.value lib env

/-- The node recorded. -/
noncomputable def Stmt.node (lib : Lib) (env : Nat → ℝ) : Stmt → Node
  | .leaf _ => []
  | .expr e => e.push lib env 1

/-- The values of all numbers after a program that starts at position `k`. -/
noncomputable def values (lib : Lib) : List Stmt → Nat → (Nat → ℝ) → (Nat → ℝ)
  | [], _, env => env
  | s :: p, k, env => values lib p (k + 1) (Function.update env k (s.value lib env))

/-- The nodes recorded. -/
noncomputable def nodes (lib : Lib) : List Stmt → Nat → (Nat → ℝ) → List Node
  | [], _, _ => []
  | s :: p, k, env => s.node lib env :: nodes lib p (k + 1) (Function.update env k (s.value lib env))

/-- The loop of `PropagateOne`, node.hpp:45-46, for the node at position `i`. -/
noncomputable def spread (i : Nat) : Node → (Nat → ℝ) → (Nat → ℝ)
  | [], adj => adj
  | (j, d) :: r, adj => spread i r (Function.update adj j (adj j + adj i * d))

/-- `PropagateOne`, node.hpp:41-47; `eps` is `EPSILON`. -/
noncomputable def propagateOne (eps : ℝ) (i : Nat) (nd : Node) (adj : Nat → ℝ) : Nat → ℝ :=
  if nd = [] ∨ |adj i| ≤ eps then adj else spread i nd adj

/-- The loops of `PropagateAdjoints`, expr.hpp:530-548: from position `i` down, `count` steps; `none` is going before the start. -/
noncomputable def down (eps : ℝ) (tape : List Node) : Nat → Nat → (Nat → ℝ) → Option (Nat → ℝ)
  | count, i, adj =>
    match tape[i]? with
    | none => none
    | some nd =>
      match count, i with
      | 0, _ => some (propagateOne eps i nd adj)
      | _ + 1, 0 => none
      | count + 1, i + 1 => down eps tape count i (propagateOne eps (i + 1) nd adj)

/-- `PropagateAdjoints(from, to)`; going down from below `to` never meets it and leaves the tape. -/
noncomputable def propagate (eps : ℝ) (tape : List Node) (start stop : Nat) (adj : Nat → ℝ) : Option (Nat → ℝ) :=
  if start < stop then none else down eps tape (start - stop) start adj

/-- `Number_::PropagateAdjoints(to)` of the number at position `r`, expr.hpp:539-548. -/
noncomputable def propagateFrom (eps : ℝ) (tape : List Node) (r stop : Nat) (adj : Nat → ℝ) : Option (Nat → ℝ) :=
  propagate eps tape r stop (Function.update adj r 1)

/-- One path of a simulation, simulation.hpp:208-218: after rewinding to the mark at position `m`, `p` records new nodes there (their
adjoints start at zero, node.hpp:22), and the number at position `r` is propagated to the mark. -/
noncomputable def onePath (lib : Lib) (eps : ℝ) (base : List Node) (env : Nat → ℝ) (p : List Stmt) (r : Nat) (adj : Nat → ℝ) :
    Option (Nat → ℝ) :=
  propagateFrom eps (base ++ nodes lib p base.length env) r base.length (fun k => if k < base.length then adj k else 0)

/-- All paths, each with its position of the result. -/
noncomputable def paths (lib : Lib) (eps : ℝ) (base : List Node) (env : Nat → ℝ) : List (List Stmt × Nat) → (Nat → ℝ) → Option (Nat → ℝ)
  | [], adj => some adj
  | (p, r) :: rest, adj => (onePath lib eps base env p r adj).bind (paths lib eps base env rest)

/-- The whole simulation, simulation.hpp:205-221: paths, then `PropagateMarkToStart`, expr.hpp:558-560. -/
noncomputable def simulate (lib : Lib) (eps : ℝ) (base : List Node) (env : Nat → ℝ) (ps : List (List Stmt × Nat)) : Option (Nat → ℝ) :=
  (paths lib eps base env ps (fun _ => 0)).bind fun adj =>
    if base.length = 0 then none else propagate eps base (base.length - 1) 0 adj

end Dal.Adj
