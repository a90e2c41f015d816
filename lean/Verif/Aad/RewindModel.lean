import Verif.Aad.AdjointModel

/-! # Model of a tape that is rewound to its start under numbers in use (examples/aad/aad.cpp)

`Rewind` (tape.cpp 36-42, blocklist.hpp 72-76) moves the place for the next node to the start of the tape; nodes recorded from there on are
constructed over older ones (`EmplaceBack`, blocklist.hpp 90-97), and a number that was recorded before keeps the address of its node.  In
AdjointModel a number is known by the position of its node and nodes are only appended, so here memory is by address and a number is a
value and an address.

Addresses are counted along the tape (C42: blocks do not matter).  Doubles are real numbers; `none` is undefined behaviour. -/

namespace Dal.Adj

/-- The tape: what is at each address, the adjoints, and the address of the next node. -/
structure Mem1 where
  /-- `pAdjPtrs_` and `pDerivatives_` by address -/
  node : Nat → Node
  /-- `adjoint_` by address -/
  adj : Nat → ℝ
  /-- `nextSpace_` -/
  next : Nat

/-- `Clear`, tape.cpp 22-27. -/
noncomputable def Mem1.clear : Mem1 := ⟨fun _ => [], fun _ => 0, 0⟩

/-- `Rewind`, tape.cpp 36-42. -/
def Mem1.rewind (t : Mem1) : Mem1 := { t with next := 0 }

/-- `RecordNode`, tape.hpp 39-51, by placement new: the adjoint is zero again (node.hpp 22). -/
noncomputable def Mem1.record (t : Mem1) (nd : Node) : Mem1 := ⟨Function.update t.node t.next nd, Function.update t.adj t.next 0, t.next + 1⟩

/-- Numbers made from doubles, expr.hpp 495, or put on the tape, expr.hpp 515: `count` nodes without arguments. -/
noncomputable def Mem1.leaves (t : Mem1) : Nat → Mem1
  | 0 => t
  | n + 1 => (t.record []).leaves n

/-- The numbers of a program: their values and addresses by the order of their definition. -/
structure Vars where
  /-- `value_` -/
  val : Nat → ℝ
  /-- `node_` -/
  loc : Nat → Nat

/-- A statement that defines number `k`, expr.hpp 495-513: the node points to the addresses of its arguments. -/
noncomputable def exec (lib : Lib) (s : Stmt) (k : Nat) (v : Vars) (t : Mem1) : Vars × Mem1 :=
  (⟨Function.update v.val k (s.value lib v.val), Function.update v.loc k t.next⟩, t.record ((s.node lib v.val).map fun a => (v.loc a.1, a.2)))

/-- A program whose first statement defines number `k`. -/
noncomputable def execAll (lib : Lib) : List Stmt → Nat → Vars → Mem1 → Vars × Mem1
  | [], _, v, t => (v, t)
  | s :: p, k, v, t => execAll lib p (k + 1) (exec lib s k v t).1 (exec lib s k v t).2

/-- The loop of `PropagateAdjoints`, expr.hpp 540-544, from an address down to the start. -/
noncomputable def sweep (eps : ℝ) (node : Nat → Node) : Nat → (Nat → ℝ) → (Nat → ℝ)
  | 0, adj => propagateOne eps 0 (node 0) adj
  | i + 1, adj => sweep eps node i (propagateOne eps (i + 1) (node (i + 1)) adj)

/-- `PropagateToStart` of number `r`, expr.hpp 537-549: `Find` looks for it among the nodes recorded since `Rewind`. -/
noncomputable def toStart (eps : ℝ) (r : Nat) (v : Vars) (t : Mem1) : Option Mem1 :=
  if v.loc r < t.next then some { t with adj := sweep eps t.node (v.loc r) (Function.update t.adj (v.loc r) 1) } else none

/-- A round of the example, aad.cpp 96-98: the value of the result and the tape. -/
noncomputable def rewindRound (lib : Lib) (eps : ℝ) (p : List Stmt) (k r : Nat) (v : Vars) (t : Mem1) : Option (ℝ × Mem1) :=
  let x := execAll lib p k v t.rewind
  (toStart eps r x.1 x.2).map fun t' => (x.1.val r, t')

/-- The rounds, aad.cpp 95-99: the last value. -/
noncomputable def rewindRounds (lib : Lib) (eps : ℝ) (p : List Stmt) (k r : Nat) (v : Vars) : Nat → ℝ → Mem1 → Option (ℝ × Mem1)
  | 0, last, t => some (last, t)
  | n + 1, _, t => (rewindRound lib eps p k r v t).bind fun x => rewindRounds lib eps p k r v n x.1 x.2

/-- The example, aad.cpp 77-112, for inputs and a program on them that defines the numbers behind the inputs: `Clear`, the inputs made from
doubles and then put on the tape again, the number for the result, the rounds; the value and the adjoints over the number of rounds. -/
noncomputable def rewindExample (lib : Lib) (eps : ℝ) (inputs : List ℝ) (p : List Stmt) (r rounds : Nat) : Option (ℝ × List ℝ) :=
  let n := inputs.length
  let t := (((Mem1.clear.leaves n).leaves n).leaves 1)
  let v : Vars := ⟨fun k => inputs.getD k 0, fun k => n + k⟩
  (rewindRounds lib eps p n r v rounds 0 t).map fun x => (x.1, (List.range n).map fun i => x.2.adj (n + i) / rounds)

/-- `BlackTest`, aad.cpp 20-30, of the forward, the volatility, the numeraire, the strike and the expiry, numbers 0 to 4. -/
noncomputable def blackProgram (call : Bool) : List Stmt :=
  [.leaf 0,
   .expr (.bin .mult (.num 1) (.un .sqrt 0 (.num 4))),
   .expr (.bin .sub (.bin .div (.un .log 0 (.bin .div (.num 0) (.num 3))) (.num 6)) (.un .multD 0.5 (.num 6))),
   .expr (.bin .add (.num 7) (.num 6)),
   .expr (.bin .mult (.un .multD (if call then 1 else -1) (.num 2))
     (.bin .sub (.bin .mult (.un .multD 0.5 (.num 0)) (.un .erfc 0 (.un .divDR 1.4142135623730951 (.un .subDL 0 (.num 8)))))
       (.bin .mult (.un .multD 0.5 (.num 3)) (.un .erfc 0 (.un .divDR 1.4142135623730951 (.un .subDL 0 (.num 7))))))) ]

end Dal.Adj
