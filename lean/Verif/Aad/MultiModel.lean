import Verif.Aad.AdjointModel

/-! # Model of the multi-result mode of the adjoint tape (dal/math/aad/aad.hpp, tape.hpp, tape.cpp, node.hpp, expr.hpp)

Doubles are real numbers, nodes are known by their positions (C42), as in `AdjointModel`.  In addition each node has the array
`pAdjoints_`, present only if it was recorded in the multi-result mode, and `pAdjPtrs_` point either to the `adjoint_` or to the
`pAdjoints_` of an argument, depending on the mode at recording.  Reading or writing through a null pointer, or beyond an array, is `none`. -/

namespace Dal.Adj

/-- The statics `Tape_::multi_`, tape.hpp:26, and `TapNode_::numAdj_`, node.hpp:20. -/
structure Mode where
  /-- `multi_` -/
  multi : Bool
  /-- `numAdj_` -/
  num : Nat
deriving DecidableEq

/-- `SetNumResultsForAAD`, aad.hpp:25-29: it overwrites both, whatever they were. -/
def setNumResults (multi : Bool) (num : Nat) (_ : Mode) : Mode := ⟨multi, num⟩

/-- `~NumResultsResetterForAAD_`, aad.hpp:19-22. -/
def releaseResults (_ : Mode) : Mode := ⟨false, 1⟩

/-- Where an entry of `pAdjPtrs_` points. -/
inductive Slot where
  /-- null -/
  | null
  /-- `&node->adjoint_` -/
  | one (k : Nat)
  /-- `node->pAdjoints_` -/
  | many (k : Nat)

/-- A node, node.hpp:19-25: the length of `pAdjoints_` (zero if it is null), and `pAdjPtrs_` with `pDerivatives_`. -/
structure MNode where
  /-- length of `pAdjoints_` -/
  room : Nat
  /-- arguments -/
  args : List (Slot × ℝ)

/-- The adjoints of all nodes. -/
structure Mem where
  /-- `adjoint_` -/
  one : Nat → ℝ
  /-- `pAdjoints_` -/
  many : Nat → Nat → ℝ

/-- The pointer taken by `Number_::PushAdjoint`, expr.hpp:487-490. -/
def slot (md : Mode) (base : List MNode) (k : Nat) : Slot :=
  if md.multi then
    match base[k]? with
    | none => .null
    | some nd => if nd.room = 0 then .null else .many k
  else .one k

/-- `RecordNode`, tape.hpp:39-51, and `PushAdjoint` of the arguments. -/
def record (md : Mode) (base : List MNode) (nd : Node) : List MNode :=
  base ++ [⟨if md.multi then md.num else 0, nd.map fun a => (slot md base a.1, a.2)⟩]

/-- Many nodes in the same mode. -/
def recordAll (md : Mode) (base : List MNode) (nds : List Node) : List MNode := nds.foldl (record md) base

/-- `Tape_::ResetAdjoints`, tape.cpp:12-19. -/
def resetAdjoints (md : Mode) (m : Mem) : Mem := if md.multi then { m with many := fun _ _ => 0 } else { m with one := fun _ => 0 }

/-- The loop of `PropagateOne`, node.hpp:45-46, for the node at `i`; through a pointer to `pAdjoints_` it reaches the first entry. -/
noncomputable def spreadOne (i : Nat) : List (Slot × ℝ) → Mem → Option Mem
  | [], m => some m
  | (.null, _) :: _, _ => none
  | (.one k, d) :: r, m => spreadOne i r { m with one := Function.update m.one k (m.one k + m.one i * d) }
  | (.many k, d) :: r, m =>
    spreadOne i r { m with many := Function.update m.many k (Function.update (m.many k) 0 (m.many k 0 + m.one i * d)) }

/-- `PropagateOne`, node.hpp:41-47. -/
noncomputable def stepOne (eps : ℝ) (i : Nat) (nd : MNode) (m : Mem) : Option Mem :=
  if nd.args = [] ∨ |m.one i| ≤ eps then some m else spreadOne i nd.args m

/-- The loops of `PropagateAll`, node.hpp:53-58; a pointer to the single `adjoint_` has no room for an array. -/
noncomputable def spreadAll (num i : Nat) : List (Slot × ℝ) → Mem → Option Mem
  | [], m => some m
  | (.many k, d) :: r, m =>
    spreadAll num i r { m with many := Function.update m.many k fun j => if j < num then m.many k j + d * m.many i j else m.many k j }
  | (_, _) :: _, _ => none

open Classical in
/-- `PropagateAll`, node.hpp:49-59. -/
noncomputable def stepAll (num : Nat) (eps : ℝ) (i : Nat) (nd : MNode) (m : Mem) : Option Mem :=
  if nd.args = [] then some m
  else if nd.room < num then none
  else if ∀ j < num, |m.many i j| ≤ eps then some m
  else spreadAll num i nd.args m

/-- The loops going down the tape, expr.hpp:530-548 and 562-569. -/
noncomputable def descend (step : Nat → MNode → Mem → Option Mem) (tape : List MNode) : Nat → Nat → Mem → Option Mem
  | count, i, m =>
    match tape[i]? with
    | none => none
    | some nd =>
      match count, i with
      | 0, _ => step i nd m
      | _ + 1, 0 => none
      | count + 1, i + 1 => (step (i + 1) nd m).bind (descend step tape count i)

/-- `Number_::PropagateAdjointsMulti(from, to)`, expr.hpp:562-569. -/
noncomputable def propagateMulti (md : Mode) (eps : ℝ) (tape : List MNode) (start stop : Nat) (m : Mem) : Option Mem :=
  if start < stop then none else descend (stepAll md.num eps) tape (start - stop) start m

/-- `Number_::PropagateAdjoints(to)` of the number at `r`, expr.hpp:539-548, on a tape with both kinds of adjoints. -/
noncomputable def propagateSingle (eps : ℝ) (tape : List MNode) (r stop : Nat) (m : Mem) : Option Mem :=
  if r < stop then none else descend (stepOne eps) tape (r - stop) r { m with one := Function.update m.one r 1 }

end Dal.Adj
