import Verif.Sim.ReportModel

/-! # Compiled simulations with sensitivities over several tasks

What is modelled: `MCSimulation<AAD::Number_>` with `compiled` true (`dal/script/simulation.hpp` 160–267) for a Black–Scholes model: the tasks in any order, each with its own generator and tape, the
slots of the threads and their sum. As in `Verif/Sim/ReportModel.lean`, tasks run one after the other, since each writes to the slot of its own thread only. -/

namespace Dal.Report
open Dal.TapeRun Dal.Noise

/-- A compiled task on a thread (`simulation.hpp` 189–228 and 248–250). -/
noncomputable def cTask (lib : Adj.Lib) (eps : ℝ) (fuel : Nat) (p : TapeRun.Product) (b : Models.BS ℝ) (consts product : List ℝ) (nPaths : Nat) (gen : Gen) (n : Nat) (ω : Nat → ℝ)
    (slots : List (ℝ × List ℝ)) (e : (Int × Int) × Nat) : Option (List (ℝ × List ℝ)) :=
  match tSimulate lib eps fuel p b consts product nPaths (pathsFrom n ω e.1.2.toNat (gen.skip n e.1.1.toNat 0)) with
  | none => none
  | some r => some (slots.modify e.2 (addResult · r))

/-- The tasks in the order in which they run. -/
noncomputable def cTasks (lib : Adj.Lib) (eps : ℝ) (fuel : Nat) (p : TapeRun.Product) (b : Models.BS ℝ) (consts product : List ℝ) (nPaths : Nat) (gen : Gen) (n : Nat) (ω : Nat → ℝ) :
    List ((Int × Int) × Nat) → List (ℝ × List ℝ) → Option (List (ℝ × List ℝ))
  | [], slots => some slots
  | e :: ex, slots =>
    match cTask lib eps fuel p b consts product nPaths gen n ω slots e with
    | none => none
    | some slots' => cTasks lib eps fuel p b consts product nPaths gen n ω ex slots'

/-- `MCSimulation<AAD::Number_>`, compiled (`simulation.hpp` 160–267). -/
noncomputable def cSimulation (lib : Adj.Lib) (eps : ℝ) (fuel : Nat) (p : TapeRun.Product) (b : Models.BS ℝ) (consts product : List ℝ) (nPaths : Nat) (gen : Gen) (threads : Nat)
    (ex : List ((Int × Int) × Nat)) (ω : Nat → ℝ) : Option (ℝ × List ℝ) :=
  match TimeLine.bsAllocate product with
  | none => none
  | some (line, _) =>
    let zero : ℝ × List ℝ := (0, List.replicate (4 + consts.length) 0)
    match cTasks lib eps fuel p b consts product nPaths gen (line.length - 1) ω ex (List.replicate threads zero) with
    | none => none
    | some slots => some (slots.foldl addResult zero)

end Dal.Report
