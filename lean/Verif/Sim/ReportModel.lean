import Verif.Sim.FuzzyTapeModel
import Verif.Sim.NoiseModel
import Verif.Sim.ValueModel
import Verif.Sim.ResultModel
import Verif.Script.DomainModel
import Verif.Script.CondModel
import Verif.Script.GradientModel
import Verif.Script.ParserModel

/-!
# A valuation with sensitivities, from the events of a product to the table

Source: `public/src/value.cpp`, `dal/script/event.cpp`, `dal/script/simulation.hpp`.

The parts are modelled elsewhere: the indexer and the `IF` processor in `Script/IndexModel.lean`, the domains in `Script/DomainModel.lean`, the removal of constant conditions in
`Script/CondModel.lean`, the simulation of a task on the tape in `Sim/FuzzyTapeModel.lean`, the positions of the generators in `Sim/NoiseModel.lean`, the table in
`Sim/ValueModel.lean`. This file puts them together in the order of `ValueByMonteCarlo` with `enable_aad`.

Simplifications: doubles are real numbers; products without past events, so that all variables start from zero; the Black–Scholes model; pseudo-random numbers without a Brownian
bridge (the numbers of the stream are a parameter); the order in which the tasks run and their threads are a parameter.
-/

namespace Dal.Report
open Dal.Script Dal.TapeRun Dal.Noise

/-- What `PreProcess` leaves in a product (`event.hpp` 60–75). -/
structure Prepared where
  vars : List (Option (List Char))
  consts : List (List Char)
  values : List ℝ
  payoff : Nat
  events : List (Stmts Nat ℝ)
  nested : Nat

/-- Entries of a vector that has been written in full. -/
def filled {A : Type} : List (Option A) → Option (List A)
  | [] => some []
  | none :: _ => none
  | some a :: l => (filled l).map (a :: ·)

/-- `PreProcess` (`event.cpp` 133–146) as `ValueByMonteCarlo` calls it, with `fuzzy` or with `skip_domain` false: indexing, the `IF` processor, the domains and the removal of constant
conditions. `none` is an exception, or a product without variables. -/
noncomputable def prepare (fuzzy : Bool) (payoff : List Char) (cval : List Char → ℝ) (prog : List (PStmts ℝ)) : Option Prepared :=
  let x := (⟨[], []⟩ : Indexer (List Char) ℝ).events cval prog
  match payoffIdx payoff x.1.varNames, filled x.1.constNames, filled x.1.constValues with
  | some i, some names, some values =>
    let y := ifEvents {} x.2
    match domEvents realOps fuzzy y.2 domInit with
    | none => none
    | some d => some ⟨x.1.varNames, names, values, i, d.1.map ccSs, y.1.maxLvl⟩
  | _, _, _ => none

/-- The time line of the product (`event.cpp` 150–153), in years from the evaluation date. -/
noncomputable def times (evaluationDate : Nat) (dates : List Nat) : List ℝ := dates.map fun (d : Nat) => (((d : Int) - evaluationDate : Int) : ℝ) / 365

/-- The numbers that the paths of a task see (`simulation.hpp` 196–202, 233): vectors of `n` numbers of the stream, one after the other from a position on. -/
def pathsFrom (n : Nat) (ω : Nat → ℝ) : Nat → Nat → List (Nat → ℝ)
  | 0, _ => []
  | k + 1, pos => (fun j => if j < n then ω (pos + j) else 0) :: pathsFrom n ω k (pos + n)

/-- `results.risks_[j] += …` and `results.aggregated_ += sumValue` (`simulation.hpp` 242–249 and 262–264). -/
noncomputable def addResult (x y : ℝ × List ℝ) : ℝ × List ℝ := (x.1 + y.1, List.zipWith (· + ·) x.2 y.2)

/-- A task on a thread (`simulation.hpp` 189–251): its own generator, its own tape, and the slot of the thread. -/
noncomputable def task (lib : Adj.Lib) (eps : ℝ) (p : Scripted) (b : Models.BS ℝ) (consts product : List ℝ) (nPaths : Nat) (gen : Gen) (n : Nat) (ω : Nat → ℝ)
    (slots : List (ℝ × List ℝ)) (e : (Int × Int) × Nat) : Option (List (ℝ × List ℝ)) :=
  match vSimulate lib eps p b consts product nPaths (pathsFrom n ω e.1.2.toNat (gen.skip n e.1.1.toNat 0)) with
  | none => none
  | some r => some (slots.modify e.2 (addResult · r))

/-- The tasks in the order in which they run. -/
noncomputable def runTasks (lib : Adj.Lib) (eps : ℝ) (p : Scripted) (b : Models.BS ℝ) (consts product : List ℝ) (nPaths : Nat) (gen : Gen) (n : Nat) (ω : Nat → ℝ) :
    List ((Int × Int) × Nat) → List (ℝ × List ℝ) → Option (List (ℝ × List ℝ))
  | [], slots => some slots
  | e :: ex, slots =>
    match task lib eps p b consts product nPaths gen n ω slots e with
    | none => none
    | some slots' => runTasks lib eps p b consts product nPaths gen n ω ex slots'

/-- `MCSimulation<AAD::Number_>`, not compiled (`simulation.hpp` 160–267); `n` is `SimDim()`, the number of steps of the time line. -/
noncomputable def simulation (lib : Adj.Lib) (eps : ℝ) (p : Scripted) (b : Models.BS ℝ) (consts product : List ℝ) (nPaths : Nat) (gen : Gen) (threads : Nat) (ex : List ((Int × Int) × Nat))
    (ω : Nat → ℝ) : Option (ℝ × List ℝ) :=
  match TimeLine.bsAllocate product with
  | none => none
  | some (line, _) =>
    let zero : ℝ × List ℝ := (0, List.replicate (4 + consts.length) 0)
    match runTasks lib eps p b consts product nPaths gen (line.length - 1) ω ex (List.replicate threads zero) with
    | none => none
    | some slots => some (slots.foldl addResult zero)

/-- `ValueByMonteCarlo` with `enable_aad` (`value.cpp` 22–39) for a Black–Scholes model: the rows of the table. -/
noncomputable def report (sgn : Bool) (lib : Adj.Lib) (cutoff epsilon smooth : ℝ) (payoff : List Char) (cval : List Char → ℝ) (prog : List (PStmts ℝ)) (evaluationDate : Nat) (dates : List Nat)
    (b : Models.BS ℝ) (nPaths : Nat) (gen : Gen) (threads : Nat) (ex : List ((Int × Int) × Nat)) (ω : Nat → ℝ) : Option (List (Strings.Str × Option ℝ)) :=
  match prepare true payoff cval prog with
  | none => none
  | some q =>
    Valued.valueTable sgn "BSModelData_".toList true nPaths (Results.bsLabels ++ q.consts) fun n =>
      simulation lib cutoff ⟨q.events, q.vars.map fun _ => 0, q.payoff, smooth, epsilon⟩ b q.values (times evaluationDate dates) n.toNat gen threads ex ω

end Dal.Report
