import Verif.Sim.ReportModel
import Verif.Script.EvalStackModel

/-!
# Products with events in the past

Source: `dal/script/event.cpp` 74–84 and 103–156, `dal/script/visitor/pastevaluator.hpp`, `dal/script/simulation.hpp`.

As `Sim/ReportModel.lean`, for products some of whose dates are before the evaluation date.  The events in the past are indexed, analysed and evaluated once; they give the variables their
values at the start of every path.
-/

namespace Dal.Seasoned
open Dal.Script Dal.Report Dal.TapeRun Dal.Noise

/-- The loop over the dated texts (`event.cpp` 76–84), which are in order of their dates: the dates from the evaluation date on, and the dates before it. -/
def split {A : Type} (today : Nat) : List (Nat × A) → List (Nat × A) × List (Nat × A)
  | [] => ([], [])
  | e :: l =>
    let r := split today l
    if today ≤ e.1 then (r.1, e :: r.2) else (e :: r.1, r.2)

/-- What an event in the past sees (`pastevaluator.hpp` 27–30): every spot is 30.  There is no numeraire, as nothing is paid (22–25). -/
noncomputable def pastSample : Sample ℝ := ⟨30, 1⟩

/-- What `PreProcess` leaves: the events to come, and `variableValues_` (`event.cpp` 135). -/
structure Ready where
  product : Prepared
  start : List ℝ

/-- `PreProcess` (`event.cpp` 133–146) as `ValueByMonteCarlo` calls it: indexing of all events (86–101), evaluation of those in the past (103–107), the `IF` processor and the domains of all
events (109–119), the removal of constant conditions from those to come (126–131).  `none` is an exception, a product without variables, or more numbers on the stack than it can hold. -/
noncomputable def prepareAll (fuzzy : Bool) (payoff : List Char) (cval : List Char → ℝ) (past future : List (PStmts ℝ)) : Option Ready :=
  let x := (⟨[], []⟩ : Indexer (List Char) ℝ).events cval (past ++ future)
  match payoffIdx payoff x.1.varNames, filled x.1.constNames, filled x.1.constValues with
  | some i, some names, some values =>
    match pastEvaluateSt realOps (fun k => values.getD k 0) pastSample (x.2.take past.length) with
    | none => none
    | some σ =>
      let y := ifEvents {} x.2
      match domEvents realOps fuzzy y.2 domInit with
      | none => none
      | some d => some ⟨⟨x.1.varNames, names, values, i, (d.1.drop past.length).map ccSs, y.1.maxLvl⟩, (List.range x.1.varNames.length).map σ⟩
  | _, _, _ => none

/-- What is simulated: `BuildFuzzyEvaluator` (`event.hpp` 76–81) hands over the values at the start. -/
noncomputable def Ready.scripted (r : Ready) (smooth eps : ℝ) : Scripted := ⟨r.product.events, r.start, r.product.payoff, smooth, eps⟩

/-- `ValueByMonteCarlo` with `enable_aad` (`value.cpp` 22–39) for a Black–Scholes model: the rows of the table. -/
noncomputable def reportAll (sgn : Bool) (lib : Adj.Lib) (cutoff epsilon smooth : ℝ) (payoff : List Char) (cval : List Char → ℝ) (past future : List (PStmts ℝ)) (evaluationDate : Nat)
    (dates : List Nat) (b : Models.BS ℝ) (nPaths : Nat) (gen : Gen) (threads : Nat) (ex : List ((Int × Int) × Nat)) (ω : Nat → ℝ) : Option (List (Strings.Str × Option ℝ)) :=
  match prepareAll true payoff cval past future with
  | none => none
  | some r =>
    Valued.valueTable sgn "BSModelData_".toList true nPaths (Results.bsLabels ++ r.product.consts) fun n =>
      simulation lib cutoff (r.scripted smooth epsilon) b r.product.values (times evaluationDate dates) n.toNat gen threads ex ω

end Dal.Seasoned
