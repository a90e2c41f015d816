import Verif.Sim.TodayProps

/-!
# C105, C106 and C116: which simulations have no result

Specification: the run of the script on one path (`fuzzyPath`).
-/

namespace Dal
open Dal.Models Dal.TimeLine Dal.TapeRun Dal.Noise Dal.Report Dal.Seasoned

private theorem vPaths_none (lib : Adj.Lib) (eps : ℝ) (m : Nat) (p : Scripted) (bs : Base) (today : Bool) (g : Nat → ℝ) (hg : ∀ adj, vOne lib eps m p bs today g adj = none) :
    ∀ (gs : List (Nat → ℝ)) (sum : ℝ) (adj : Nat → ℝ), g ∈ gs → vPaths lib eps m p bs today gs sum adj = none := by
  intro gs
  induction gs with
  | nil => intro _ _ h; cases h
  | cons a gs ih =>
    intro sum adj h
    rw [vPaths]
    rcases List.mem_cons.1 h with rfl | h
    · rw [hg]
    · cases vOne lib eps m p bs today a adj with
      | none => rfl
      | some r => exact ih _ _ h

private theorem runTasks_iff (lib : Adj.Lib) (eps : ℝ) (p : Scripted) (b : BS ℝ) (consts product : List ℝ) (N : Nat) (gen : Gen) (n : Nat) (ω : Nat → ℝ) :
    ∀ (ex : List ((Int × Int) × Nat)) (slots : List (ℝ × List ℝ)), (∃ s, runTasks lib eps p b consts product N gen n ω ex slots = some s) ↔
      ∀ e ∈ ex, ∃ r, vSimulate lib eps p b consts product N (pathsFrom n ω e.1.2.toNat (gen.skip n e.1.1.toNat 0)) = some r := by
  intro ex
  induction ex with
  | nil => intro slots; exact ⟨fun _ e h => absurd h List.not_mem_nil, fun _ => ⟨slots, rfl⟩⟩
  | cons a ex ih =>
    intro slots
    rw [List.forall_mem_cons, runTasks, task]
    cases vSimulate lib eps p b consts product N (pathsFrom n ω a.1.2.toNat (gen.skip n a.1.1.toNat 0)) with
    | none => simp
    | some r => simpa using ih (slots.modify a.2 (addResult · r))

/-- The tasks decide: a simulation has a result exactly when each of its tasks has one, whatever the order and the threads. -/
private theorem simulation_iff (lib : Adj.Lib) (eps : ℝ) (p : Scripted) (b : BS ℝ) (today : Bool) (consts product : List ℝ) (hne : datesFrom today product ≠ []) (hpos : ∀ t ∈ product, 0 < t)
    (N threads : Nat) (gen : Gen) (ex : List ((Int × Int) × Nat)) (ω : Nat → ℝ) :
    (∃ res, simulation lib eps p b consts (datesFrom today product) N gen threads ex ω = some res) ↔
      ∀ e ∈ ex, ∃ r, vSimulate lib eps p b consts (datesFrom today product) N (pathsFrom product.length ω e.1.2.toNat (gen.skip product.length e.1.1.toNat 0)) = some r := by
  rw [← runTasks_iff lib eps p b consts (datesFrom today product) N gen product.length ω ex (List.replicate threads (0, List.replicate (4 + consts.length) 0)), simulation, allocate_from today hne hpos]
  dsimp only
  rw [show (0 :: product).length - 1 = product.length by simp]
  cases runTasks lib eps p b consts (datesFrom today product) N gen product.length ω ex (List.replicate threads (0, List.replicate (4 + consts.length) 0)) with
  | none => simp
  | some s => simp

/-- One task has a result exactly when the script can be run on each of its paths. -/
private theorem simulate_iff (lib : Adj.Lib) (F : Nat → Prop) (p : Scripted) (today : Bool) (ho : ∀ e ∈ p.events, OwnSs True F e) (ho0 : today = true → ∀ e ∈ p.events.head?, OwnSs False F e)
    (hF : F p.payoff) (b : BS ℝ) (hspot : today = true → 0 < b.spot) (consts product : List ℝ) (hne : datesFrom today product ≠ [])
    (hp : product.IsChain (· < ·)) (hpos : ∀ t ∈ product, 0 < t) (N : Nat) (hN : 0 < N) (gs : List (Nat → ℝ)) (cutoff : ℝ) (hc : 0 ≤ cutoff) :
    (∃ r, vSimulate lib cutoff p b consts (datesFrom today product) N gs = some r) ↔ ∀ g ∈ gs, ∃ v, fuzzyPath p (fun k => consts.getD k 0) b (datesFrom today product) g = some v := by
  refine ⟨?_, fun hv => ?_⟩
  · rintro ⟨r, hr⟩ g hg
    by_contra hv
    have hn : fuzzyPath p (fun k => consts.getD k 0) b (datesFrom today product) g = none := Option.eq_none_iff_forall_ne_some.2 fun v hv' => hv ⟨v, hv'⟩
    rw [fuzzyPath_from today p _ b hspot product hne hp hpos g, runFuzzy_v 0, Option.map_eq_none_iff] at hn
    have hev := vEvaluate_spec lib 0 F p b consts product (by omega) today ho ho0 g
    rw [vSimulate, allocate_from today hne hpos] at hr
    dsimp only [List.headD_cons] at hr
    rw [vPaths_none lib cutoff _ p _ today g (fun adj => ?_) _ _ _ hg] at hr
    · cases hr
    · rw [vOne]
      cases he : vEvaluate lib p.defEps p.eps consts.length p.vars (p.events.zip (tScenario lib (base lib b consts (0 :: product) (datesFrom today product)) today g).2)
          (tScenario lib (base lib b consts (0 :: product) (datesFrom today product)) today g).1 with
      | none => rfl
      | some r =>
        rw [he] at hev
        dsimp only at hev
        rw [hn] at hev
        cases hev.1
  · obtain ⟨deriv, B, -, h2⟩ := risks_from lib F p today ho ho0 hF b hspot consts product hne hp hpos N hN gs
      (fun g => (fuzzyPath p (fun k => consts.getD k 0) b (datesFrom today product) g).getD 0) fun g hg => by
        obtain ⟨v, hv⟩ := hv g hg
        rw [hv]; rfl
    obtain ⟨risks, h3, -⟩ := h2 cutoff hc
    exact ⟨_, h3⟩

/-- C105, with or without an event today: the tasks together have a result exactly when the script can be run on every path of every task. -/
theorem C105_refused (lib : Adj.Lib) (F : Nat → Prop) (p : Scripted) (today : Bool) (ho : ∀ e ∈ p.events, OwnSs True F e) (ho0 : today = true → ∀ e ∈ p.events.head?, OwnSs False F e)
    (hF : F p.payoff) (b : BS ℝ) (hspot : today = true → 0 < b.spot) (consts product : List ℝ) (hne : datesFrom today product ≠ [])
    (hp : product.IsChain (· < ·)) (hpos : ∀ t ∈ product, 0 < t) (N : Nat) (hN : 0 < N) (tasks : List (List (Nat → ℝ))) (cutoff : ℝ) (hc : 0 ≤ cutoff) :
    (∃ res, vTasks lib cutoff p b consts (datesFrom today product) N tasks = some res) ↔
      ∀ gs ∈ tasks, ∀ g ∈ gs, ∃ v, fuzzyPath p (fun k => consts.getD k 0) b (datesFrom today product) g = some v := by
  induction tasks with
  | nil => exact ⟨fun _ gs h => absurd h List.not_mem_nil, fun _ => ⟨_, rfl⟩⟩
  | cons gs tasks ih =>
    rw [List.forall_mem_cons, ← ih, ← simulate_iff lib F p today ho ho0 hF b hspot consts product hne hp hpos N hN gs cutoff hc, vTasks]
    cases vSimulate lib cutoff p b consts (datesFrom today product) N gs with
    | none => simp
    | some x =>
      cases vTasks lib cutoff p b consts (datesFrom today product) N tasks with
      | none => simp
      | some y => simp

/-- C106, with or without an event today: a simulation with adjoints has a result exactly when the script can be run on every path of every task. -/
theorem C106_refused (lib : Adj.Lib) (F : Nat → Prop) (p : Scripted) (today : Bool) (ho : ∀ e ∈ p.events, OwnSs True F e) (ho0 : today = true → ∀ e ∈ p.events.head?, OwnSs False F e)
    (hF : F p.payoff) (b : BS ℝ) (hspot : today = true → 0 < b.spot) (consts product : List ℝ) (hne : datesFrom today product ≠ [])
    (hp : product.IsChain (· < ·)) (hpos : ∀ t ∈ product, 0 < t) (N threads : Nat) (hN : 0 < N) (gen : Gen) (ex : List ((Int × Int) × Nat)) (ω : ℕ → ℝ) (cutoff : ℝ) (hc : 0 ≤ cutoff) :
    (∃ res, simulation lib cutoff p b consts (datesFrom today product) N gen threads ex ω = some res) ↔
      ∀ e ∈ ex, ∀ g ∈ pathsFrom product.length ω e.1.2.toNat (gen.skip product.length e.1.1.toNat 0), ∃ v, fuzzyPath p (fun k => consts.getD k 0) b (datesFrom today product) g = some v := by
  rw [simulation_iff lib cutoff p b today consts product hne hpos N threads gen ex ω]
  exact forall₂_congr fun e _ => simulate_iff lib F p today ho ho0 hF b hspot consts product hne hp hpos N hN _ cutoff hc

/-- C116, a payoff that is the spot of today: no simulation with adjoints has a result, whatever the tasks and threads, if a task has a path. -/
theorem C116_simulation_violated (lib : Adj.Lib) (eps defEps sEps : ℝ) (b : BS ℝ) (hb : 0 < b.spot) (N threads : Nat) (gen : Gen) (ex : List ((Int × Int) × Nat)) (ω : ℕ → ℝ)
    (h : ∃ e ∈ ex, 0 < e.1.2) : simulation lib eps ⟨[.cons (.assign ⟨0, false⟩ .spot) .nil], [0], 0, defEps, sEps⟩ b [] [0] N gen threads ex ω = none := by
  obtain ⟨e, he, hpos⟩ := h
  refine Option.eq_none_iff_forall_ne_some.2 fun res hres => ?_
  obtain ⟨r, hr⟩ := (simulation_iff lib eps _ b true [] [] (by simp [datesFrom]) (by simp) N threads gen ex ω).1 ⟨res, hres⟩ e he
  obtain ⟨k, hk⟩ : ∃ k, e.1.2.toNat = k + 1 := ⟨e.1.2.toNat - 1, by omega⟩
  rw [hk, pathsFrom, show datesFrom true [] = [0] from rfl, (C116_spot_violated lib eps defEps sEps b hb N _ _).2] at hr
  cases hr

/-- A table has been made from a product that could be prepared and a simulation that has a result. -/
theorem C106_report_refused (sgn : Bool) (lib : Adj.Lib) (cutoff epsilon smooth : ℝ) (payoff : List Char) (cval : List Char → ℝ) (prog : List (Script.PStmts ℝ)) (evaluationDate : Nat) (dates : List Nat)
    (b : BS ℝ) (nPaths : Nat) (gen : Gen) (threads : Nat) (ex : List ((Int × Int) × Nat)) (ω : Nat → ℝ) (rows : List (Strings.Str × Option ℝ))
    (h : report sgn lib cutoff epsilon smooth payoff cval prog evaluationDate dates b nPaths gen threads ex ω = some rows) :
    ∃ q, prepare true payoff cval prog = some q ∧
      ∃ res, simulation lib cutoff ⟨q.events, q.vars.map fun _ => 0, q.payoff, smooth, epsilon⟩ b q.values (times evaluationDate dates) nPaths gen threads ex ω = some res := by
  rw [report] at h
  cases hq : prepare true payoff cval prog with
  | none => rw [hq] at h; cases h
  | some q =>
    rw [hq] at h
    refine ⟨q, rfl, ?_⟩
    cases hs : simulation lib cutoff ⟨q.events, q.vars.map fun _ => 0, q.payoff, smooth, epsilon⟩ b q.values (times evaluationDate dates) nPaths gen threads ex ω with
    | some res => exact ⟨res, rfl⟩
    | none =>
      dsimp only at h
      rw [(C96_model sgn _ true nPaths _ _).2.1 (by rw [Int.toNat_natCast]; exact hs)] at h
      cases h

private theorem report_all_none (sgn : Bool) (lib : Adj.Lib) (cutoff epsilon smooth : ℝ) (payoff : List Char) (cval : List Char → ℝ) (past future : List (Script.PStmts ℝ)) (evaluationDate : Nat)
    (dates : List Nat) (b : BS ℝ) (nPaths : Nat) (gen : Gen) (threads : Nat) (ex : List ((Int × Int) × Nat)) (ω : Nat → ℝ) (h : prepareAll true payoff cval past future = none) :
    reportAll sgn lib cutoff epsilon smooth payoff cval past future evaluationDate dates b nPaths gen threads ex ω = none := by
  rw [reportAll, h]

private theorem no_events (cval : List Char → ℝ) : ∀ (prog : List (Script.PStmts ℝ)), (∀ ev ∈ prog, ev = .nil) →
    ((⟨[], []⟩ : Script.Indexer (List Char) ℝ).events cval prog).1.varNames = [] := by
  intro prog h
  rw [show prog = List.replicate prog.length .nil from List.eq_replicate_of_mem h]
  generalize prog.length = n
  have key : ∀ n, ((⟨[], []⟩ : Script.Indexer (List Char) ℝ).events cval (List.replicate n .nil)).1 = ⟨[], []⟩ := by
    intro n
    induction n with
    | zero => rfl
    | succ n ih => exact ih
  rw [key]; rfl

/-- A product whose events are all empty has no defined table, with past events or without: there is no payoff, and its index is -1. -/
theorem C111_no_events (sgn : Bool) (lib : Adj.Lib) (cutoff epsilon smooth : ℝ) (payoff : List Char) (cval : List Char → ℝ) (past future : List (Script.PStmts ℝ)) (hpast : ∀ ev ∈ past, ev = .nil)
    (hfuture : ∀ ev ∈ future, ev = .nil) (evaluationDate : Nat) (dates : List Nat) (b : BS ℝ) (nPaths : Nat) (gen : Gen) (threads : Nat) (ex : List ((Int × Int) × Nat)) (ω : Nat → ℝ) :
    reportAll sgn lib cutoff epsilon smooth payoff cval past future evaluationDate dates b nPaths gen threads ex ω = none ∧
    report sgn lib cutoff epsilon smooth payoff cval future evaluationDate dates b nPaths gen threads ex ω = none := by
  have h1 := no_events cval (past ++ future) fun ev he => (List.mem_append.1 he).elim (hpast ev) (hfuture ev)
  have h2 := no_events cval future hfuture
  have h3 : Script.payoffIdx payoff ([] : List (Option (List Char))) = none := rfl
  constructor
  · refine report_all_none sgn lib cutoff epsilon smooth payoff cval past future evaluationDate dates b nPaths gen threads ex ω ?_
    rw [prepareAll]
    dsimp only
    rw [h1, h3]
  · have h4 : prepare true payoff cval future = none := by
      rw [prepare]
      dsimp only
      rw [h2, h3]
    cases hr : report sgn lib cutoff epsilon smooth payoff cval future evaluationDate dates b nPaths gen threads ex ω with
    | none => rfl
    | some rows =>
      obtain ⟨q, hq, -⟩ := C106_report_refused _ _ _ _ _ _ _ _ _ _ _ _ _ _ _ _ rows hr
      rw [h4] at hq
      cases hq

/-! ### Examples -/

example (lib : Adj.Lib) (b : BS ℝ) (ω : ℕ → ℝ) : reportAll true lib 0 0 0 ['o', 'p', 't'] (fun _ => 0) [.nil] [.nil, .nil] 1000 [1365, 1730] b 20 .mrg 1 [((0, 20), 0)] ω = none :=
  (C111_no_events true lib 0 0 0 _ _ [.nil] [.nil, .nil] (by simp) (by simp) 1000 _ b 20 .mrg 1 _ ω).1

private noncomputable def refModel : BS ℝ := ⟨100, 0.03, 0.01, 0.2⟩

/-- A script that pays the spot, over two tasks: it can be run, so there is a result. -/
example (lib : Adj.Lib) (ω : ℕ → ℝ) :
    ∃ res, simulation lib 0 ⟨[.cons (.pays ⟨0, false⟩ .spot) .nil], [0], 0, 0, 0⟩ refModel [] (datesFrom false [1]) 20 .mrg 2 [((10, 10), 1), ((0, 10), 0)] ω = some res :=
  (C106_refused lib (fun _ => True) _ false (by simp [OwnSs, OwnS]) (by simp) trivial refModel (by simp) [] [1] (by simp [datesFrom]) (by simp) (by simp) 20 2 (by decide) .mrg _ ω 0 le_rfl).2
    fun e _ g _ => by
      rw [fuzzyPath_from false _ _ refModel (by simp) [1] (by simp [datesFrom]) (by simp) (by simp)]
      exact ⟨_, rfl⟩

example (lib : Adj.Lib) (ω : ℕ → ℝ) : simulation lib 0 ⟨[.cons (.assign ⟨0, false⟩ .spot) .nil], [0], 0, 0, 0⟩ refModel [] [0] 20 .mrg 1 [((0, 20), 0)] ω = none :=
  C116_simulation_violated lib 0 0 0 refModel (by norm_num [refModel]) 20 1 .mrg _ ω ⟨_, List.mem_singleton.2 rfl, by decide⟩

/-- The payment of the spot over two tasks of one and two paths. -/
example (lib : Adj.Lib) (g g' g'' : ℕ → ℝ) : ∃ res, vTasks lib 0 ⟨[.cons (.pays ⟨0, false⟩ .spot) .nil], [0], 0, 0, 0⟩ refModel [] (datesFrom false [1]) 3 [[g], [g', g'']] = some res :=
  (C105_refused lib (fun _ => True) _ false (by simp [OwnSs, OwnS]) (by simp) trivial refModel (by simp) [] [1] (by simp [datesFrom]) (by simp) (by simp) 3 (by decide) _ 0 le_rfl).2
    fun gs _ g _ => by
      rw [fuzzyPath_from false _ _ refModel (by simp) [1] (by simp [datesFrom]) (by simp) (by simp)]
      exact ⟨_, rfl⟩

end Dal
