import Verif.Sim.SnowballReportProps
import Verif.Sim.BarrierTableProps
import Verif.Sim.SnowballTableProps
import Verif.Sim.SeasonedProps

/-!
# C116: products whose first event is today

The simulations with adjoints of C105, C106, C110 and C114 for products whose first date is the evaluation date, as in `examples/script`, `examples/snowball` and `examples/uoc`. Today's spot is the
parameter itself, so that a variable with its number is not made on the path; a path needs one normal number less than the product has dates.

Specification: `smoothPath`, `fuzzyPath`, `simulated` as before, on the dates `0 :: rest`.
-/

namespace Dal
open Dal.Models Dal.TimeLine Dal.TapeRun Dal.Numeric Dal.Implied Dal.Noise Dal.Report Dal.Valued Dal.Strings Dal.Barrier

/-- C116, one task: with a positive spot, today first and then dates that rise strictly, if the payoff variable is only ever assigned numbers made on the path — which the spot of today is not — and the
script can be run on each path, the simulation with adjoints ends well; the sum is that of the payoffs and each risk, times the number of paths, is up to the cutoff the sum of the derivatives. -/
theorem C116_risks (lib : Adj.Lib) (F : Nat → Prop) (p : Scripted) (ho : ∀ e ∈ p.events, OwnSs True F e) (ho0 : ∀ e ∈ p.events.head?, OwnSs False F e) (hF : F p.payoff) (b : BS ℝ)
    (hb : 0 < b.spot) (consts rest : List ℝ) (hp : rest.IsChain (· < ·)) (hpos : ∀ t ∈ rest, 0 < t) (n : Nat) (hn : 0 < n) (gs : List (Nat → ℝ)) (value : (Nat → ℝ) → ℝ)
    (hv : ∀ g ∈ gs, fuzzyPath p (fun k => consts.getD k 0) b (0 :: rest) g = some (value g)) :
    ∃ (deriv : Nat → (Nat → ℝ) → ℝ) (B : Nat → ℝ), (∀ g ∈ gs, ∀ i, i < 4 + consts.length → smoothPath p (constDual i consts) (bsDual i b) (0 :: rest) g = some ⟨value g, deriv i g⟩) ∧
      ∀ eps, 0 ≤ eps → ∃ risks : List ℝ, vSimulate lib eps p b consts (0 :: rest) n gs = some ((gs.map value).sum, risks) ∧ risks.length = 4 + consts.length ∧
        ∀ (i : Nat) (r : ℝ), risks[i]? = some r → |r * n - (gs.map (deriv i)).sum| ≤ eps * B i :=
  risks_from lib F p true ho (fun _ => ho0) hF b (fun _ => hb) consts rest (by simp [datesFrom]) hp hpos n hn gs value hv

/-- C116, not so for a payoff that is the spot of today: the run has a value, the spot, but with adjoints the propagation starts below where it should stop. -/
theorem C116_spot_violated (lib : Adj.Lib) (eps defEps sEps : ℝ) (b : BS ℝ) (hb : 0 < b.spot) (n : Nat) (g : Nat → ℝ) (gs : List (Nat → ℝ)) :
    fuzzyPath ⟨[.cons (.assign ⟨0, false⟩ .spot) .nil], [0], 0, defEps, sEps⟩ (fun _ => 0) b [0] g = some b.spot ∧
    vSimulate lib eps ⟨[.cons (.assign ⟨0, false⟩ .spot) .nil], [0], 0, defEps, sEps⟩ b [] [0] n (g :: gs) = none := by
  have ha : bsAllocate [(0 : ℝ)] = some ([0], [true]) := by simp [bsAllocate]
  refine ⟨?_, ?_⟩
  · rw [show ([0] : List ℝ) = datesFrom true [] from rfl, fuzzyPath_from true _ _ b (fun _ => hb) [] (by simp [datesFrom]) (by simp) (by simp)]
    rfl
  · unfold vSimulate
    rw [ha]
    dsimp only
    rw [show ([true] : List Bool).headD false = true from rfl, vPaths]
    have hm : 0 < (base lib b [] [0] [0]).tape.nodes.length := (base_spec lib 0 b [] [0] [0] (by decide)).low
    have h : vOne lib eps ([] : List ℝ).length ⟨[.cons (.assign ⟨0, false⟩ .spot) .nil], [0], 0, defEps, sEps⟩ (base lib b [] [0] [0]) true g (fun _ => 0) = none := by
      have he : ∃ t, ∃ σ : Nat → Nat, vEvaluate lib defEps sEps ([] : List ℝ).length [0]
          (([.cons (.assign ⟨0, false⟩ .spot) .nil] : List (Script.Stmts Nat ℝ)).zip (tScenario lib (base lib b [] [0] [0]) true g).2)
          (tScenario lib (base lib b [] [0] [0]) true g).1 = some (t, σ) ∧ σ 0 = 0 := ⟨_, _, rfl, rfl⟩
      obtain ⟨t, σ, he, h0⟩ := he
      unfold vOne
      dsimp only
      rw [he]
      dsimp only
      rw [h0, Adj.propagateFrom, Adj.propagate, if_pos hm]
    rw [h]

/-- C116, the simulation: whatever the order of the tasks and their threads, the value over the number of paths is the mean of the payoffs, and each risk is up to the cutoff the mean of the
derivatives; today takes no normal number. -/
theorem C116_simulation (lib : Adj.Lib) (F : Nat → Prop) (p : Scripted) (ho : ∀ e ∈ p.events, OwnSs True F e) (ho0 : ∀ e ∈ p.events.head?, OwnSs False F e) (hF : F p.payoff) (b : BS ℝ)
    (hb : 0 < b.spot) (consts rest : List ℝ) (hp : rest.IsChain (· < ·)) (hpos : ∀ t ∈ rest, 0 < t) (N threads : Nat) (gen : Gen) (ex : List ((Int × Int) × Nat)) (h : Runs N threads ex)
    (ω : ℕ → ℝ) (value : (Nat → ℝ) → ℝ)
    (hv : ∀ pos, fuzzyPath p (fun k => consts.getD k 0) b (0 :: rest) (numbers (window rest.length pos ω)) = some (value (numbers (window rest.length pos ω)))) :
    ∃ B : Nat → ℝ, ∀ cutoff, 0 ≤ cutoff → ∃ agg risks, simulation lib cutoff p b consts (0 :: rest) N gen threads ex ω = some (agg, risks) ∧ risks.length = 4 + consts.length ∧
      agg / N = simulated true gen rest.length N threads ex value ω ∧
      ∀ (i : Nat) (r : ℝ), risks[i]? = some r → |r - simulated true gen rest.length N threads ex (pathDeriv p b consts (0 :: rest) i) ω| ≤ cutoff * B i :=
  simulation_from lib F p true ho (fun _ => ho0) hF b (fun _ => hb) consts rest (by simp [datesFrom]) hp hpos N threads gen ex h ω value hv

/-- C116, the table: as `C106_table`, for a product whose first date is the evaluation date. -/
theorem C116_table (sgn : Bool) (lib : Adj.Lib) (F : Nat → Prop) (eps smooth : ℝ) (payoff : List Char) (cval : List Char → ℝ) (prog : List (Script.PStmts ℝ)) (q : Prepared)
    (hq : prepare true payoff cval prog = some q) (ho : ∀ e ∈ q.events, OwnSs True F e) (ho0 : ∀ e ∈ q.events.head?, OwnSs False F e) (hF : F q.payoff)
    (hd : (Results.bsLabels ++ q.consts).Pairwise fun a b => eqS sgn a b = false) (b : BS ℝ) (hb : 0 < b.spot) (today : Nat) (dates : List Nat) (hp : (today :: dates).IsChain (· < ·))
    (N threads : Nat) (gen : Gen) (ex : List ((Int × Int) × Nat)) (h : Runs N threads ex) (ω : ℕ → ℝ) (value : (Nat → ℝ) → ℝ)
    (hv : ∀ pos, fuzzyPath (q.scripted smooth eps) (fun k => q.values.getD k 0) b (times today (today :: dates)) (numbers (window dates.length pos ω)) = some (value (numbers (window dates.length pos ω)))) :
    ∃ B : Nat → ℝ, ∀ cutoff, 0 ≤ cutoff → ∃ t risks, Report.report sgn lib cutoff eps smooth payoff cval prog today (today :: dates) b N gen threads ex ω = some t ∧
      t.Pairwise (fun a b => ltS sgn a.1 b.1 = true) ∧ risks.length = 4 + q.consts.length ∧
      t.Perm (("PV".toList, some (simulated true gen dates.length N threads ex value ω)) :: ((Results.bsLabels ++ q.consts).zip risks).map fun e => ("d_".toList ++ e.1, some e.2)) ∧
      ∀ (i : Nat) (r : ℝ), risks[i]? = some r →
        |r - simulated true gen dates.length N threads ex (pathDeriv (q.scripted smooth eps) b q.values (times today (today :: dates)) i) ω| ≤ cutoff * B i :=
  table_from sgn lib F eps smooth payoff cval prog q hq true ho (fun _ => ho0) hF hd b (fun _ => hb) today dates (by simp [serialsFrom]) (List.IsChain.tail hp)
    (fun _ hd => List.rel_of_pairwise_cons (List.isChain_iff_pairwise.1 hp) hd) N threads gen ex h ω value hv

/-- C116, the risks are derivatives: as `C105_gradient`, for a product whose first date is today. Near the spot today's sample is the spot itself. -/
theorem C116_gradient (lib : Adj.Lib) (F : Nat → Prop) (p : Scripted) (ho : ∀ e ∈ p.events, OwnSs True F e) (ho0 : ∀ e ∈ p.events.head?, OwnSs False F e) (hF : F p.payoff) (b : BS ℝ)
    (hb : 0 < b.spot) (consts rest : List ℝ) (hp : rest.IsChain (· < ·)) (hpos : ∀ t ∈ rest, 0 < t) (n : Nat) (hn : 0 < n) (gs : List (Nat → ℝ))
    (hs : ∀ g ∈ gs, ∀ i, i < 4 + consts.length → Smooth (constTo consts i) p.defEps p.eps (inputOf b consts i)
      (p.events.zip ((fun t => ⟨(movedTo b i t).spot, Real.exp ((movedTo b i t).rate * 0)⟩) :: movedSamples b rest g i)) fun _ => ⟨fun k => p.vars.getD k 0, fun _ _ => 0, fun _ _ => 0⟩) :
    ∃ (f : Nat → (Nat → ℝ) → ℝ → ℝ) (value : (Nat → ℝ) → ℝ) (deriv : Nat → (Nat → ℝ) → ℝ),
      (∀ g ∈ gs, fuzzyPath p (fun k => consts.getD k 0) b (0 :: rest) g = some (value g)) ∧
      (∀ g ∈ gs, ∀ i, i < 4 + consts.length → (∀ᶠ t in nhds (inputOf b consts i), fuzzyPath p (constTo consts i t) (movedTo b i t) (0 :: rest) g = some (f i g t)) ∧
        HasDerivAt (f i g) (deriv i g) (inputOf b consts i)) ∧
      vSimulate lib 0 p b consts (0 :: rest) n gs = some ((gs.map value).sum, (List.range (4 + consts.length)).map fun i => (gs.map (deriv i)).sum / n) :=
  gradient_from lib F p true ho (fun _ => ho0) hF b hb.ne' (fun _ => hb) consts rest (by simp [datesFrom]) hp hpos n hn gs hs

/-- C116, a product that has begun and has an event today: as `C111_table`. -/
theorem C116_seasoned (sgn : Bool) (lib : Adj.Lib) (F : Nat → Prop) (eps smooth : ℝ) (payoff : List Char) (cval : List Char → ℝ) (past future : List (Script.PStmts ℝ)) (r : Seasoned.Ready)
    (hr : Seasoned.prepareAll true payoff cval past future = some r) (ho : ∀ e ∈ r.product.events, OwnSs True F e) (ho0 : ∀ e ∈ r.product.events.head?, OwnSs False F e) (hF : F r.product.payoff)
    (hd : (Results.bsLabels ++ r.product.consts).Pairwise fun a b => eqS sgn a b = false) (b : BS ℝ) (hb : 0 < b.spot) (today : Nat) (dates : List Nat) (hp : (today :: dates).IsChain (· < ·))
    (N threads : Nat) (gen : Gen) (ex : List ((Int × Int) × Nat)) (h : Runs N threads ex) (ω : ℕ → ℝ) (value : (Nat → ℝ) → ℝ)
    (hv : ∀ pos, fuzzyPath (r.scripted smooth eps) (fun k => r.product.values.getD k 0) b (times today (today :: dates)) (numbers (window dates.length pos ω)) =
      some (value (numbers (window dates.length pos ω)))) :
    ∃ B : Nat → ℝ, ∀ cutoff, 0 ≤ cutoff → ∃ t risks, Seasoned.reportAll sgn lib cutoff eps smooth payoff cval past future today (today :: dates) b N gen threads ex ω = some t ∧
      t.Pairwise (fun a b => ltS sgn a.1 b.1 = true) ∧ risks.length = 4 + r.product.consts.length ∧
      t.Perm (("PV".toList, some (simulated true gen dates.length N threads ex value ω)) :: ((Results.bsLabels ++ r.product.consts).zip risks).map fun e => ("d_".toList ++ e.1, some e.2)) ∧
      ∀ (i : Nat) (x : ℝ), risks[i]? = some x →
        |x - simulated true gen dates.length N threads ex (pathDeriv (r.scripted smooth eps) b r.product.values (times today (today :: dates)) i) ω| ≤ cutoff * B i :=
  seasoned_from sgn lib F eps smooth payoff cval past future r hr true ho (fun _ => ho0) hF hd b (fun _ => hb) today dates (by simp [serialsFrom]) (List.IsChain.tail hp)
    (fun _ hd => List.rel_of_pairwise_cons (List.isChain_iff_pairwise.1 hp) hd) N threads gen ex h ω value hv

/-! ### The examples, from the rows to the table -/

private theorem parsed_unique {v : Script.PEnv ℝ} {t : List Char} {a c : Script.PStmts ℝ} (h1 : ∃ M, ∀ m, M ≤ m → Script.pEvent v m (Script.tokens t) = .ok a)
    (h2 : ∃ M, ∀ m, M ≤ m → Script.pEvent v m (Script.tokens t) = .ok c) : a = c := by
  obtain ⟨M, h1⟩ := h1
  obtain ⟨M', h2⟩ := h2
  have := (h1 _ (le_max_left M M')).symm.trans (h2 _ (le_max_right M M'))
  injection this

open Dal.Script.Events in
/-- C116, the barrier option of `examples/uoc` from its rows to its table, at its start: the row `PV` has the mean over the simulated paths of the smoothed option, watched on the dates after the start, and the
other rows, up to the cutoff, the means of the derivatives with respect to the four parameters of the model, the barrier and the strike. -/
theorem C116_barrier (L : Lib (Script.PStmts ℝ)) (hL : L.subst = Script.Macro.subst) (sgn kin twice : Bool) (base : Script.PEnv ℝ)
    (hparse : ∀ consts t e, (∃ N, ∀ m, N ≤ m → Script.pEvent (withConstants base sgn consts) m (Script.tokens t) = .ok e) → L.parse consts t = some [e])
    (h0 : base.toD (.num ['0']) = some 0) (h1 : base.toD (.num ['1']) = some 1) (h0' : base.toD (.num ['0', '.', '0']) = some 0) {w : ℝ} (hw : base.toD (.num ['0', '.', '1']) = some w)
    (hw0 : 0 < w) (strike barrier sched : Str) (hnum : ∀ t ∈ [strike, barrier], L.isNumber t = true)
    (start maturity : Nat) (hc : ':' ∈ sched) (first : Nat) (dates : List Nat) (hsched : L.sched sched = some (Script.Sched.periods true (first :: (dates ++ if twice then [maturity] else []))))
    (hord : (start :: (dates ++ [maturity])).Pairwise (· < ·)) (cval : List Char → ℝ) (lib : Adj.Lib) (smooth eps : ℝ) (b : BS ℝ) (hb : 0 < b.spot)
    (N threads : Nat) (gen : Gen) (ex : List ((Int × Int) × Nat)) (hrun : Runs N threads ex) :
    ∃ p line flags q, parseEvents L sgn start (barrierTable kin strike barrier sched start maturity) = some p ∧ p.past = [] ∧ p.future.map Prod.fst = start :: (dates ++ [maturity]) ∧
      bsAllocate (times start (p.future.map Prod.fst)) = some (line, flags) ∧ prepare true callName cval (p.future.flatMap Prod.snd) = some q ∧
      ∀ ω, ∃ D : Nat → ℝ, ∀ cutoff, 0 ≤ cutoff → ∃ (t : List (Str × Option ℝ)) (risks : List ℝ),
        Report.report sgn lib cutoff eps smooth callName cval (p.future.flatMap Prod.snd) start (p.future.map Prod.fst) b N gen threads ex ω = some t ∧
        t.Pairwise (fun a b => ltS sgn a.1 b.1 = true) ∧ risks.length = 6 ∧
        t.Perm (("PV".toList, some (simulated true gen (dates.length + 1) N threads ex (fun g =>
            Barrier.smoothWorth kin eps w (L.toDouble barrier) (L.toDouble strike) ((times start (dates ++ if twice then [maturity, maturity] else [maturity])).map fun t => spotAt b line t g)
              (spotAt b line ((((maturity : Int) - start : Int) : ℝ) / 365) g) (Real.exp (b.rate * ((((maturity : Int) - start : Int) : ℝ) / 365)))) ω)) ::
          (["d_spot".toList, "d_vol".toList, "d_rate".toList, "d_div".toList, "d_BARRIER".toList, "d_STRIKE".toList].zip (risks.map some))) ∧
        ∀ (i : Nat) (r : ℝ), risks[i]? = some r → |r - simulated true gen (dates.length + 1) N threads ex
          (pathDeriv (q.scripted smooth eps) b [(L.toDouble barrier : ℝ), (L.toDouble strike : ℝ)] (times start (start :: (dates ++ [maturity]))) i) ω| ≤ cutoff * D i := by
  obtain ⟨consts, p, hv, h2, h3, h4, h5⟩ := barrier_rows_prog L hL sgn kin twice base hparse h0 h1 h0' hw strike barrier sched hnum start maturity hc first dates hsched hord start le_rfl
  have hafter : ∀ d ∈ dates ++ [maturity], start < d := fun d hd => List.rel_of_pairwise_cons hord hd
  obtain ⟨a, c, l, line, flags, q, p1, p2, p3, p4, p5, p6⟩ := barrier_report_from hv sgn lib cval kin twice hw0 smooth eps b start start maturity dates (List.isChain_iff_pairwise.2 hord) true
    (dates ++ [maturity]) rfl hafter (fun _ => hb) N threads gen ex hrun
  have hprog : a :: (List.replicate dates.length c ++ [l]) = p.future.flatMap Prod.snd := by
    rw [h5, barrierProg, parsed_unique p1 (start_parsed hv kin), parsed_unique p2 (watch_parsed hv kin), parsed_unique p3 (last_parsed hv kin twice)]
    rfl
  rw [hprog, List.length_append, List.length_singleton, ← h4] at p6
  rw [hprog] at p5
  rw [← h4] at p4
  rw [← h4]
  exact ⟨p, line, flags, q, h2, h3, rfl, p4, p5, p6⟩

open Dal.Script.Events in
/-- C116, the note of `examples/snowball` from its rows to its table, at its start. -/
theorem C116_snowball (L : Lib (Script.PStmts ℝ)) (hL : L.subst = Script.Macro.subst) (hd : ∀ n, L.dateText n = DateText.toString' ⟨n⟩) (sgn : Bool) (base : Script.PEnv ℝ)
    (hparse : ∀ consts t e, (∃ N, ∀ m, N ≤ m → Script.pEvent (withConstants base sgn consts) m (Script.tokens t) = .ok e) → L.parse consts t = some [e])
    (h0 : base.toD (.num ['0']) = some 0) (h1 : base.toD (.num ['1']) = some 1) (h1' : base.toD (.num "1.000000".toList) = some 1) (hw : base.toD (.num "0.001".toList) = some 0.001)
    (hdcf : ∃ sgn depth, base.dcf = Dcf.parse fun n s t => (Dcf.fraction sgn depth n s t).map (Option.map fun r : Rat => (r : ℝ)))
    (ki ko strike coupon sched : Str) (hnum : ∀ t ∈ [ki, ko, strike, coupon], L.isNumber t = true) {start maturity : Date.Date} (hs : Dcf.Readable start) (hm : Dcf.Readable maturity)
    (hc : ':' ∈ sched) (first : Nat) (dates : List Date.Date) (hdd : ∀ d ∈ dates, Dcf.Readable d)
    (hsched : L.sched sched = some (Script.Sched.periods true (first :: dates.map (·.serial)))) (hord : (start :: (dates ++ [maturity])).Pairwise fun a b => a.serial < b.serial)
    (cval : List Char → ℝ) (lib : Adj.Lib) (smooth eps : ℝ) (b : BS ℝ) (hb : 0 < b.spot) (N threads : Nat) (gen : Gen) (ex : List ((Int × Int) × Nat)) (hrun : Runs N threads ex) :
    ∃ p line flags q, parseEvents L sgn start.serial (snowTable ki ko strike coupon sched start maturity) = some p ∧ p.past = [] ∧
      p.future.map Prod.fst = (start :: (dates ++ [maturity])).map (·.serial) ∧
      bsAllocate (times start.serial (p.future.map Prod.fst)) = some (line, flags) ∧ prepare true callName cval (p.future.flatMap Prod.snd) = some q ∧
      ∀ ω, ∃ D : Nat → ℝ, ∀ cutoff, 0 ≤ cutoff → ∃ (t : List (Str × Option ℝ)) (risks : List ℝ),
        Report.report sgn lib cutoff eps smooth callName cval (p.future.flatMap Prod.snd) start.serial (p.future.map Prod.fst) b N gen threads ex ω = some t ∧
        t.Pairwise (fun a b => ltS sgn a.1 b.1 = true) ∧ risks.length = 8 ∧
        t.Perm (("PV".toList, some (simulated true gen (dates.length + 1) N threads ex (fun g =>
            Snowball.smoothWorth eps 0.001 ⟨L.toDouble ki, L.toDouble ko, L.toDouble coupon, L.toDouble strike⟩ (lookAt b line start.serial start maturity g)
              (dates.map fun d => lookAt b line start.serial start d g) 1) ω)) ::
          (["d_spot".toList, "d_vol".toList, "d_rate".toList, "d_div".toList, "d_KI".toList, "d_KO".toList, "d_COUPON".toList, "d_STRIKE".toList].zip (risks.map some))) ∧
        ∀ (i : Nat) (r : ℝ), risks[i]? = some r → |r - simulated true gen (dates.length + 1) N threads ex
          (pathDeriv (q.scripted smooth eps) b [(L.toDouble ki : ℝ), (L.toDouble ko : ℝ), (L.toDouble coupon : ℝ), (L.toDouble strike : ℝ)]
            (times start.serial ((start :: (dates ++ [maturity])).map (·.serial))) i) ω| ≤ cutoff * D i := by
  obtain ⟨consts, p, g1, hv, g2, g3, g4, g5⟩ := snow_rows_prog L hL hd sgn base hparse h0 h1 h1' hw hdcf ki ko strike coupon sched hnum hs hm hc first dates hdd hsched hord start.serial le_rfl
  have hafter : ∀ d ∈ (dates ++ [maturity]).map (·.serial), start.serial < d := by
    intro d hd
    obtain ⟨x, hx, rfl⟩ := List.mem_map.1 hd
    exact List.rel_of_pairwise_cons hord hx
  have hch : ((start :: (dates ++ [maturity])).map (·.serial)).IsChain (· < ·) := List.isChain_iff_pairwise.2 (List.pairwise_map.2 hord)
  obtain ⟨a, l, c, line, flags, q, p1, p2, p3, p4, p5, p6⟩ := snowball_report_from hv hs hdd hm (cval := cval) sgn lib (by norm_num) smooth eps b start.serial hch true
    ((dates ++ [maturity]).map (·.serial)) rfl hafter (fun _ => hb) N threads gen ex hrun
  have hprog : a :: (dates.map c ++ [l]) = p.future.flatMap Prod.snd := by
    rw [g5, snowProg, parsed_unique p1 (snow_start_parsed hv), parsed_unique p3 (snow_last_parsed hv hs hm), List.map_map]
    rw [List.map_congr_left fun d hd => parsed_unique (p2 d hd) (snow_watch_parsed hv hs (hdd d hd))]
    rfl
  rw [hprog, List.length_map, List.length_append, List.length_singleton, ← g4] at p6
  rw [hprog] at p5
  rw [← g4] at p4
  rw [← g4]
  exact ⟨p, line, flags, q, g2, g3, rfl, p4, p5, p6⟩

/-! ### Examples -/

private noncomputable def demoToday : BS ℝ := ⟨100, 0.03, 0.01, 0.2⟩
private def todayRun : List ((Int × Int) × Nat) := [((1024, 976), 1), ((0, 1024), 0)]
private theorem today_runs : Runs 2000 2 todayRun := ⟨by decide, by decide, ⟨[(0, 1024), (1024, 976)], by decide +kernel, List.Perm.swap _ _ _⟩, by decide⟩

/-- Nothing today and the spot in a year. -/
private noncomputable def spotLater : Scripted := ⟨[.cons (.assign ⟨0, false⟩ (.const 0)) .nil, .cons (.assign ⟨0, false⟩ .spot) .nil], [0], 0, 0.01, 0⟩

private theorem later_own : (∀ e ∈ spotLater.events, OwnSs True (fun _ => True) e) ∧ ∀ e ∈ spotLater.events.head?, OwnSs False (fun _ => True) e := by
  refine ⟨fun e he => ?_, fun e he => ?_⟩
  · simp only [spotLater, List.mem_cons, List.not_mem_nil, or_false] at he
    rcases he with rfl | rfl
    · exact ⟨fun _ => trivial, trivial⟩
    · exact ⟨fun _ => trivial, trivial⟩
  · cases Option.mem_some_iff.1 (show e ∈ some _ from he)
    exact ⟨fun _ => trivial, trivial⟩

private theorem later_value (g : Nat → ℝ) : ∃ x, fuzzyPath spotLater (fun k => ([] : List ℝ).getD k 0) demoToday [0, 1] g = some x := by
  rw [show ([0, 1] : List ℝ) = datesFrom true [1] from rfl, fuzzyPath_from true _ _ demoToday (fun _ => by norm_num [demoToday]) [1] (by simp [datesFrom]) (by simp) (by simp)]
  exact ⟨_, rfl⟩

example (lib : Adj.Lib) (g g' : Nat → ℝ) : ∃ v risks, vSimulate lib 0 spotLater demoToday [] [0, 1] 2 [g, g'] = some (v, risks) ∧ risks.length = 4 := by
  choose value hv using later_value
  obtain ⟨_, _, -, h⟩ := C116_risks lib _ spotLater later_own.1 later_own.2 trivial demoToday (by norm_num [demoToday]) [] [1] (by simp) (by simp) 2 (by decide) [g, g'] value fun g _ => hv g
  obtain ⟨risks, h1, h2, -⟩ := h 0 le_rfl
  exact ⟨_, risks, h1, h2⟩

example (lib : Adj.Lib) (ω : ℕ → ℝ) : ∃ agg risks, simulation lib 0 spotLater demoToday [] [0, 1] 2000 .mrg 2 todayRun ω = some (agg, risks) ∧ risks.length = 4 := by
  choose value hv using later_value
  obtain ⟨_, h⟩ := C116_simulation lib _ spotLater later_own.1 later_own.2 trivial demoToday (by norm_num [demoToday]) [] [1] (by simp) (by simp) 2000 2 .mrg todayRun today_runs ω value
    fun pos => hv _
  obtain ⟨agg, risks, h1, h2, -⟩ := h 0 le_rfl
  exact ⟨agg, risks, h1, h2⟩

/-- `x = spot() * K` today: the risk of `K` is the spot. -/
example (lib : Adj.Lib) (g : Nat → ℝ) : ∃ sum risks, vSimulate lib 0 ⟨[.cons (.assign ⟨0, false⟩ (.bin .mul .spot (.constVar 0 3) none)) .nil], [0], 0, 1, 0.01⟩ demoToday [3] [0] 1 [g] = some (sum, risks) ∧
    risks[4]? = some 100 := by
  obtain ⟨f, value, deriv, h1, h2, h3⟩ := C116_gradient lib (fun _ => True) ⟨[.cons (.assign ⟨0, false⟩ (.bin .mul .spot (.constVar 0 3) none)) .nil], [0], 0, 1, 0.01⟩
    (by intro e he; rw [List.mem_singleton.1 he]; exact ⟨fun _ => trivial, trivial⟩)
    (by intro e he; cases Option.mem_some_iff.1 (show e ∈ some _ from he); exact ⟨fun _ => trivial, trivial⟩) trivial demoToday (by norm_num [demoToday]) [3] [] (by simp) (by simp) 1
    (by decide) [g] (fun g _ i _ => ⟨⟨⟨trivial, trivial, trivial⟩, trivial⟩, trivial⟩)
  obtain ⟨h4, h5⟩ := h2 g List.mem_cons_self 4 (by simp)
  have h6 : ∀ t, fuzzyPath ⟨[.cons (.assign ⟨0, false⟩ (.bin .mul .spot (.constVar 0 3) none)) .nil], [0], 0, 1, 0.01⟩ (constTo [3] 4 t) (movedTo demoToday 4 t) [0] g = some (100 * t) := by
    intro t
    rw [show ([0] : List ℝ) = datesFrom true [] from rfl, fuzzyPath_from true _ _ (movedTo demoToday 4 t) (fun _ => show (0 : ℝ) < 100 by norm_num) [] (by simp [datesFrom]) (by simp) (by simp)]
    rfl
  have h7 : HasDerivAt (f 4 g) 100 (inputOf demoToday [3] 4) := by
    refine (((hasDerivAt_id _).const_mul (100 : ℝ)).congr_of_eventuallyEq ?_).congr_deriv (mul_one _)
    filter_upwards [h4] with t ht
    rw [h6 t] at ht
    exact (Option.some.inj ht).symm
  refine ⟨_, _, h3, ?_⟩
  simp [List.getElem?_map, h5.unique h7]

/-- Two calls that have expired, one that expires today and one in a year. -/
example (lib : Adj.Lib) (ω : ℕ → ℝ) : ∃ t risks, Seasoned.reportAll true lib 0 (2 / 10 ^ 14) 0.01 ['o', 'p', 't'] (fun _ => 0) (List.replicate 2 (optionTree false ['o', 'p', 't'] ['K'] 110))
    (List.replicate 2 (optionTree false ['o', 'p', 't'] ['K'] 110)) 46000 [46000, 46365] demoToday 2000 .mrg 2 todayRun ω = some t ∧ (risks : List ℝ).length = 5 := by
  have hr := option_ready false (110 : ℝ) (fun _ => 0) 2 2 (by norm_num) (by norm_num)
  have hval : ∀ g, ∃ x, fuzzyPath (Seasoned.Ready.scripted ⟨⟨[some ['o', 'p', 't']], [['K']], [110], 0, List.replicate 2 (optionTree false 0 0 110), 0⟩, [0]⟩ 0.01 (2 / 10 ^ 14))
      (fun k => ([110] : List ℝ).getD k 0) demoToday (times 46000 [46000, 46365]) g = some x := by
    intro g
    rw [show times 46000 [46000, 46365] = datesFrom true [1] by simp [times, datesFrom]; norm_num,
      fuzzyPath_from true _ _ demoToday (fun _ => by norm_num [demoToday]) [1] (by simp [datesFrom]) (by simp) (by simp)]
    exact ⟨_, rfl⟩
  choose value hv using hval
  obtain ⟨B, hB⟩ := C116_seasoned true lib (fun k => k = 0) (2 / 10 ^ 14) 0.01 ['o', 'p', 't'] (fun _ => 0) _ _ _ hr
    (option_own false 110 0.01 (2 / 10 ^ 14) [0, 1])
    (by intro e he; cases Option.mem_some_iff.1 (show e ∈ some _ from he); exact ⟨trivial, trivial⟩) rfl (by decide +kernel) demoToday (by norm_num [demoToday]) 46000 [46365] (by simp) 2000 2
    .mrg todayRun today_runs ω value fun pos => hv _
  obtain ⟨t, risks, h1, -, h2, -⟩ := hB 0 le_rfl
  exact ⟨t, risks, h1, h2⟩

open Dal.Script.Events

private theorem barrier_parse : ∀ consts t e, (∃ N, ∀ m, N ≤ m → Script.pEvent (withConstants Barrier.demoEnv true consts) m (Script.tokens t) = .ok e) → Barrier.demoLib.parse consts t = some [e] := by
  intro consts t e h
  have hx : ∃ e, ∃ N, ∀ m, N ≤ m → Script.pEvent (withConstants Barrier.demoEnv true consts) m (Script.tokens t) = .ok e := ⟨e, h⟩
  rw [Barrier.demoLib]
  simp only
  rw [dif_pos hx, parsed_unique h hx.choose_spec]

private theorem snowball_parse : ∀ consts t e, (∃ N, ∀ m, N ≤ m → Script.pEvent (withConstants Snowball.demoEnv true consts) m (Script.tokens t) = .ok e) → Snowball.demoLib.parse consts t = some [e] := by
  intro consts t e h
  have hx : ∃ e, ∃ N, ∀ m, N ≤ m → Script.pEvent (withConstants Snowball.demoEnv true consts) m (Script.tokens t) = .ok e := ⟨e, h⟩
  rw [Snowball.demoLib]
  simp only
  rw [dif_pos hx, parsed_unique h hx.choose_spec]

/-- A barrier option that starts today, watched tomorrow and at maturity. -/
example (lib : Adj.Lib) (ω : ℕ → ℝ) : ∃ p t risks, parseEvents Barrier.demoLib true 1 (barrierTable false [] [] ":".toList 1 3) = some p ∧
    Report.report true lib 0 (2 / 10 ^ 14) 0.01 callName (fun _ => 0) (p.future.flatMap Prod.snd) 1 (p.future.map Prod.fst) demoToday 2000 .mrg 2 todayRun ω = some t ∧ (risks : List ℝ).length = 6 := by
  have hv := Barrier.demo_env
  obtain ⟨p, line, flags, q, h1, -, -, -, -, h⟩ := C116_barrier Barrier.demoLib rfl true false true Barrier.demoEnv barrier_parse hv.zero hv.one hv.zeroPoint hv.width (by norm_num) [] [] ":".toList
    (fun _ _ => rfl) 1 3 (by decide) 1 [2] rfl (by decide) (fun _ => 0) lib 0.01 (2 / 10 ^ 14) demoToday (by norm_num [demoToday]) 2000 2 .mrg todayRun today_runs
  obtain ⟨D, hD⟩ := h ω
  obtain ⟨t, risks, h2, -, h3, -⟩ := hD 0 le_rfl
  exact ⟨p, t, risks, h1, h2, h3⟩

/-- A snowball that starts today, with one date before maturity. -/
example (lib : Adj.Lib) (ω : ℕ → ℝ) : ∃ p t risks, parseEvents Snowball.demoLib true (Date.mk' 2023 5 1).serial (snowTable [] [] [] [] ":".toList (Date.mk' 2023 5 1) (Date.mk' 2025 3 1)) = some p ∧
    Report.report true lib 0 (2 / 10 ^ 14) 0.01 callName (fun _ => 0) (p.future.flatMap Prod.snd) (Date.mk' 2023 5 1).serial (p.future.map Prod.fst) demoToday 2000 .mrg 2 todayRun ω = some t ∧
      (risks : List ℝ).length = 8 := by
  have hv := Snowball.demo_env
  obtain ⟨p, line, flags, q, h1, -, -, -, -, h⟩ := C116_snowball Snowball.demoLib rfl (fun _ => rfl) true Snowball.demoEnv snowball_parse hv.zero hv.one hv.onePoint hv.width ⟨true, 0, rfl⟩
    [] [] [] [] ":".toList (fun _ _ => rfl) (start := Date.mk' 2023 5 1) (maturity := Date.mk' 2025 3 1)
    (Snowball.demo_dates _ (by simp)) (Snowball.demo_dates _ (by simp)) (by decide) (Date.mk' 2023 5 15).serial [Date.mk' 2023 6 1] (by
      intro d hd
      exact Snowball.demo_dates d (by simp at hd; simp [hd])) rfl (by decide +kernel) (fun _ => 0) lib 0.01 (2 / 10 ^ 14) demoToday (by norm_num [demoToday]) 2000 2 .mrg todayRun today_runs
  obtain ⟨D, hD⟩ := h ω
  obtain ⟨t, risks, h2, -, h3, -⟩ := hD 0 le_rfl
  exact ⟨p, t, risks, h1, h2, h3⟩

end Dal
