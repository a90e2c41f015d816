import Verif.Sim.BarrierTableProps

/-! # C117: the European option of `examples/european_mc`, from its rows to its benchmark

The rows, the call of `PreProcess` and the benchmark are those of `examples/european_mc/euorpean_mc.cpp` lines 23–89: a strike, and one event that pays a call at maturity. -/

namespace Dal
open Dal.Models Dal.TapeRun Dal.Numeric Dal.Implied Dal.Noise Dal.Strings Dal.Script.Events Dal.Report MeasureTheory ProbabilityTheory Filter
open scoped Topology

/-- The text of the event (line 48). -/
def europeanText : List Char := "call pays MAX(spot() - STRIKE, 0.0)".toList

/-- The rows (lines 45–48). -/
def europeanTable (strike : Str) (maturity : Nat) : List Row := [.named strikeName strike, .dated maturity europeanText]

/-- The benchmark as the example computes it (lines 51–54). -/
noncomputable def europeanBenchmark (b : BS ℝ) (K t : ℝ) : Option ℝ :=
  (blackOpt (Real.exp ((b.rate - b.div) * t) * b.spot) (Real.sqrt t * b.vol) K .call).map (Real.exp (-b.rate * t) * ·)

/-- The time to maturity (line 41). -/
noncomputable def europeanTime (today maturity : Nat) : ℝ := (((maturity : Int) - today : Int) : ℝ) / 365

/-- What the option pays on a path, discounted: the number that moves the path is the first one. -/
noncomputable def europeanValue (b : BS ℝ) (K t : ℝ) (g : Nat → ℝ) : ℝ :=
  max (b.spot * Real.exp ((b.rate - b.div - b.vol ^ 2 / 2) * t + b.vol * Real.sqrt t * g 0) - K) 0 * Real.exp (-b.rate * t)

theorem european_parsed (v : Script.PEnv ℝ) (K : ℝ) (h1 : v.cvs callName = none) (h2 : v.cvs strikeName = some K) (h3 : v.toD (.num ['0', '.', '0']) = some 0) :
    ∃ N, ∀ n, N ≤ n → Script.pEvent v n (Script.tokens europeanText) = .ok (optionTree false callName strikeName K) := by
  apply C27_event
  have hz : Script.GArgs v [.num ['0', '.', '0']] [.const 0] := .one (.up (.up (.up (.num h3))))
  have hs : Script.G4 v [.kw .spot, .lp, .rp] .spot := .spot
  have hK : Script.G4 v [.name strikeName] (.constVar strikeName K) := .cvar h2
  have ht : Script.tokens europeanText = [.name callName, .kw .pays, .kw .max_, .lp, .kw .spot, .lp, .rp, .minus, .name strikeName, .comma, .num ['0', '.', '0'], .rp] := by decide +kernel
  rw [ht]
  have h4 := Script.GStmt.pays (s := callName) (Script.G1.up (.up (.up (Script.G4.max (l := []) (Script.GArgs.more (Script.G1.sub (.up (.up (.up hs))) (.up (.up hK))) hz) (by simp)))))
  rw [h1] at h4
  have h5 := Script.GStmts.cons h4 Script.GStmts.nil
  simpa [optionTree] using h5

theorem european_prepared (fuzzy : Bool) (cval : List Char → ℝ) (K : ℝ) :
    prepare fuzzy callName cval [optionTree false callName strikeName K] = some ⟨[some callName], [strikeName], [K], 0, [optionTree false 0 0 K], 0⟩ := by
  obtain ⟨δ, hδ⟩ := option_dom fuzzy false K 1 Script.domInit (Or.inl rfl)
  have hi : (⟨[], []⟩ : Script.Indexer (List Char) ℝ).events cval [optionTree false callName strikeName K] = (⟨[(callName, 0)], [(strikeName, (0, K))]⟩, [optionTree false 0 0 K]) := rfl
  unfold prepare
  rw [hi]
  dsimp only
  rw [show Script.ifEvents {} [optionTree false 0 0 K] = ({}, List.replicate 1 (optionTree false 0 0 K)) from rfl, hδ]
  have h : Script.payoffIdx callName (⟨[(callName, 0)], [(strikeName, (0, K))]⟩ : Script.Indexer (List Char) ℝ).varNames = some 0 := rfl
  rw [h]
  rfl

/-- C117: the rows give one event at maturity and one constant. -/
theorem C117_rows (L : Lib (Script.PStmts ℝ)) (sgn : Bool) (base : Script.PEnv ℝ)
    (hparse : ∀ consts t e, (∃ N, ∀ m, N ≤ m → Script.pEvent (withConstants base sgn consts) m (Script.tokens t) = .ok e) → L.parse consts t = some [e])
    (h0 : base.toD (.num ['0', '.', '0']) = some 0) (strike : Str) (hnum : L.isNumber strike = true) (today maturity : Nat) (hm : today ≤ maturity) (fuzzy : Bool) (cval : List Char → ℝ) :
    ∃ p q, parseEvents L sgn today (europeanTable strike maturity) = some p ∧ p.past = [] ∧ p.future.map Prod.fst = [maturity] ∧
      prepare fuzzy callName cval (p.future.flatMap Prod.snd) = some q ∧ q.consts = [strikeName] ∧ q.values = [(L.toDouble strike : ℝ)] ∧ q.nested = 0 ∧
      q = ⟨[some callName], [strikeName], [(L.toDouble strike : ℝ)], 0, [optionTree false 0 0 (L.toDouble strike : ℝ)], 0⟩ := by
  have r1 : step L sgn {} (.named strikeName strike) = some { consts := [(strikeName, L.toDouble strike)] } := by
    simp [step, show ':' ∉ strikeName by decide, hnum, mapFind, mapInsert]
  have hr : rows L sgn (europeanTable strike maturity) {} = some ⟨[], [(strikeName, L.toDouble strike)], [(maturity, europeanText)]⟩ := by
    rw [europeanTable, rows, r1]
    rfl
  have hp : L.parse [(strikeName, L.toDouble strike)] europeanText = some [optionTree false callName strikeName (L.toDouble strike : ℝ)] := by
    refine hparse _ _ _ (european_parsed _ _ ?_ ?_ h0)
    · show (mapFind sgn callName [(strikeName, L.toDouble strike)]).map _ = none
      generalize L.toDouble strike = v
      cases sgn <;> rfl
    · show (mapFind sgn strikeName [(strikeName, L.toDouble strike)]).map _ = _
      generalize L.toDouble strike = v
      cases sgn <;> rfl
  refine ⟨⟨[], [(maturity, [optionTree false callName strikeName (L.toDouble strike : ℝ)])]⟩, _, ?_, rfl, rfl, european_prepared fuzzy cval _, rfl, rfl, rfl, rfl⟩
  rw [parseEvents, hr]
  simp only [distribute, hp, if_pos hm, List.nil_append]


theorem european_value (b : BS ℝ) (hs : 0 < b.spot) (K t : ℝ) (ht : 0 < t) (g : Nat → ℝ) : optionValue false K b [t] g = europeanValue b K t g := by
  have h : b.logAt (datesLine [t]) g 1 = Real.log b.spot + ((b.rate - b.div - b.vol ^ 2 / 2) * t + b.vol * Real.sqrt t * g 0) := by
    have h1 : b.std (datesLine [t]) 0 = b.vol * Real.sqrt t := by
      show b.vol * Real.sqrt (t - 0) = _
      rw [sub_zero]
    rw [log_sum, Finset.sum_range_one, h1]
    show Real.log b.spot + (b.rate - b.div - 1 / 2 * b.vol ^ 2) * (t - 0) + _ = _
    ring
  rw [optionValue, europeanValue]
  refine (Fin.sum_univ_one _).trans ?_
  show optionPayoff false K (Real.exp (b.logAt (datesLine [t]) g 1)) / Real.exp (b.rate * t) = _
  rw [h, Real.exp_add, Real.exp_log hs, neg_mul, Real.exp_neg, div_eq_mul_inv, optionPayoff, if_neg (by simp), max_comm]

private theorem european_discounted (b : BS ℝ) (K t : ℝ) : europeanBenchmark b K t = discountedSum false b K [t] := by
  rw [europeanBenchmark, discountedSum, mul_comm (Real.exp _) b.spot, mul_comm (Real.sqrt t) b.vol]
  simp only [Bool.false_eq_true, if_false, discountedSum]
  cases blackOpt (b.spot * Real.exp ((b.rate - b.div) * t)) (b.vol * Real.sqrt t) K .call <;> simp

/-- C117: the simulation of the example.  Whatever generator, number of paths, tasks and threads, it ends well; the sum over the number of paths is the mean over the paths of the discounted payoff,
and there are five risks, for the four parameters and the strike, each within the cutoff of the mean of the derivatives. -/
theorem C117_simulation (L : Lib (Script.PStmts ℝ)) (sgn : Bool) (base : Script.PEnv ℝ)
    (hparse : ∀ consts t e, (∃ N, ∀ m, N ≤ m → Script.pEvent (withConstants base sgn consts) m (Script.tokens t) = .ok e) → L.parse consts t = some [e])
    (h0 : base.toD (.num ['0', '.', '0']) = some 0) (strike : Str) (hnum : L.isNumber strike = true) (today maturity : Nat) (hm : today < maturity) (fuzzy : Bool) (cval : List Char → ℝ)
    (lib : Adj.Lib) (smooth eps : ℝ) (b : BS ℝ) (hs : 0 < b.spot) (N threads : Nat) (gen : Gen) (ex : List ((Int × Int) × Nat)) (h : Runs N threads ex) :
    ∃ p q, parseEvents L sgn today (europeanTable strike maturity) = some p ∧ prepare fuzzy callName cval (p.future.flatMap Prod.snd) = some q ∧
      ∀ ω, ∃ B : Nat → ℝ, ∀ cutoff, 0 ≤ cutoff → ∃ agg r0 r1 r2 r3 r4,
        simulation lib cutoff (q.scripted smooth eps) b q.values (times today (p.future.map Prod.fst)) N gen threads ex ω = some (agg, [r0, r1, r2, r3, r4]) ∧
        agg / N = simulated true gen 1 N threads ex (europeanValue b (L.toDouble strike) (europeanTime today maturity)) ω ∧
        ∀ i, i < 5 → |[r0, r1, r2, r3, r4].getD i 0 - simulated true gen 1 N threads ex (optionSensK false (L.toDouble strike) b [europeanTime today maturity] i) ω| ≤ cutoff * B i := by
  obtain ⟨p, q, p1, -, p3, p4, -, -, -, rfl⟩ := C117_rows L sgn base hparse h0 strike hnum today maturity hm.le fuzzy cval
  refine ⟨p, _, p1, p4, fun ω => ?_⟩
  obtain ⟨n1, n2, n3⟩ := times_rising today [maturity] (by simp) (by simp) (by simpa using hm)
  rw [p3]
  change ∃ B : Nat → ℝ, ∀ cutoff, 0 ≤ cutoff → ∃ agg r0 r1 r2 r3 r4,
        simulation lib cutoff (optionScripted false (L.toDouble strike : ℝ) smooth eps (times today [maturity])) b [(L.toDouble strike : ℝ)] (times today [maturity]) N gen threads ex ω = some (agg, [r0, r1, r2, r3, r4]) ∧ _
  have ht : 0 < europeanTime today maturity := n3 _ (by simp [times, europeanTime])
  have hsm := fun i g => option_smooth false (L.toDouble strike : ℝ) smooth eps b (times today [maturity]) n1 n2 n3 i g
  obtain ⟨B, hB⟩ := C106_simulation lib (fun k => k = 0) _ (option_own false (L.toDouble strike : ℝ) smooth eps (times today [maturity])) rfl b [(L.toDouble strike : ℝ)] _ n1 n2 n3 N threads gen ex h ω
    (optionValue false (L.toDouble strike) b (times today [maturity])) (fun pos => fuzzy_of_smooth _ b _ _ n1 n2 n3 _ _ _ (hsm 0 _))
  have hd : ∀ i, pathDeriv (optionScripted false (L.toDouble strike : ℝ) smooth eps (times today [maturity])) b [(L.toDouble strike : ℝ)] (times today [maturity]) i =
      optionSensK false (L.toDouble strike) b (times today [maturity]) i := by
    intro i
    funext g
    rw [pathDeriv, hsm i g]; rfl
  refine ⟨B, fun cutoff hc => ?_⟩
  obtain ⟨agg, risks, t1, t2, t3, t4⟩ := hB cutoff hc
  obtain ⟨r0, r1, r2, r3, r4, rfl⟩ : ∃ r0 r1 r2 r3 r4, risks = [r0, r1, r2, r3, r4] := by
    match risks, t2 with
    | [r0, r1, r2, r3, r4], _ => exact ⟨r0, r1, r2, r3, r4, rfl⟩
  refine ⟨agg, r0, r1, r2, r3, r4, t1, ?_, fun i hi => ?_⟩
  · rw [t3, show europeanValue b (L.toDouble strike) (europeanTime today maturity) = optionValue false (L.toDouble strike) b (times today [maturity]) from
      funext fun g => (european_value b hs _ _ ht g).symm]
    rfl
  · have h5 := t4 i ([r0, r1, r2, r3, r4].getD i 0) (by rw [List.getD_eq_getElem?_getD, List.getElem?_eq_getElem (by simpa using hi)]; rfl)
    rw [hd i] at h5
    exact h5

/-- C117: the benchmark.  Over the numbers of the stream the mean of the value is the benchmark of the example, and without the cutoff the means of the five risks are the derivatives of the
benchmark with respect to the spot, the volatility, the rate, the dividend yield and the strike. -/
theorem C117_benchmark (L : Lib (Script.PStmts ℝ)) (sgn : Bool) (base : Script.PEnv ℝ)
    (hparse : ∀ consts t e, (∃ N, ∀ m, N ≤ m → Script.pEvent (withConstants base sgn consts) m (Script.tokens t) = .ok e) → L.parse consts t = some [e])
    (h0 : base.toD (.num ['0', '.', '0']) = some 0) (strike : Str) (hnum : L.isNumber strike = true) (today maturity : Nat) (hm : today < maturity) (fuzzy : Bool) (cval : List Char → ℝ)
    (lib : Adj.Lib) (smooth eps : ℝ) (b : BS ℝ) (hs : 0 < b.spot) (N threads : Nat) (gen : Gen) (ex : List ((Int × Int) × Nat)) (h : Runs N threads ex) (k0 : 0 < L.toDouble strike)
    (v0 : epsilon < Real.sqrt (europeanTime today maturity) * b.vol)
    (e0 : epsilon < Real.exp ((b.rate - b.div) * europeanTime today maturity) * b.spot * (L.toDouble strike : ℝ)) :
    ∃ p q, parseEvents L sgn today (europeanTable strike maturity) = some p ∧ prepare fuzzy callName cval (p.future.flatMap Prod.snd) = some q ∧
      ∃ (value : (ℕ → ℝ) → ℝ) (risk : Nat → (ℕ → ℝ) → ℝ) (price : ℝ) (prices : Nat → ℝ → ℝ),
        (∀ ω, ∃ agg, simulation lib 0 (q.scripted smooth eps) b q.values (times today (p.future.map Prod.fst)) N gen threads ex ω =
          some (agg, [risk 0 ω, risk 1 ω, risk 2 ω, risk 3 ω, risk 4 ω]) ∧ agg / N = value ω) ∧
        europeanBenchmark b (L.toDouble strike) (europeanTime today maturity) = some price ∧ Integrable value noise ∧ ∫ ω, value ω ∂noise = price ∧
        ∀ i, i < 5 → (∀ᶠ x in 𝓝 (inputOf b [(L.toDouble strike : ℝ)] i),
            europeanBenchmark (movedTo b i x) (constTo [(L.toDouble strike : ℝ)] i x 0) (europeanTime today maturity) = some (prices i x)) ∧
          Integrable (risk i) noise ∧ HasDerivAt (prices i) (∫ ω, risk i ω ∂noise) (inputOf b [(L.toDouble strike : ℝ)] i) := by
  obtain ⟨p, q, p1, p2, hsim⟩ := C117_simulation L sgn base hparse h0 strike hnum today maturity hm fuzzy cval lib smooth eps b hs N threads gen ex h
  refine ⟨p, q, p1, p2, ?_⟩
  obtain ⟨n1, n2, n3⟩ := times_rising today [maturity] (by simp) (by simp) (by simpa using hm)
  rw [show times today [maturity] = [europeanTime today maturity] from rfl] at n1 n2 n3
  generalize europeanTime today maturity = t at *
  have hK : 0 < (L.toDouble strike : ℝ) := by exact_mod_cast k0
  generalize (L.toDouble strike : ℝ) = K at *
  have ht : 0 < t := n3 t (by simp)
  have hv0 : 0 < b.vol := by
    by_contra hc
    have h4 := mul_nonpos_of_nonneg_of_nonpos (Real.sqrt_nonneg t) (not_lt.1 hc)
    have h5 : (0 : ℝ) < epsilon := by norm_num [epsilon]
    linarith
  have v1 : ∀ u ∈ [t], epsilon < b.vol * Real.sqrt u := by simpa [mul_comm] using v0
  have e1 : ∀ u ∈ [t], epsilon < b.spot * Real.exp ((b.rate - b.div) * u) * K := by
    intro u hu
    rw [List.mem_singleton.1 hu, mul_comm b.spot]
    exact e0
  obtain ⟨hi, prices, hpr, hmean⟩ := option_value_mean false K b [t] n2 n3 hs fun u hu => Or.inl ⟨hK, (v1 u hu).le, (e1 u hu).le⟩
  have hall : ∀ i, ∃ prices : ℝ → ℝ, i < 5 → (∀ᶠ x in 𝓝 (inputOf b [K] i), europeanBenchmark (movedTo b i x) (constTo [K] i x 0) t = some (prices x)) ∧
      HasDerivAt prices (gaussMean 1 (optionSensK false K b [t] i)) (inputOf b [K] i) := by
    intro i
    by_cases hi : i < 5
    · obtain ⟨pr, h4, h5⟩ := C105_option_mean false K b [t] n2 n3 hs hK v1 e1 i hi
      exact ⟨_, fun _ => ⟨h4.mono fun x hx => (european_discounted _ _ _).trans (option_discounted false (movedTo b i x) (constTo [K] i x 0) [t] (pr x) hx), h5⟩⟩
    · exact ⟨fun _ => 0, fun hc => absurd hc hi⟩
  choose pr hprs using hall
  have hval := C102_unbiased true gen 1 N threads ex h (europeanValue b K t) (by
    have := hi
    simp only [european_value b hs K t ht] at this
    exact this)
  refine ⟨simulated true gen 1 N threads ex (europeanValue b K t), fun i => simulated true gen 1 N threads ex (optionSensK false K b [t] i), _, pr, fun ω => ?_,
    (european_discounted b K t).trans (option_discounted false b K [t] prices hpr), hval.1, ?_, fun i hi => ?_⟩
  · obtain ⟨B, hB⟩ := hsim ω
    obtain ⟨agg, r0, r1, r2, r3, r4, s1, s2, s3⟩ := hB 0 le_rfl
    have h4 : ∀ i, i < 5 → [r0, r1, r2, r3, r4].getD i 0 = simulated true gen 1 N threads ex (optionSensK false K b [t] i) ω := by
      intro i hi
      have := s3 i hi
      rw [zero_mul] at this
      exact sub_eq_zero.1 (abs_eq_zero.1 (le_antisymm this (abs_nonneg _)))
    refine ⟨agg, ?_, s2⟩
    dsimp only
    rw [s1, ← h4 0 (by omega), ← h4 1 (by omega), ← h4 2 (by omega), ← h4 3 (by omega), ← h4 4 (by omega)]
    rfl
  · rw [hval.2, ← hmean]
    exact congrArg (gaussMean 1) (funext fun g => (european_value b hs K t ht g).symm)
  · have h4 := C102_unbiased true gen 1 N threads ex h _ (option_sens_integrable false K b [t] n2 n3 hs hv0 hK i)
    refine ⟨(hprs i hi).1, h4.1, ?_⟩
    rw [h4.2]
    exact (hprs i hi).2

/-! ### The hypotheses can be met -/

/-- A year, four paths, a spot of 100 and a strike of 1 (`Barrier.demoLib` reads every number as one). -/
example (lib : Adj.Lib) : ∃ (value : (ℕ → ℝ) → ℝ) (price : ℝ), europeanBenchmark ⟨100, 0.05, 0.03, 0.15⟩ 1 (europeanTime 46000 46365) = some price ∧ ∫ ω, value ω ∂noise = price ∧
    ∀ ω, ∃ q agg risks, simulation lib 0 (Prepared.scripted q 0.01 0) ⟨100, 0.05, 0.03, 0.15⟩ q.values [europeanTime 46000 46365] 4 .mrg 1 [((0, 4), 0)] ω = some (agg, risks) ∧ agg / 4 = value ω := by
  have ht : europeanTime 46000 46365 = 1 := by norm_num [europeanTime]
  obtain ⟨p, q, p1, -, value, risk, price, prices, h1, h2, -, h3, -⟩ := C117_benchmark Barrier.demoLib true Barrier.demoEnv Barrier.demo_parse rfl [] rfl 46000 46365 (by norm_num) false (fun _ => 0)
    lib 0.01 0 ⟨100, 0.05, 0.03, 0.15⟩ (by norm_num) 4 1 .mrg [((0, 4), 0)] ⟨by decide, by decide, ⟨[(0, 4)], by decide +kernel, .refl _⟩, by decide⟩
    (show (0 : ℚ) < 1 by norm_num) (by rw [ht]; norm_num [epsilon]) (by
      rw [ht, show ((Barrier.demoLib.toDouble [] : ℚ) : ℝ) = 1 from Rat.cast_one]
      have : (1 : ℝ) ≤ Real.exp (1 / 50) := Real.one_le_exp (by norm_num)
      norm_num [epsilon]
      linarith)
  have p3 : times 46000 (p.future.map Prod.fst) = [europeanTime 46000 46365] := by
    obtain ⟨p', q', e1, -, e3, -⟩ := C117_rows Barrier.demoLib true Barrier.demoEnv Barrier.demo_parse rfl [] rfl 46000 46365 (by norm_num) false (fun _ => 0)
    rw [e1] at p1
    injection p1 with p1
    rw [← p1, e3]
    rfl
  refine ⟨value, price, ?_, h3, fun ω => ?_⟩
  · rw [← h2, show ((Barrier.demoLib.toDouble [] : ℚ) : ℝ) = 1 from Rat.cast_one]
  · obtain ⟨agg, a1, a2⟩ := h1 ω
    rw [p3] at a1
    exact ⟨q, agg, _, a1, by exact_mod_cast a2⟩

end Dal
