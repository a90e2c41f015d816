import Verif.Sim.CompiledRunLemmas
import Verif.Sim.CompiledTodayProps
import Verif.Sim.ReportProps

/-!
# C119: compiled simulations with adjoints over several tasks

Specification: the compiled product run forward on pairs of a value and a derivative on one path at a time (`pathRun`), the mean over the paths of a simulation (`simulated`), the value of a script on
a path (`exactOn`), and for the barrier option `Verif/Sim/BarrierSpec.lean`.
-/

namespace Dal
open Dal.Models Dal.TimeLine Dal.TapeRun Dal.Numeric Dal.Implied Dal.Noise Dal.Report MeasureTheory ProbabilityTheory Filter Topology

/-- The derivative that the compiled run on pairs delivers on a path. -/
noncomputable def runDeriv (fuel : Nat) (p : TapeRun.Product) (b : BS ℝ) (product : List ℝ) (i : Nat) (g : Nat → ℝ) : ℝ := ((pathRun dualOps fuel p (bsDual i b) product g).map Dual.d).getD 0

/-- C119: a compiled product that can be run on every path of the simulation, with or without an event today: the simulation has a result, whatever the order of the tasks and their threads; the value
over the number of paths is the mean of the payoffs, and each risk is, up to the cutoff of the adjoints, the mean of the derivatives of the compiled runs. -/
theorem C119_simulation (lib : Adj.Lib) (fuel : Nat) (p : TapeRun.Product) (today : Bool) (hpay : Pays today p) (b : BS ℝ) (hspot : today = true → 0 < b.spot) (consts product : List ℝ)
    (hne : datesFrom today product ≠ []) (hp : product.IsChain (· < ·)) (hpos : ∀ t ∈ product, 0 < t) (N threads : Nat) (gen : Gen) (ex : List ((Int × Int) × Nat)) (h : Runs N threads ex) (ω : ℕ → ℝ)
    (value : (Nat → ℝ) → ℝ)
    (hv : ∀ e ∈ ex, ∀ g ∈ pathsFrom product.length ω e.1.2.toNat (gen.skip product.length e.1.1.toNat 0), pathRun realOps fuel p b (datesFrom today product) g = some (value g)) :
    ∃ B : Nat → ℝ, ∀ cutoff, 0 ≤ cutoff → ∃ agg risks, cSimulation lib cutoff fuel p b consts (datesFrom today product) N gen threads ex ω = some (agg, risks) ∧ risks.length = 4 + consts.length ∧
      agg / N = simulated true gen product.length N threads ex value ω ∧
      ∀ (i : Nat) (r : ℝ), risks[i]? = some r → |r - simulated true gen product.length N threads ex (runDeriv fuel p b (datesFrom today product) i) ω| ≤ cutoff * B i := by
  have hN : (0 : ℝ) < N := by exact_mod_cast h.some
  set gs : (Int × Int) × Nat → List (Nat → ℝ) := fun e => pathsFrom product.length ω e.1.2.toNat (gen.skip product.length e.1.1.toNat 0) with hgs
  have key : ∀ e, ∃ B : Nat → ℝ, e ∈ ex → ∀ eps, 0 ≤ eps → ∃ risks : List ℝ, tSimulate lib eps fuel p b consts (datesFrom today product) N (gs e) = some (((gs e).map value).sum, risks) ∧ risks.length = 4 + consts.length ∧
      ∀ (i : Nat) (r : ℝ), risks[i]? = some r → |r * N - ((gs e).map (runDeriv fuel p b (datesFrom today product) i)).sum| ≤ eps * B i := by
    intro e
    by_cases hmem : e ∈ ex
    swap
    · exact ⟨fun _ => 0, fun h => absurd h hmem⟩
    obtain ⟨deriv, B, h1, h2⟩ := C118_risks lib fuel p today hpay b hspot consts product hne hp hpos N h.some (gs e) value (hv e hmem)
    refine ⟨B, fun _ eps he => ?_⟩
    obtain ⟨risks, h3, h4, h5⟩ := h2 eps he
    refine ⟨risks, h3, h4, fun i r hr => ?_⟩
    have hi : i < 4 + consts.length := by
      have := (List.getElem?_eq_some_iff.1 hr).1
      omega
    rw [show (gs e).map (runDeriv fuel p b (datesFrom today product) i) = (gs e).map (deriv i) from List.map_congr_left fun g hg => by rw [runDeriv, h1 g hg i hi]; rfl]
    exact h5 i r hr
  choose B hB using key
  refine ⟨fun i => (ex.map fun e => B e i).sum / N, fun cutoff hc => ?_⟩
  have hres : ∀ e, ∃ risks : List ℝ, risks.length = 4 + consts.length ∧ (e ∈ ex → tSimulate lib cutoff fuel p b consts (datesFrom today product) N (gs e) = some (((gs e).map value).sum, risks) ∧
      ∀ (i : Nat) (r : ℝ), risks[i]? = some r → |r * N - ((gs e).map (runDeriv fuel p b (datesFrom today product) i)).sum| ≤ cutoff * B e i) := by
    intro e
    by_cases hmem : e ∈ ex
    · obtain ⟨risks, h1, h2, h3⟩ := hB e hmem cutoff hc
      exact ⟨risks, h2, fun _ => ⟨h1, h3⟩⟩
    · exact ⟨List.replicate (4 + consts.length) 0, by simp, fun h => absurd h hmem⟩
  choose risks h2 h13 using hres
  obtain ⟨res, h4, h5, h6⟩ := cSimulation_spec lib cutoff fuel p b today consts product hne hpos N gen ω (fun e => (((gs e).map value).sum, risks e)) h2 threads ex h.thread
    fun e he => (h13 e he).1
  have hsum : ∀ f : (Nat → ℝ) → ℝ, simulated true gen product.length N threads ex f ω = (ex.map fun e => ((gs e).map f).sum).sum / N := by
    intro f
    rw [simulated, if_pos rfl, valueTape_sum _ _ _ _ _ h.thread]
    congr 2
    refine List.map_congr_left fun e _ => ?_
    rw [hgs]
    dsimp only
    rw [paths_eq, List.map_map]
    rfl
  refine ⟨res.1, res.2, h4, h5, ?_, fun i r hr => ?_⟩
  · rw [hsum, show res.1 = part none res from rfl, h6]
    rfl
  · have hi : i < 4 + consts.length := by
      have := (List.getElem?_eq_some_iff.1 hr).1
      omega
    have h7 : r = (ex.map fun e => (risks e).getD i 0).sum := by
      rw [show (ex.map fun e => (risks e).getD i 0).sum = part (some i) res from (h6 (some i)).symm]
      show r = res.2.getD i 0
      rw [List.getD_eq_getElem?_getD, hr]; rfl
    rw [hsum, h7]
    have h8 : ∀ l : List ((Int × Int) × Nat), (∀ e ∈ l, e ∈ ex) → |(l.map fun e => (risks e).getD i 0).sum * N - (l.map fun e => ((gs e).map (runDeriv fuel p b (datesFrom today product) i)).sum).sum| ≤
        cutoff * (l.map fun e => B e i).sum := by
      intro l
      induction l with
      | nil => simp
      | cons e l ih =>
        intro hl
        have ih := ih fun e' he' => hl e' (List.mem_cons_of_mem _ he')
        simp only [List.map_cons, List.sum_cons]
        have h9 := (h13 e (hl e List.mem_cons_self)).2 i ((risks e).getD i 0) (by
          rw [List.getD_eq_getElem?_getD, List.getElem?_eq_getElem (by rw [h2 e]; exact hi)]; rfl)
        calc _ = |((risks e).getD i 0 * N - ((gs e).map (runDeriv fuel p b (datesFrom today product) i)).sum) +
              ((l.map fun e => (risks e).getD i 0).sum * N - (l.map fun e => ((gs e).map (runDeriv fuel p b (datesFrom today product) i)).sum).sum)| := by congr 1; ring
          _ ≤ _ := (abs_add_le _ _).trans (by rw [mul_add]; exact add_le_add h9 ih)
    have h10 := h8 ex fun _ he => he
    rw [show (ex.map fun e => (risks e).getD i 0).sum - (ex.map fun e => ((gs e).map (runDeriv fuel p b (datesFrom today product) i)).sum).sum / N =
      ((ex.map fun e => (risks e).getD i 0).sum * N - (ex.map fun e => ((gs e).map (runDeriv fuel p b (datesFrom today product) i)).sum).sum) / N by field_simp, abs_div, abs_of_pos hN, ← mul_div_assoc]
    exact div_le_div_of_nonneg_right h10 hN.le

private theorem simulated_zero {N threads : Nat} {ex : List ((Int × Int) × Nat)} (h : Runs N threads ex) (gen : Gen) (n : Nat) (ω : ℕ → ℝ) : simulated true gen n N threads ex (fun _ => 0) ω = 0 := by
  rw [simulated, if_pos rfl, valueTape_sum _ _ _ _ _ h.thread]
  simp

/-- Without a cutoff, the risks of a compiled simulation are the means of the derivatives. -/
theorem C119_exact (lib : Adj.Lib) (fuel : Nat) (p : TapeRun.Product) (today : Bool) (hpay : Pays today p) (b : BS ℝ) (hspot : today = true → 0 < b.spot) (consts product : List ℝ)
    (hne : datesFrom today product ≠ []) (hp : product.IsChain (· < ·)) (hpos : ∀ t ∈ product, 0 < t) (N threads : Nat) (gen : Gen) (ex : List ((Int × Int) × Nat)) (h : Runs N threads ex) (ω : ℕ → ℝ)
    (value : (Nat → ℝ) → ℝ)
    (hv : ∀ e ∈ ex, ∀ g ∈ pathsFrom product.length ω e.1.2.toNat (gen.skip product.length e.1.1.toNat 0), pathRun realOps fuel p b (datesFrom today product) g = some (value g)) :
    cSimulation lib 0 fuel p b consts (datesFrom today product) N gen threads ex ω = some (simulated true gen product.length N threads ex value ω * N,
      (List.range (4 + consts.length)).map fun i => simulated true gen product.length N threads ex (runDeriv fuel p b (datesFrom today product) i) ω) := by
  obtain ⟨B, hB⟩ := C119_simulation lib fuel p today hpay b hspot consts product hne hp hpos N threads gen ex h ω value hv
  obtain ⟨agg, risks, h1, h2, h3, h4⟩ := hB 0 le_rfl
  have hN : (N : ℝ) ≠ 0 := Nat.cast_ne_zero.2 h.some.ne'
  rw [h1, ← h3, div_mul_cancel₀ _ hN]
  congr 2
  refine List.ext_getElem (by simpa using h2) fun i hi hi' => ?_
  have h5 := h4 i risks[i] (List.getElem?_eq_getElem hi)
  rw [zero_mul] at h5
  rw [sub_eq_zero.1 (abs_nonpos_iff.1 h5)]
  simp

/-- A compiled simulation has a result exactly when the product can be run on every path of every task: a task that fails is never left out. -/
theorem C119_refused (lib : Adj.Lib) (fuel : Nat) (p : TapeRun.Product) (today : Bool) (hpay : Pays today p) (b : BS ℝ) (hspot : today = true → 0 < b.spot) (consts product : List ℝ)
    (hne : datesFrom today product ≠ []) (hp : product.IsChain (· < ·)) (hpos : ∀ t ∈ product, 0 < t) (N threads : Nat) (gen : Gen) (ex : List ((Int × Int) × Nat)) (h : Runs N threads ex) (ω : ℕ → ℝ)
    (cutoff : ℝ) (hc : 0 ≤ cutoff) :
    (∃ res, cSimulation lib cutoff fuel p b consts (datesFrom today product) N gen threads ex ω = some res) ↔
      ∀ e ∈ ex, ∀ g ∈ pathsFrom product.length ω e.1.2.toNat (gen.skip product.length e.1.1.toNat 0), ∃ v, pathRun realOps fuel p b (datesFrom today product) g = some v := by
  constructor
  · rintro ⟨res, hres⟩ e he g hg
    by_contra hv
    have hn : pathRun realOps fuel p b (datesFrom today product) g = none := Option.eq_none_iff_forall_ne_some.2 fun v hv' => hv ⟨v, hv'⟩
    rw [pathRun_from today realOps fuel p b (spot_real today b hspot) product hne hp hpos g, Option.map_eq_none_iff] at hn
    have hb : BaseOn 0 b (0 :: product) (datesFrom today product) (base lib b consts (0 :: product) (datesFrom today product)) := base_spec lib 0 b consts (0 :: product) (datesFrom today product) (by omega)
    rw [runSamples_from_v 0, Option.map_eq_none_iff, (tEvaluate_from lib 0 fuel p b today product _ hb hpay g).1, Option.map_eq_none_iff] at hn
    have ht : tSimulate lib cutoff fuel p b consts (datesFrom today product) N (pathsFrom product.length ω e.1.2.toNat (gen.skip product.length e.1.1.toNat 0)) = none := by
      rw [tSimulate, allocate_from today hne hpos]
      dsimp only [List.headD_cons]
      rw [tPaths_none lib cutoff fuel p _ today g (fun adj => by rw [tOne, hn]) _ _ _ hg]
    rw [cSimulation, allocate_from today hne hpos] at hres
    dsimp only at hres
    rw [show (0 :: product).length - 1 = product.length by simp, cTasks_none lib cutoff fuel p b consts _ N gen product.length ω e ht ex _ he] at hres
    cases hres
  · intro hv
    obtain ⟨B, hB⟩ := C119_simulation lib fuel p today hpay b hspot consts product hne hp hpos N threads gen ex h ω (fun g => (pathRun realOps fuel p b (datesFrom today product) g).getD 0) fun e he g hg => by
      obtain ⟨v, hv⟩ := hv e he g hg
      rw [hv]; rfl
    obtain ⟨agg, risks, h1, -⟩ := hB cutoff hc
    exact ⟨_, h1⟩

/-- C119, from a script: a processed product whose payoff is written by `PAYS` only (if it has an event today), compiled and simulated with adjoints over any tasks on any threads. The value over the
number of paths is the mean of the exact values of the script, the risks are the means of the derivatives of the compiled runs up to the cutoff, and the risks of the constant variables are zero up to
the cutoff. The conditions on `ELSE`, folded comparisons and room are those of `C29_no_else_partial`. -/
theorem C119_script (lib : Adj.Lib) (q : Prepared) (eps : ℝ) (today : Bool) (hpay : today = true → ∀ ev ∈ q.events, assignsSs q.payoff ev = false)
    (hf : ∀ ev ∈ q.events, Script.FreshSs (fun k => q.values.getD k 0) ev) (hfold : ∀ ev ∈ marked realOps [] q.events, Script.FoldSs realOps eps ev)
    (hels : ∀ ev ∈ q.events, noElses ev = true) (hroom : ∀ ev ∈ q.events, roomSs ev ≤ 128 ∧ truthsSs ev ≤ 128)
    (b : BS ℝ) (hspot : today = true → 0 < b.spot) (product : List ℝ) (hne : datesFrom today product ≠ []) (hp : product.IsChain (· < ·)) (hpos : ∀ t ∈ product, 0 < t)
    (path : (Nat → ℝ) → List (Script.Sample ℝ)) (hpath : ∀ g, pathSamples b (datesFrom today product) g = some (path g))
    (N threads : Nat) (gen : Gen) (ex : List ((Int × Int) × Nat)) (h : Runs N threads ex) (ω : ℕ → ℝ) :
    ∃ k, ∀ fuel, k ≤ fuel → ∃ B : Nat → ℝ, ∀ cutoff, 0 ≤ cutoff → ∃ agg risks,
      cSimulation lib cutoff fuel (q.compiled eps) b q.values (datesFrom today product) N gen threads ex ω = some (agg, risks) ∧ risks.length = 4 + q.values.length ∧
      agg / N = simulated true gen product.length N threads ex (fun g => exactOn q (path g)) ω ∧
      (∀ (i : Nat) (r : ℝ), risks[i]? = some r → |r - simulated true gen product.length N threads ex (runDeriv fuel (q.compiled eps) b (datesFrom today product) i) ω| ≤ cutoff * B i) ∧
      ∀ (j : Nat) (r : ℝ), risks[4 + j]? = some r → |r| ≤ cutoff * B (4 + j) := by
  choose k hk using fun g => compiled_value q eps hf hfold hels hroom b (datesFrom today product) g (path g) (hpath g)
  refine ⟨(ex.map fun e => ((pathsFrom product.length ω e.1.2.toNat (gen.skip product.length e.1.1.toNat 0)).map k).sum).sum, fun fuel hfuel => ?_⟩
  have hv : ∀ e ∈ ex, ∀ g ∈ pathsFrom product.length ω e.1.2.toNat (gen.skip product.length e.1.1.toNat 0),
      pathRun realOps fuel (q.compiled eps) b (datesFrom today product) g = some (exactOn q (path g)) := fun e he g hg =>
    hk g fuel (((List.single_le_sum (fun _ _ => Nat.zero_le _) _ (List.mem_map_of_mem hg)).trans (List.single_le_sum (fun _ _ => Nat.zero_le _) _
      (List.mem_map_of_mem (f := fun e : (Int × Int) × Nat => ((pathsFrom product.length ω e.1.2.toNat (gen.skip product.length e.1.1.toNat 0)).map k).sum) he))).trans hfuel)
  obtain ⟨B, hB⟩ := C119_simulation lib fuel (q.compiled eps) today (compiled_pays q eps today hpay) b hspot q.values product hne hp hpos N threads gen ex h ω (fun g => exactOn q (path g)) hv
  refine ⟨B, fun cutoff hc => ?_⟩
  obtain ⟨agg, risks, h1, h2, h3, h4⟩ := hB cutoff hc
  refine ⟨agg, risks, h1, h2, h3, h4, fun j r hr => ?_⟩
  have hz : runDeriv fuel (q.compiled eps) b (datesFrom today product) (4 + j) = fun _ => 0 := by
    funext g
    rw [runDeriv]
    cases hx : pathRun dualOps fuel (q.compiled eps) (bsDual (4 + j) b) (datesFrom today product) g with
    | none => rfl
    | some x => exact constant_deriv fuel _ today b hspot product hne hp hpos j g x hx
  have h5 := h4 (4 + j) r hr
  rw [hz, simulated_zero h, sub_zero] at h5
  exact h5

/-- C119, the barrier option of `examples/uoc_compiled`, over any tasks on any threads and with its first date today or later: the value over the number of paths is the mean of the discounted payoffs
of the call where the barrier has not (has) been reached, whatever the smoothing; and the two risks behind those of the model are zero up to the cutoff. -/
theorem C119_barrier {v : Script.PEnv ℝ} {B K w : ℝ} (hv : BarrierEnv v B K w) (lib : Adj.Lib) (eps : ℝ) {cval : List Char → ℝ} {kin twice fuzzy : Bool} (today : Bool) (b : BS ℝ)
    (hspot : today = true → 0 < b.spot) (product : List ℝ) (hp : product.IsChain (· < ·)) (hpos : ∀ t ∈ product, 0 < t) (t0 T : ℝ) (ts : List ℝ)
    (hall : datesFrom today product = t0 :: (ts ++ [T])) {q : Prepared} (hq : IsBarrier v cval kin twice fuzzy ts.length q)
    (N threads : Nat) (gen : Gen) (ex : List ((Int × Int) × Nat)) (h : Runs N threads ex) :
    ∃ line flags, bsAllocate (t0 :: (ts ++ [T])) = some (line, flags) ∧ ∀ ω : ℕ → ℝ, ∃ k, ∀ fuel, k ≤ fuel → ∃ D : Nat → ℝ, ∀ cutoff, 0 ≤ cutoff → ∃ agg risks,
      cSimulation lib cutoff fuel (q.compiled eps) b [B, K] (t0 :: (ts ++ [T])) N gen threads ex ω = some (agg, risks) ∧ risks.length = 6 ∧
      agg / N = simulated true gen product.length N threads ex
        (fun g => Barrier.worth kin B K ((ts ++ [T]).map fun t => spotAt b line t g) (spotAt b line T g) (Real.exp (b.rate * T))) ω ∧
      ∀ (j : Nat) (r : ℝ), risks[4 + j]? = some r → |r| ≤ cutoff * D j := by
  have hch : (t0 :: (ts ++ [T])).IsChain (· < ·) ∧ ∀ t ∈ t0 :: (ts ++ [T]), 0 ≤ t := by
    rw [← hall]
    cases today with
    | false => exact ⟨hp, fun t ht => (hpos t ht).le⟩
    | true =>
      refine ⟨List.isChain_iff_pairwise.2 (List.pairwise_cons.2 ⟨hpos, List.isChain_iff_pairwise.1 hp⟩), fun t ht => ?_⟩
      rcases List.mem_cons.1 ht with rfl | ht
      · exact le_rfl
      · exact (hpos t ht).le
  obtain ⟨line, flags, ha, hpath, -⟩ := bs_paths b (t0 :: (ts ++ [T])) (by simp) hch.1 hch.2
  refine ⟨line, flags, ha, fun ω => ?_⟩
  obtain ⟨hval, hpay, hf, hfold, hels, hroom⟩ := Barrier.compiles hv eps hq
  obtain ⟨k, hk⟩ := C119_script lib q eps today (fun _ => hpay) hf hfold hels hroom b hspot product (by rw [hall]; simp) hp hpos
    (fun g => (t0 :: (ts ++ [T])).map fun t => ⟨spotAt b line t g, Real.exp (b.rate * t)⟩) (by rw [hall]; exact hpath) N threads gen ex h ω
  refine ⟨k, fun fuel hfuel => ?_⟩
  obtain ⟨D, hD⟩ := hk fuel hfuel
  refine ⟨fun j => D (4 + j), fun cutoff hc => ?_⟩
  obtain ⟨agg, risks, h1, h2, h3, -, h5⟩ := hD cutoff hc
  rw [hall, hval] at h1
  rw [hval] at h2
  refine ⟨agg, risks, h1, h2, h3.trans ?_, h5⟩
  congr 1
  funext g
  have := C110_exact hv hq ⟨spotAt b line t0 g, Real.exp (b.rate * t0)⟩ (ts.map fun t => ⟨spotAt b line t g, Real.exp (b.rate * t)⟩) (List.length_map _) ⟨spotAt b line T g, Real.exp (b.rate * T)⟩
  rw [List.map_cons, List.map_append, List.map_singleton, this, List.map_map, List.map_append, List.map_singleton]
  rfl

/-! ### Examples -/

private noncomputable def runModel : BS ℝ := ⟨100, 0.03, 0.01, 0.2⟩
private def runTwo : List ((Int × Int) × Nat) := [((1024, 976), 1), ((0, 1024), 0)]
private theorem run_two : Runs 2000 2 runTwo := ⟨by decide, by decide, ⟨[(0, 1024), (1024, 976)], by decide +kernel, List.Perm.swap _ _ _⟩, by decide⟩

/-- Code that adds two numbers of an empty stack: no simulation. -/
example (lib : Adj.Lib) (ω : ℕ → ℝ) : ¬ ∃ res, cSimulation lib 0 5 ⟨[⟨[.op .add], []⟩], [0], 0⟩ runModel [] [1] 2000 .mrg 2 runTwo ω = some res := by
  intro h
  replace h := (C119_refused lib 5 _ false (.inl rfl) runModel (by simp) [] [1] (by simp [datesFrom]) (by simp) (by simp) 2000 2 .mrg runTwo run_two ω 0 le_rfl).1 h
  obtain ⟨g, hg⟩ : ∃ g, g ∈ pathsFrom 1 ω 976 (Gen.mrg.skip 1 1024 0) := by
    rw [paths_eq]; exact ⟨_, List.mem_map_of_mem (List.mem_range.2 (by decide : 0 < 976))⟩
  obtain ⟨v, hv⟩ := h ((1024, 976), 1) (by simp [runTwo]) g hg
  rw [pathRun_from false realOps 5 _ runModel (spot_real false runModel (by simp)) [1] (by simp [datesFrom]) (by simp) (by simp) g] at hv
  cases hv

/-- The barrier option of the example over two tasks, the second of which runs first. -/
example (lib : Adj.Lib) (ω : ℕ → ℝ) : ∃ q, IsBarrier Barrier.demoEnv (fun _ => 0) false true true 1 q ∧ ∃ line flags, bsAllocate [0, 1, 2] = some (line, flags) ∧
    ∃ fuel agg risks, cSimulation lib 0 fuel (q.compiled 0) runModel [150, 100] [0, 1, 2] 2000 .mrg 2 runTwo ω = some (agg, risks) ∧ risks.length = 6 ∧
      agg / (2000 : ℕ) = simulated true .mrg 2 2000 2 runTwo
        (fun g => Barrier.worth false 150 100 [spotAt runModel line 1 g, spotAt runModel line 2 g] (spotAt runModel line 2 g) (Real.exp (0.03 * 2))) ω ∧
      ∀ (j : Nat) (r : ℝ), risks[4 + j]? = some r → r = 0 := by
  obtain ⟨q, hq, -⟩ := C110_made Barrier.demo_env (fun _ => 0) false true true 1
  obtain ⟨line, flags, h1, h2⟩ := C119_barrier Barrier.demo_env lib 0 true runModel (fun _ => by norm_num [runModel]) [1, 2] (by norm_num) (by simp) 0 2 [1] rfl hq 2000 2 .mrg runTwo run_two
  obtain ⟨k, hk⟩ := h2 ω
  obtain ⟨D, hD⟩ := hk k le_rfl
  obtain ⟨agg, risks, r1, r2, r3, r4⟩ := hD 0 le_rfl
  refine ⟨q, hq, line, flags, h1, k, agg, risks, r1, r2, r3, fun j r hr => ?_⟩
  have := r4 j r hr
  rw [zero_mul] at this
  exact abs_nonpos_iff.1 this

end Dal
