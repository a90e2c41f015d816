import Verif.Sim.CompiledTodayLemmas
import Verif.Sim.FuzzyTapeProps
import Verif.Sim.BarrierTableProps
import Verif.Sim.BarrierPriceProps
import Verif.Script.CompileProps

/-!
# C118: compiled simulations with adjoints of products with an event today

Specification: as for C104, the same product run forward on pairs of a value and a derivative (`pathRun`); for the barrier option, `Verif/Sim/BarrierSpec.lean`.
-/

namespace Dal
open Dal.Models Dal.TimeLine Dal.TapeRun Dal.Numeric Dal.Implied MeasureTheory ProbabilityTheory Filter Topology

theorem pathRun_eq {T : Type} [Add T] [Sub T] [Mul T] [Num T] (o : Script.Ops T) (fuel : Nat) (p : TapeRun.Product) (B : BS T) (product : List ℝ) (gauss : Nat → ℝ) :
    pathRun o fuel p B product gauss = (pathSamples B product gauss).bind fun sps => (runSamples o fuel p sps).map (· p.payoff) := by
  unfold pathRun pathSamples
  cases bsAllocate product with
  | none => rfl
  | some a =>
    dsimp only
    cases B.scenario product (product.map fun _ => ⟨true, [], []⟩) a.1 a.2 gauss with
    | none => rfl
    | some path =>
      dsimp only [Option.map_some, Option.bind_some]
      rw [runSamples, List.zip_map_right, List.map_map]
      rfl

theorem pathRun_from {T : Type} [Add T] [Sub T] [Mul T] [Num T] (today : Bool) (o : Script.Ops T) (fuel : Nat) (p : TapeRun.Product) (B : BS T)
    (hs : today = true → Num.exp (Num.log B.spot) = B.spot) (rest : List ℝ) (hne : datesFrom today rest ≠ []) (hp : rest.IsChain (· < ·)) (hpos : ∀ t ∈ rest, 0 < t) (gauss : Nat → ℝ) :
    pathRun o fuel p B (datesFrom today rest) gauss = (runSamples o fuel p (samplesFrom today B rest gauss)).map (· p.payoff) := by
  rw [pathRun_eq, pathSamples_from today B hs rest hne hp hpos, Option.bind_some]

/-- C118: C104 for a product with or without an event today. If no instruction copies a number to the payoff, or there is no event today, and the product can be run on each path, the simulation with
adjoints ends well; the sum of its payoffs is that of the runs with doubles, and each risk, times the number of paths, is the sum over the paths of the derivatives that the runs forward with respect to
that input have, up to a multiple of the cutoff of small adjoints. `C104_today_violated` is a product without that condition. -/
theorem C118_risks (lib : Adj.Lib) (fuel : Nat) (p : TapeRun.Product) (today : Bool) (hpay : Pays today p) (b : BS ℝ) (hspot : today = true → 0 < b.spot) (consts product : List ℝ) (hne : datesFrom today product ≠ []) (hp : product.IsChain (· < ·)) (hpos : ∀ t ∈ product, 0 < t)
    (n : Nat) (hn : 0 < n) (gs : List (Nat → ℝ)) (value : (Nat → ℝ) → ℝ) (hv : ∀ g ∈ gs, pathRun realOps fuel p b (datesFrom today product) g = some (value g)) :
    ∃ (deriv : Nat → (Nat → ℝ) → ℝ) (B : Nat → ℝ), (∀ g ∈ gs, ∀ i, i < 4 + consts.length → pathRun dualOps fuel p (bsDual i b) (datesFrom today product) g = some ⟨value g, deriv i g⟩) ∧
      ∀ eps, 0 ≤ eps → ∃ risks : List ℝ, tSimulate lib eps fuel p b consts (datesFrom today product) n gs = some ((gs.map value).sum, risks) ∧ risks.length = 4 + consts.length ∧
        ∀ (i : Nat) (r : ℝ), risks[i]? = some r → |r * n - (gs.map (deriv i)).sum| ≤ eps * B i := by
  have hb : ∀ i, i < 4 + consts.length → BaseOn i b (0 :: product) (datesFrom today product) (base lib b consts (0 :: product) (datesFrom today product)) := fun i hi => base_spec lib i b consts (0 :: product) (datesFrom today product) hi
  set bs := base lib b consts (0 :: product) (datesFrom today product) with hbs
  have hderiv : ∀ g, ∃ d : Nat → ℝ, g ∈ gs → ∀ i, i < 4 + consts.length → (runSamples dualOps fuel p (samplesFrom today (bsDual i b) product g)).map (· p.payoff) = some ⟨value g, d i⟩ := by
    intro g
    by_cases hg : g ∈ gs
    · have h := hv g hg
      rw [pathRun_from today realOps fuel p b (spot_real today b hspot) product hne hp hpos g] at h
      obtain ⟨d, -, hd, -⟩ := tOne_from lib fuel p b today product bs (4 + consts.length) (by omega) hb hpay g (value g) h
      exact ⟨d, fun _ => hd⟩
    · exact ⟨fun _ => 0, fun h => absurd h hg⟩
  choose d hd using hderiv
  obtain ⟨B, hB⟩ := tPaths_from lib fuel p b today product bs (4 + consts.length) (by omega) hb hpay value (fun i g => d g i) gs fun g hg i hi => hd g hg i hi
  refine ⟨fun i g => d g i, fun i => B i + ∑ k ∈ Finset.range bs.tape.nodes.length, |Dal.TapeRun.tans i bs.tape.nodes k|, fun g hg i hi => ?_, fun eps heps => ?_⟩
  · rw [pathRun_from today dualOps fuel p (bsDual i b) (spot_dual today b hspot i) product hne hp hpos g]
    exact hd g hg i hi
  obtain ⟨adj, a1, a2⟩ := hB eps heps 0 fun _ => 0
  have hlow := (hb 0 (by omega)).low
  have hlin : ∀ i, i < 4 + consts.length → Adj.Lin bs.tape.nodes (tans i bs.tape.nodes) i := fun i hi => lin_of_back (hb i hi).back (hb i hi).leaf
  have hdown := fun i hi => Adj.down_ok heps (hlin i hi) (bs.tape.nodes.length - 1) (bs.tape.nodes.length - 1) adj (by omega) le_rfl
  obtain ⟨adj', b1, -⟩ := hdown 0 (by omega)
  refine ⟨(List.range (4 + consts.length)).map fun j => adj' j / n, ?_, by simp, ?_⟩
  · unfold tSimulate
    rw [allocate_from today hne hpos]
    dsimp only
    rw [← hbs, show (today :: product.map fun _ => true).headD false = today from rfl, a1]
    dsimp only
    rw [Adj.propagate, if_neg (by omega), Nat.sub_zero, b1, zero_add]
  · intro i r hr
    have hi : i < 4 + consts.length := by have := (List.getElem?_eq_some_iff.1 hr).1; simpa using this
    rw [List.getElem?_map, List.getElem?_range hi] at hr
    have hr' : adj' i / n = r := Option.some.inj hr
    have hn' : (n : ℝ) ≠ 0 := Nat.cast_ne_zero.2 hn.ne'
    rw [← hr', div_mul_cancel₀ _ hn']
    obtain ⟨adj'', c1, c2⟩ := hdown i hi
    rw [b1] at c1
    cases c1
    have hpos := (hb i hi).pos
    rw [Nat.sub_self, Adj.total_one _ _ hpos (hlin i hi).one, show bs.tape.nodes.length - 1 + 1 = bs.tape.nodes.length by omega, Adj.weight_total_low _ _ le_rfl hpos,
      ← Finset.range_eq_Ico] at c2
    have c3 := a2 i hi
    simp only [zero_mul, Finset.sum_const_zero, zero_add] at c3
    rw [mul_add]
    rw [abs_le] at c2 c3 ⊢
    constructor <;> linarith [c2.1, c2.2, c3.1, c3.2]

/-- With no cutoff the risks are the means of the derivatives. -/
theorem C118_exact (lib : Adj.Lib) (fuel : Nat) (p : TapeRun.Product) (today : Bool) (hpay : Pays today p) (b : BS ℝ) (hspot : today = true → 0 < b.spot) (consts product : List ℝ) (hne : datesFrom today product ≠ []) (hp : product.IsChain (· < ·)) (hpos : ∀ t ∈ product, 0 < t)
    (n : Nat) (hn : 0 < n) (gs : List (Nat → ℝ)) (value : (Nat → ℝ) → ℝ) (deriv : Nat → (Nat → ℝ) → ℝ)
    (hd : ∀ g ∈ gs, ∀ i, i < 4 + consts.length → pathRun dualOps fuel p (bsDual i b) (datesFrom today product) g = some ⟨value g, deriv i g⟩) :
    tSimulate lib 0 fuel p b consts (datesFrom today product) n gs = some ((gs.map value).sum, (List.range (4 + consts.length)).map fun i => (gs.map (deriv i)).sum / n) := by
  have hv : ∀ g ∈ gs, pathRun realOps fuel p b (datesFrom today product) g = some (value g) := by
    intro g hg
    have h1 := hd g hg 0 (by omega)
    rw [pathRun_from today _ _ _ _ (spot_dual today b hspot 0) _ hne hp hpos] at h1
    rw [pathRun_from today _ _ _ _ (spot_real today b hspot) _ hne hp hpos, runSamples_from_v 0]
    cases hr : runSamples dualOps fuel p (samplesFrom today (bsDual 0 b) product g) with
    | none => rw [hr] at h1; simp at h1
    | some r =>
      rw [hr] at h1
      have := congrArg (Option.map Dual.v) h1
      simpa using this
  obtain ⟨d, B, h1, h2⟩ := C118_risks lib fuel p today hpay b hspot consts product hne hp hpos n hn gs value hv
  obtain ⟨risks, h3, h4, h5⟩ := h2 0 le_rfl
  rw [h3]
  congr 2
  refine List.ext_getElem? fun i => ?_
  by_cases hi : i < 4 + consts.length
  · rw [List.getElem?_eq_getElem (by omega), List.getElem?_map, List.getElem?_range hi]
    have h6 := h5 i risks[i] (List.getElem?_eq_getElem (by omega))
    rw [zero_mul] at h6
    have h7 := sub_eq_zero.1 (abs_nonpos_iff.1 h6)
    have hn' : (n : ℝ) ≠ 0 := Nat.cast_ne_zero.2 hn.ne'
    have h8 : gs.map (deriv i) = gs.map (d i) := List.map_congr_left fun g hg => by
      have := (hd g hg i hi).symm.trans (h1 g hg i hi)
      simpa using this
    show some risks[i] = some ((gs.map (deriv i)).sum / n)
    rw [h8, ← h7, mul_div_cancel_right₀ _ hn']
  · rw [List.getElem?_eq_none (by omega), List.getElem?_eq_none (by simp; omega)]

private theorem opsHom_lift : Script.OpsHom realOps dualOps Script.lift := by
  refine ⟨rfl, ?_, ?_, ?_, ?_, ?_, ?_, ?_, ?_, ?_, fun _ _ => rfl, fun _ _ => rfl, fun _ _ => rfl⟩ <;> intros <;> refine Dual.ext ?_ ?_ <;> simp [dualOps, realOps, Script.lift]

theorem constant_deriv (fuel : Nat) (p : TapeRun.Product) (today : Bool) (b : BS ℝ) (hspot : today = true → 0 < b.spot) (product : List ℝ)
    (hne : datesFrom today product ≠ []) (hp : product.IsChain (· < ·)) (hpos : ∀ t ∈ product, 0 < t) (j : Nat) (g : Nat → ℝ) (x : Dual)
    (h6 : pathRun dualOps fuel p (bsDual (4 + j) b) (datesFrom today product) g = some x) : x.d = 0 := by
  rw [pathRun_from today _ _ _ _ (spot_dual today b hspot _) _ hne hp hpos] at h6
  have hB : bsDual (4 + j) b = ⟨Script.lift b.spot, Script.lift b.rate, Script.lift b.div, Script.lift b.vol⟩ := by
    rw [bsDual, if_neg (by omega), if_neg (by omega), if_neg (by omega), if_neg (by omega)]; rfl
  have hs : samples (bsDual (4 + j) b) product g = (samples b product g).map (Script.Sample.map Script.lift) := by
    rw [samples, samples, List.map_map]
    refine List.map_congr_left fun k _ => ?_
    obtain ⟨e1, e2⟩ := dual_log (bsDual (4 + j) b) (fun j => (0 :: product).getD j 0) g (k + 1)
    rw [bsDual_values] at e1
    have e3 : (bsDual (4 + j) b).logAt (fun j => (0 :: product).getD j 0) g (k + 1) = Script.lift (b.logAt (fun j => (0 :: product).getD j 0) g (k + 1)) := by
      refine Dual.ext e1 ?_
      rw [e2, hB]
      simp [Script.lift]
    rw [e3, hB]
    show (⟨_, _⟩ : Script.Sample Dual) = ⟨_, _⟩
    congr 1
    · exact Dual.ext rfl (zero_mul _)
    · exact Dual.ext rfl (by show (0 * _ + _ * 0) * _ = (0 : ℝ); ring)
  have hs' : samplesFrom today (bsDual (4 + j) b) product g = (samplesFrom today b product g).map (Script.Sample.map Script.lift) := by
    cases today with
    | false => exact hs
    | true =>
      show (⟨_, _⟩ : Script.Sample Dual) :: _ = ⟨_, _⟩ :: _
      rw [hs]
      congr 1
      rw [hB]
      show (⟨_, _⟩ : Script.Sample Dual) = ⟨_, _⟩
      congr 1
      exact Dual.ext rfl (by show (0 * _ + _ * 0) * _ = (0 : ℝ); ring)
  have hrun : runSamples dualOps fuel p (samplesFrom today (bsDual (4 + j) b) product g) = (runSamples realOps fuel p (samplesFrom today b product g)).map fun r => fun k => Script.lift (r k) := by
    rw [hs', runSamples, runSamples, ← Script.evaluateCompiled_hom opsHom_lift, List.map_map, List.zip_map_right, List.map_map]
    congr 1
    refine List.map_congr_left fun e _ => ?_
    show ((⟨e.1.ns, e.1.cs.map Script.lift⟩ : Script.Streams Dual), Script.Sample.map Script.lift e.2) = (⟨e.1.ns, (e.1.cs.map id).map Script.lift⟩, Script.Sample.map Script.lift e.2)
    rw [List.map_id]
  rw [hrun] at h6
  cases hr2 : runSamples realOps fuel p (samplesFrom today b product g) with
  | none => rw [hr2] at h6; simp at h6
  | some r =>
    rw [hr2] at h6
    have := congrArg (Option.map Dual.d) h6
    simp only [Option.map_some, Option.some.injEq] at this
    exact this.symm

/-- C118: on every path of the compiled run the derivative with respect to a constant variable is zero, whatever the product pays, so that the risk reported is zero up to the cutoff. -/
theorem C118_constants (lib : Adj.Lib) (fuel : Nat) (p : TapeRun.Product) (today : Bool) (hpay : Pays today p) (b : BS ℝ) (hspot : today = true → 0 < b.spot) (consts product : List ℝ) (hne : datesFrom today product ≠ []) (hp : product.IsChain (· < ·)) (hpos : ∀ t ∈ product, 0 < t)
    (n : Nat) (hn : 0 < n) (gs : List (Nat → ℝ)) (value : (Nat → ℝ) → ℝ) (hv : ∀ g ∈ gs, pathRun realOps fuel p b (datesFrom today product) g = some (value g)) :
    ∃ B : Nat → ℝ, ∀ eps, 0 ≤ eps → ∃ risks : List ℝ, tSimulate lib eps fuel p b consts (datesFrom today product) n gs = some ((gs.map value).sum, risks) ∧ risks.length = 4 + consts.length ∧
      ∀ (j : Nat) (r : ℝ), risks[4 + j]? = some r → |r * n| ≤ eps * B j := by
  obtain ⟨d, B, h1, h2⟩ := C118_risks lib fuel p today hpay b hspot consts product hne hp hpos n hn gs value hv
  refine ⟨fun j => B (4 + j), fun eps heps => ?_⟩
  obtain ⟨risks, h3, h4, h5⟩ := h2 eps heps
  refine ⟨risks, h3, h4, fun j r hr => ?_⟩
  have hj : 4 + j < 4 + consts.length := by have := (List.getElem?_eq_some_iff.1 hr).1; omega
  have hz : (gs.map (d (4 + j))).sum = 0 := by
    rw [show gs.map (d (4 + j)) = gs.map fun _ => (0 : ℝ) from List.map_congr_left fun g hg => ?_]
    · simp
    exact constant_deriv fuel p today b hspot product hne hp hpos j g _ (h1 g hg (4 + j) hj)
  have := h5 (4 + j) r hr
  rwa [hz, sub_zero] at this

/-! ### From a script to the compiled simulation -/

open Dal.Report

/-- `ScriptProduct_::Compile` (`event.cpp` 181–208) of a processed product without past events: the marks of the constants, then the streams of each event; `eps` is `Dal::EPSILON`. -/
noncomputable def Report.Prepared.compiled (q : Prepared) (eps : ℝ) : TapeRun.Product :=
  ⟨(marked realOps [] q.events).map (Script.compileEvent realOps eps), q.vars.map fun _ => 0, q.payoff⟩

theorem commOps_real : Script.CommOps realOps := by
  refine ⟨fun x y => add_comm x y, fun x y => mul_comm x y, fun x y => ?_, fun x y => ?_⟩
  · show (if decide (x < y) = true then y else x) = if decide (y < x) = true then x else y
    simp only [decide_eq_true_eq]
    split_ifs <;> linarith
  · show (if decide (y < x) = true then y else x) = if decide (x < y) = true then x else y
    simp only [decide_eq_true_eq]
    split_ifs <;> linarith

/-- A processed product that is compiled and run on a path has the exact value of the script there. -/
theorem compiled_value (q : Prepared) (eps : ℝ) (hf : ∀ ev ∈ q.events, Script.FreshSs (fun k => q.values.getD k 0) ev) (hfold : ∀ ev ∈ marked realOps [] q.events, Script.FoldSs realOps eps ev)
    (hels : ∀ ev ∈ q.events, noElses ev = true) (hroom : ∀ ev ∈ q.events, roomSs ev ≤ 128 ∧ truthsSs ev ≤ 128)
    (b : BS ℝ) (product : List ℝ) (g : Nat → ℝ) (path : List (Script.Sample ℝ)) (hpath : pathSamples b product g = some path) :
    ∃ k, ∀ fuel, k ≤ fuel → pathRun realOps fuel (q.compiled eps) b product g = some (exactOn q path) := by
  obtain ⟨k, hk⟩ := C29_no_else_partial realOps commOps_real eps (fun k => q.values.getD k 0) ⟨30, 1⟩ [] q.events (by simp) hf path hfold hels hroom
  refine ⟨k, fun fuel hfuel => ?_⟩
  have h := hk fuel hfuel
  rw [pathRun_eq, hpath, Option.bind_some, runSamples]
  have hm : ((q.compiled eps).code.zip path).map (fun e => ((⟨e.1.ns, e.1.cs.map Num.lit⟩ : Script.Streams ℝ), e.2)) =
      ((marked realOps [] q.events).map (Script.compileEvent realOps eps)).zip path := by
    refine (List.map_congr_left fun e _ => ?_).trans (List.map_id _)
    show ((⟨e.1.ns, e.1.cs.map id⟩ : Script.Streams ℝ), e.2) = e
    rw [List.map_id]
  have hz : (fun k => (Num.lit ((q.compiled eps).vars.getD k 0) : ℝ)) = Script.pastEvaluate realOps (fun k => q.values.getD k 0) ⟨30, 1⟩ [] := by
    funext k
    show (q.vars.map fun _ => (0 : ℝ)).getD k 0 = 0
    rw [List.getD_eq_getElem?_getD, List.getElem?_map]
    cases q.vars[k]? <;> rfl
  rw [hm, hz, h]
  rfl

/-- Its streams copy nothing to the payoff if the script does not assign it. -/
theorem compiled_pays (q : Prepared) (eps : ℝ) (today : Bool) (hpay : today = true → ∀ ev ∈ q.events, assignsSs q.payoff ev = false) : Pays today (q.compiled eps) := by
  cases today with
  | false => exact .inl rfl
  | true =>
    refine .inr fun c hc => ?_
    obtain ⟨ev, hev, rfl⟩ := List.mem_map.1 hc
    refine noCopy_compiled realOps eps ev ?_
    rw [marked_eq] at hev
    exact marked_all realOps (P := fun ev => assignsSs q.payoff ev = false) q.events _ (fun ev he vc => by rw [assignsSs_const]; exact hpay rfl ev he) ev hev

/-- C118, from a script: a processed product whose payoff is written by `PAYS` only (if it has an event today), compiled and simulated with adjoints. The sum of the payoffs is that of the exact values
of the script on the paths; the risks are the sums of the derivatives of the compiled runs up to the cutoff; and the risks of the constant variables are zero up to the cutoff. The conditions on `ELSE`,
folded comparisons and room are those of `C29_no_else_partial`. -/
theorem C118_script (lib : Adj.Lib) (q : Prepared) (eps : ℝ) (today : Bool) (hpay : today = true → ∀ ev ∈ q.events, assignsSs q.payoff ev = false)
    (hf : ∀ ev ∈ q.events, Script.FreshSs (fun k => q.values.getD k 0) ev) (hfold : ∀ ev ∈ marked realOps [] q.events, Script.FoldSs realOps eps ev)
    (hels : ∀ ev ∈ q.events, noElses ev = true) (hroom : ∀ ev ∈ q.events, roomSs ev ≤ 128 ∧ truthsSs ev ≤ 128)
    (b : BS ℝ) (hspot : today = true → 0 < b.spot) (product : List ℝ) (hne : datesFrom today product ≠ []) (hp : product.IsChain (· < ·)) (hpos : ∀ t ∈ product, 0 < t)
    (n : Nat) (hn : 0 < n) (path : (Nat → ℝ) → List (Script.Sample ℝ)) (hpath : ∀ g, pathSamples b (datesFrom today product) g = some (path g)) (gs : List (Nat → ℝ)) :
    ∃ k, ∀ fuel, k ≤ fuel → ∃ (deriv : Nat → (Nat → ℝ) → ℝ) (B : Nat → ℝ),
      (∀ g ∈ gs, ∀ i, i < 4 + q.values.length → pathRun dualOps fuel (q.compiled eps) (bsDual i b) (datesFrom today product) g = some ⟨exactOn q (path g), deriv i g⟩) ∧
      (∀ g ∈ gs, ∀ j, j < q.values.length → deriv (4 + j) g = 0) ∧
      ∀ cutoff, 0 ≤ cutoff → ∃ risks : List ℝ,
        tSimulate lib cutoff fuel (q.compiled eps) b q.values (datesFrom today product) n gs = some ((gs.map fun g => exactOn q (path g)).sum, risks) ∧
        risks.length = 4 + q.values.length ∧ ∀ (i : Nat) (r : ℝ), risks[i]? = some r → |r * n - (gs.map (deriv i)).sum| ≤ cutoff * B i := by
  choose k hk using fun g => compiled_value q eps hf hfold hels hroom b (datesFrom today product) g (path g) (hpath g)
  refine ⟨(gs.map k).sum, fun fuel hfuel => ?_⟩
  have hv : ∀ g ∈ gs, pathRun realOps fuel (q.compiled eps) b (datesFrom today product) g = some (exactOn q (path g)) := fun g hg =>
    hk g fuel ((List.single_le_sum (fun _ _ => Nat.zero_le _) _ (List.mem_map_of_mem hg)).trans hfuel)
  obtain ⟨d, B, h1, h2⟩ := C118_risks lib fuel (q.compiled eps) today (compiled_pays q eps today hpay) b hspot q.values product hne hp hpos n hn gs (fun g => exactOn q (path g)) hv
  exact ⟨d, B, h1, fun g hg j hj => constant_deriv fuel _ today b hspot product hne hp hpos j g _ (h1 g hg (4 + j) (by omega)), h2⟩

/-- The barrier option meets the conditions for compiling. -/
theorem Barrier.compiles {v : Script.PEnv ℝ} {B K w : ℝ} (hv : BarrierEnv v B K w) (eps : ℝ) {cval : List Char → ℝ} {kin twice fuzzy : Bool} {n : Nat} {q : Prepared}
    (hq : IsBarrier v cval kin twice fuzzy n q) : q.values = [B, K] ∧ (∀ ev ∈ q.events, assignsSs q.payoff ev = false) ∧
      (∀ ev ∈ q.events, Script.FreshSs (fun k => q.values.getD k 0) ev) ∧ (∀ ev ∈ marked realOps [] q.events, Script.FoldSs realOps eps ev) ∧
      (∀ ev ∈ q.events, noElses ev = true) ∧ ∀ ev ∈ q.events, roomSs ev ≤ 128 ∧ truthsSs ev ≤ 128 := by
  have hqe := Barrier.made_eq hv hq
  have hval : q.values = [B, K] := by rw [hqe]
  have hev : ∀ ev ∈ q.events, ev = startTree 0 (flagBefore kin) ∨ ev = watchTree 0 0 B w v.zero (flagAfter kin) [0] ∨ ev = lastTree twice 0 1 0 1 B K w v.zero (flagAfter kin) [0] := by
    rw [hqe]
    intro ev he
    dsimp only at he
    rw [barrierCode] at he
    rcases List.mem_cons.1 he with rfl | he
    · exact .inl rfl
    · rcases List.mem_append.1 he with he | he
      · exact .inr (.inl (List.mem_replicate.1 he).2)
      · exact .inr (.inr (List.mem_singleton.1 he))
  have hpo : q.payoff = 1 := by rw [hqe]
  refine ⟨hval, ?_, ?_, ?_, ?_, ?_⟩
  · intro ev he
    rw [hpo]
    rcases hev ev he with rfl | rfl | rfl
    · rfl
    · rfl
    · cases twice <;> rfl
  · intro ev he
    rw [hval]
    rcases hev ev he with rfl | rfl | rfl
    · simp [startTree, Script.FreshSs, Script.FreshS, Script.FreshE]
    · simp [watchTree, barrierIf, Script.FreshSs, Script.FreshS, Script.FreshC, Script.FreshE]
    · cases twice <;> simp [lastTree, payTree, barrierIf, Script.FreshSs, Script.FreshS, Script.FreshC, Script.FreshE]
  · intro ev he
    rw [marked_eq] at he
    refine marked_all realOps (P := fun ev => Script.FoldSs realOps eps ev) q.events _ (fun ev he vc => ?_) ev he
    rcases hev ev he with rfl | rfl | rfl
    · simp [startTree, Script.constSs, Script.constS, Script.FoldSs, Script.FoldS]
    · simp [watchTree, barrierIf, Script.constSs, Script.constS, Script.constC, Script.constE, Script.FoldSs, Script.FoldS, Script.FoldC, Script.Expr.kval]
    · cases twice <;> simp [lastTree, payTree, barrierIf, Script.constSs, Script.constS, Script.constC, Script.constE, Script.FoldSs, Script.FoldS, Script.FoldC, Script.Expr.kval]
  · intro ev he
    rcases hev ev he with rfl | rfl | rfl
    · rfl
    · rfl
    · cases twice <;> rfl
  · intro ev he
    rcases hev ev he with rfl | rfl | rfl
    · simp [startTree, roomSs, roomS, roomE, truthsSs, truthsS]
    · simp [watchTree, barrierIf, roomSs, roomS, roomC, roomE, truthsSs, truthsS, truthsC]
    · cases twice <;> simp [lastTree, payTree, barrierIf, roomSs, roomS, roomC, roomE, truthsSs, truthsS, truthsC]

/-- C118, the barrier option of `examples/uoc_compiled`, with its first date today or later: on the paths of the model, the compiled simulation with adjoints sums the discounted payoffs of the call where
the barrier has not (has) been reached, whatever the smoothing; and the two risks behind those of the model are zero up to the cutoff. The example prints the first of them, that of the barrier, as
`dP/dK`. -/
theorem C118_barrier {v : Script.PEnv ℝ} {B K w : ℝ} (hv : BarrierEnv v B K w) (lib : Adj.Lib) (eps : ℝ) {cval : List Char → ℝ} {kin twice fuzzy : Bool} (today : Bool) (b : BS ℝ)
    (hspot : today = true → 0 < b.spot) (product : List ℝ) (hp : product.IsChain (· < ·)) (hpos : ∀ t ∈ product, 0 < t) (t0 T : ℝ) (ts : List ℝ)
    (hall : datesFrom today product = t0 :: (ts ++ [T])) {q : Prepared} (hq : IsBarrier v cval kin twice fuzzy ts.length q) (n : Nat) (hn : 0 < n) :
    ∃ line flags, bsAllocate (t0 :: (ts ++ [T])) = some (line, flags) ∧ ∀ gs, ∃ k, ∀ fuel, k ≤ fuel → ∃ D : Nat → ℝ, ∀ cutoff, 0 ≤ cutoff → ∃ risks : List ℝ,
      tSimulate lib cutoff fuel (q.compiled eps) b [B, K] (t0 :: (ts ++ [T])) n gs =
        some ((gs.map fun g => Barrier.worth kin B K ((ts ++ [T]).map fun t => spotAt b line t g) (spotAt b line T g) (Real.exp (b.rate * T))).sum, risks) ∧
      risks.length = 6 ∧ ∀ (j : Nat) (r : ℝ), risks[4 + j]? = some r → |r * n| ≤ cutoff * D j := by
  have hch : (t0 :: (ts ++ [T])).IsChain (· < ·) ∧ ∀ t ∈ t0 :: (ts ++ [T]), 0 ≤ t := by
    rw [← hall]
    cases today with
    | false => exact ⟨hp, fun t ht => (hpos t ht).le⟩
    | true =>
      refine ⟨List.isChain_iff_pairwise.2 (List.pairwise_cons.2 ⟨hpos, List.isChain_iff_pairwise.1 hp⟩), fun t ht => ?_⟩
      rcases List.mem_cons.1 ht with rfl | ht
      · exact le_rfl
      · exact (hpos t ht).le
  obtain ⟨line, flags, ha, hpath, -⟩ := bs_paths b (t0 :: (ts ++ [T])) (by simp) hch.1 hch.2
  refine ⟨line, flags, ha, fun gs => ?_⟩
  obtain ⟨hval, hpay, hf, hfold, hels, hroom⟩ := Barrier.compiles hv eps hq
  obtain ⟨k, hk⟩ := C118_script lib q eps today (fun _ => hpay) hf hfold hels hroom
    b hspot product (by rw [hall]; simp) hp hpos n hn (fun g => (t0 :: (ts ++ [T])).map fun t => ⟨spotAt b line t g, Real.exp (b.rate * t)⟩) (by rw [hall]; exact hpath) gs
  refine ⟨k, fun fuel hfuel => ?_⟩
  obtain ⟨d, D, -, h2, h3⟩ := hk fuel hfuel
  refine ⟨fun j => D (4 + j), fun cutoff hc => ?_⟩
  obtain ⟨risks, r1, r2, r3⟩ := h3 cutoff hc
  rw [hall, hval] at r1
  rw [hval] at r2
  refine ⟨risks, r1.trans ?_, r2, fun j r hr => ?_⟩
  · congr 2
    refine congrArg List.sum (List.map_congr_left fun g _ => ?_)
    have := C110_exact hv hq ⟨spotAt b line t0 g, Real.exp (b.rate * t0)⟩ (ts.map fun t => ⟨spotAt b line t g, Real.exp (b.rate * t)⟩) (List.length_map _) ⟨spotAt b line T g, Real.exp (b.rate * T)⟩
    rw [List.map_cons, List.map_append, List.map_singleton, this, List.map_map, List.map_append, List.map_singleton]
    rfl
  · have hj : j < q.values.length := by
      rw [hval]
      have := (List.getElem?_eq_some_iff.1 hr).1
      rw [r2] at this
      exact Nat.lt_of_add_lt_add_left (n := 4) this
    have h4 := r3 (4 + j) r hr
    have hz : (gs.map (d (4 + j))).sum = 0 := by
      rw [List.map_congr_left (g := fun _ => (0 : ℝ)) fun g hg => h2 g hg j hj]
      simp
    rwa [hz, sub_zero] at h4


/-! ### Examples -/

private noncomputable def todayModel : BS ℝ := ⟨100, 0.03, 0.01, 0.2⟩

/-- `x pays spot()` today: the payoff is made on the path, and its derivative with respect to the spot is one. -/
example (lib : Adj.Lib) : tSimulate lib 0 4 ⟨[⟨[.op .spot, .op .pays, .arg 0], []⟩], [0], 0⟩ todayModel [] [0] 1 [fun _ => 0] = some (100, [1, 0, 0, 0]) := by
  have h := C118_exact lib 4 ⟨[⟨[.op .spot, .op .pays, .arg 0], []⟩], [0], 0⟩ true (.inr (by
      intro c hc j hj
      rw [List.mem_singleton.1 hc] at hj
      match j with
      | 0 => simp at hj
      | 1 => simp at hj
      | 2 => simp at hj
      | _ + 3 => simp at hj)) todayModel (fun _ => by norm_num [todayModel]) [] [] (by simp [datesFrom]) List.isChain_nil (by simp) 1 one_pos [fun _ => 0]
    (fun _ => 100) (fun i _ => if i = 0 then 1 else 0) (by
      intro g _ i hi
      rw [pathRun_from true _ _ _ _ (spot_dual true todayModel (fun _ => by norm_num [todayModel]) i) [] (by simp [datesFrom]) List.isChain_nil (by simp)]
      show some ((dualOps.add (Script.lift 0) (dualOps.div (bsDual i todayModel).spot ((bsDual i todayModel).numeraire 0)))) = _
      congr 1
      have hz : (bsDual i todayModel).numeraire 0 = Script.lift 1 := by
        refine Dual.ext ?_ ?_
        · show Real.exp (_ * 0) = 1
          rw [mul_zero, Real.exp_zero]
        · show (_ * 0 + _ * 0) * _ = (0 : ℝ)
          ring
      rw [hz]
      refine Dual.ext ?_ ?_ <;> simp [dualOps, Script.lift, bsDual, todayModel])
  rw [show datesFrom true [] = [0] from rfl] at h
  rw [h]
  norm_num [List.range_succ]

/-- The barrier option of the example, with its first date today. -/
example (lib : Adj.Lib) (gs : List (Nat → ℝ)) : ∃ q, IsBarrier Barrier.demoEnv (fun _ => 0) false true true 1 q ∧ ∃ line flags, bsAllocate [0, 1, 2] = some (line, flags) ∧
    ∃ fuel, ∃ D : Nat → ℝ, ∀ cutoff, 0 ≤ cutoff → ∃ risks : List ℝ, tSimulate lib cutoff fuel (q.compiled 0) todayModel [150, 100] [0, 1, 2] 1000 gs =
        some ((gs.map fun g => Barrier.worth false 150 100 [spotAt todayModel line 1 g, spotAt todayModel line 2 g] (spotAt todayModel line 2 g) (Real.exp (0.03 * 2))).sum, risks) ∧
      ∀ (j : Nat) (r : ℝ), risks[4 + j]? = some r → |r * 1000| ≤ cutoff * D j := by
  obtain ⟨q, hq, -⟩ := C110_made Barrier.demo_env (fun _ => 0) false true true 1
  obtain ⟨line, flags, h1, h2⟩ := C118_barrier Barrier.demo_env lib 0 true todayModel (fun _ => by norm_num [todayModel]) [1, 2] (by norm_num) (by simp) 0 2 [1] rfl hq 1000 (by norm_num)
  obtain ⟨k, hk⟩ := h2 gs
  obtain ⟨D, hD⟩ := hk k le_rfl
  refine ⟨q, hq, line, flags, h1, k, D, fun cutoff hc => ?_⟩
  obtain ⟨risks, r1, -, r3⟩ := hD cutoff hc
  exact ⟨risks, r1, fun j r hr => by simpa using r3 j r hr⟩

end Dal
