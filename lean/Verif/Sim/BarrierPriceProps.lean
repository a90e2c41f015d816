import Verif.Sim.BarrierProps

/-!
# C110: prices of barrier options

Specification: means over the Gaussian numbers of Black–Scholes paths, and the closed form of the call.
-/

namespace Dal
open Dal.Report Dal.Models Dal.TimeLine Dal.TapeRun Dal.Numeric Dal.Implied Dal.Noise Dal.Valued Dal.Strings Dal.Barrier MeasureTheory ProbabilityTheory

/-- The spot of a path at a date of the time line. -/
noncomputable def spotAt (b : BS ℝ) (line : List ℝ) (t : ℝ) (gauss : Nat → ℝ) : ℝ := Real.exp (b.logAt (fun i => line.getD i 0) gauss (line.idxOf t))

/-- The samples of a product that begins today or later, date by date. -/
theorem bs_paths (b : BS ℝ) (product : List ℝ) (hne : product ≠ []) (hp : product.IsChain (· < ·)) (hnn : ∀ t ∈ product, 0 ≤ t) :
    ∃ line flags, bsAllocate product = some (line, flags) ∧
      (∀ gauss, pathSamples b product gauss = some (product.map fun t => ⟨spotAt b line t gauss, Real.exp (b.rate * t)⟩)) ∧
      line.getD 0 0 = 0 ∧ ∀ t ∈ product, line.idxOf t ≤ line.length - 1 ∧ line.getD (line.idxOf t) 0 = t ∧ ∀ i, i < line.idxOf t → line.getD i 0 ≤ line.getD (i + 1) 0 := by
  obtain ⟨line, flags, ha, hhead, hsub, hchain, -, -, -⟩ := C63_bs_line product hne hp hnn
  have hpw := List.isChain_iff_pairwise.1 hchain
  have hnd : line.Nodup := hpw.imp fun h => ne_of_lt h
  refine ⟨line, flags, ha, fun gauss => ?_, ?_, fun t ht => ?_⟩
  · obtain ⟨l1, f1, path, a1, s1, n1, q1⟩ := C77_bs_scenario b product (product.map fun _ => ⟨true, [], []⟩) gauss hne hp hnn (List.length_map _)
    rw [ha] at a1
    injection a1 with a1
    injection a1 with a1 a2
    subst a1 a2
    rw [pathSamples, ha]
    dsimp only
    rw [s1, Option.map_some]
    congr 1
    apply List.ext_getElem?
    intro k
    rw [List.getElem?_map, List.getElem?_map]
    by_cases hk : k < product.length
    · obtain ⟨ps, e1, e2⟩ := q1 k hk
      have hps : line.idxOf product[k] = ps := by
        obtain ⟨h1, h2⟩ := List.getElem?_eq_some_iff.1 e1
        rw [← h2, hnd.idxOf_getElem]
      rw [e2, List.getElem?_eq_getElem hk]
      simp [spotAt, hps]
    · rw [List.getElem?_eq_none (by omega), List.getElem?_eq_none (by omega)]
      rfl
  · rw [List.getD_eq_getElem?_getD, ← List.head?_eq_getElem?, hhead]; rfl
  · have hm : t ∈ line := hsub.subset ht
    have hlt := List.idxOf_lt_length_of_mem hm
    refine ⟨by omega, ?_, fun i hi => ?_⟩
    · rw [List.getD_eq_getElem?_getD, List.getElem?_eq_getElem hlt, List.getElem_idxOf]; rfl
    · rw [List.getD_eq_getElem?_getD, List.getD_eq_getElem?_getD, List.getElem?_eq_getElem (by omega), List.getElem?_eq_getElem (by omega)]
      exact (List.pairwise_iff_getElem.1 hpw i (i + 1) (by omega) (by omega) (by omega)).le

private theorem spot_measurable (b : BS ℝ) (line : List ℝ) (t : ℝ) (m : Nat) : Measurable fun g : Fin m → ℝ => spotAt b line t (numbers g) := by
  unfold spotAt
  simp only [log_sum]
  refine Real.measurable_exp.comp (Measurable.const_add (Finset.measurable_fun_sum _ fun i _ => Measurable.const_mul ?_ _) _)
  unfold numbers
  by_cases h : i < m
  · simp only [h, dif_pos]; exact measurable_pi_apply _
  · simp only [h, dif_neg, not_false_iff]; exact measurable_const

private theorem touched_measurable {Ω : Type} [MeasurableSpace Ω] (B : ℝ) (f : ℝ → Ω → ℝ) (hf : ∀ t, Measurable (f t)) : ∀ ts : List ℝ, MeasurableSet {g | Touched B (ts.map fun t => f t g)} := by
  intro ts
  induction ts with
  | nil => simp [Touched]
  | cons t ts ih =>
    have : {g | Touched B ((t :: ts).map fun t => f t g)} = {g | B ≤ f t g} ∪ {g | Touched B (ts.map fun t => f t g)} := by
      ext g; simp [Touched]
    rw [this]
    exact (measurableSet_le measurable_const (hf t)).union ih

private theorem worth_measurable {Ω : Type} [MeasurableSpace Ω] (kin : Bool) (B K num : ℝ) (f : ℝ → Ω → ℝ) (hf : ∀ t, Measurable (f t)) (ts : List ℝ) (T : ℝ) :
    Measurable fun g => worth kin B K (ts.map fun t => f t g) (f T g) num := by
  classical
  unfold worth
  refine Measurable.ite ?_ ?_ measurable_const
  · cases kin
    · have : {g | false = true ↔ Touched B (ts.map fun t => f t g)} = {g | Touched B (ts.map fun t => f t g)}ᶜ := by ext g; simp
      rw [this]
      exact (touched_measurable B f hf ts).compl
    · have : {g | true = true ↔ Touched B (ts.map fun t => f t g)} = {g | Touched B (ts.map fun t => f t g)} := by ext g; simp
      rw [this]
      exact touched_measurable B f hf ts
  · exact (measurable_const.max ((hf T).sub_const K)).div_const num

private theorem degree_measurable (w : ℝ) : Measurable (degree w) := by
  unfold degree
  exact Measurable.ite measurableSet_Iio measurable_const (Measurable.ite measurableSet_Ioi measurable_const (by fun_prop))

private theorem left_measurable (eps w : ℝ) : Measurable (left eps w) := by
  unfold left
  have h := degree_measurable w
  exact Measurable.ite (measurableSet_lt measurable_const h) measurable_const (Measurable.ite (measurableSet_lt h measurable_const) measurable_const (h.const_sub 1))

private theorem alive_measurable {Ω : Type} [MeasurableSpace Ω] (eps w B : ℝ) (f : ℝ → Ω → ℝ) (hf : ∀ t, Measurable (f t)) : ∀ ts : List ℝ, Measurable fun g => alive eps w B (ts.map fun t => f t g) := by
  intro ts
  induction ts with
  | nil => simp [alive]
  | cons t ts ih =>
    have : (fun g => alive eps w B ((t :: ts).map fun t => f t g)) = fun g => left eps w (f t g - B) * alive eps w B (ts.map fun t => f t g) := by
      funext g; simp [alive]
    rw [this]
    exact ((left_measurable eps w).comp ((hf t).sub_const B)).mul ih

private theorem smooth_measurable {Ω : Type} [MeasurableSpace Ω] (kin : Bool) (eps w B K num : ℝ) (f : ℝ → Ω → ℝ) (hf : ∀ t, Measurable (f t)) (ts : List ℝ) (T : ℝ) :
    Measurable fun g => smoothWorth kin eps w B K (ts.map fun t => f t g) (f T g) num := by
  unfold smoothWorth
  have h := alive_measurable eps w B f hf ts
  refine Measurable.mul ?_ ((measurable_const.max ((hf T).sub_const K)).div_const num)
  cases kin
  · simpa using h
  · simpa using h.const_sub 1

private theorem worth_range (kin : Bool) (B K : ℝ) (spots : List ℝ) (last num : ℝ) (hn : 0 < num) : 0 ≤ worth kin B K spots last num ∧ worth kin B K spots last num ≤ max 0 (last - K) / num := by
  have hp : 0 ≤ max 0 (last - K) / num := div_nonneg (le_max_left _ _) hn.le
  rw [worth]
  split_ifs
  · exact ⟨hp, le_rfl⟩
  · exact ⟨le_rfl, hp⟩

private theorem barrier_labels (sgn : Bool) : (Results.bsLabels ++ [barrierName, strikeName]).Pairwise fun a b => eqS sgn a b = false := by cases sgn <;> decide +kernel

section
variable {v : Script.PEnv ℝ} {B K w : ℝ} (hv : BarrierEnv v B K w)
include hv

/-- C110, prices: run on the Black–Scholes scenarios of its dates, the option that is knocked in and the option that is knocked out have means that are not negative and add up to the
discounted Black price of the call, exactly and smoothed; and the mean of the smoothed option that is knocked out lies between the exact prices with the barrier half a width lower and
half a width higher. -/
theorem C110_price {cval : List Char → ℝ} {twice fuzzy : Bool} {ts : List ℝ} {qi qo : Prepared} (hi : IsBarrier v cval true twice fuzzy ts.length qi)
    (ho : IsBarrier v cval false twice fuzzy ts.length qo) (hw : 0 < w) (d eps : ℝ) (he : 0 ≤ eps) (he1 : eps ≤ 1) (b : BS ℝ) (t0 T : ℝ) (hp : (t0 :: (ts ++ [T])).IsChain (· < ·)) (h0 : 0 ≤ t0)
    (hs : 0 < b.spot) (hr : Regular (b.spot * Real.exp ((b.rate - b.div) * T)) (b.vol * Real.sqrt T) K) :
    ∃ (line : List ℝ) (flags : List Bool) (path : (Nat → ℝ) → List (Script.Sample ℝ)) (price : ℝ) (si so : (Nat → ℝ) → ℝ) (low high : ℝ),
      bsAllocate (t0 :: (ts ++ [T])) = some (line, flags) ∧ (∀ gauss, pathSamples b (t0 :: (ts ++ [T])) gauss = some (path gauss)) ∧
      blackOpt (b.spot * Real.exp ((b.rate - b.div) * T)) (b.vol * Real.sqrt T) K .call = some price ∧
      (∀ gauss, smoothOn d eps qi (path gauss) = some (si gauss) ∧ smoothOn d eps qo (path gauss) = some (so gauss)) ∧
      0 ≤ gaussMean (line.length - 1) (fun g => exactOn qi (path g)) ∧ 0 ≤ gaussMean (line.length - 1) (fun g => exactOn qo (path g)) ∧
      gaussMean (line.length - 1) (fun g => exactOn qi (path g)) + gaussMean (line.length - 1) (fun g => exactOn qo (path g)) = Real.exp (-b.rate * T) * price ∧
      gaussMean (line.length - 1) si + gaussMean (line.length - 1) so = Real.exp (-b.rate * T) * price ∧
      low = gaussMean (line.length - 1) (fun g => worth false (B - w / 2) K ((path g).tail.map Script.Sample.spot) (spotAt b line T g) (Real.exp (b.rate * T))) ∧
      high = gaussMean (line.length - 1) (fun g => worth false (B + w / 2) K ((path g).tail.map Script.Sample.spot) (spotAt b line T g) (Real.exp (b.rate * T))) ∧
      low ≤ gaussMean (line.length - 1) so ∧ gaussMean (line.length - 1) so ≤ high := by
  have hpw := List.isChain_iff_pairwise.1 hp
  have hnn : ∀ t ∈ t0 :: (ts ++ [T]), 0 ≤ t := by
    intro t ht
    rcases List.mem_cons.1 ht with rfl | ht
    · exact h0
    · exact h0.trans (List.rel_of_pairwise_cons hpw ht).le
  obtain ⟨line, flags, ha, hpath, hl0, hidx⟩ := bs_paths b (t0 :: (ts ++ [T])) (by simp) hp hnn
  obtain ⟨i1, i2, i3⟩ := hidx T (by simp)
  set num := Real.exp (b.rate * T) with hnum
  have hn : 0 < num := Real.exp_pos _
  set f : ℝ → (Nat → ℝ) → ℝ := spotAt b line with hf
  have hbs := C97_bs b (fun i => line.getD i 0) (line.length - 1) (line.idxOf T) i1 i3 hl0 hs .call K (fun s => max 0 (s - K)) (fun _ => rfl) (by rw [i2]; exact hr)
  rw [i2, Option.map_eq_some_iff] at hbs
  obtain ⟨price, hprice, hmean⟩ := hbs
  have hcall : Integrable (fun g : Fin (line.length - 1) → ℝ => max 0 (f T (numbers g) - K) / num) (Measure.pi fun _ => gaussianReal 0 1) :=
    (bs_integrable b (fun i => line.getD i 0) (line.length - 1) (line.idxOf T) i1 i3 hs (fun s => max 0 (s - K)) (by fun_prop)
      (lognormal_payoff_integrable .call K _ (fun _ => rfl))).div_const num
  have hfm : ∀ t, Measurable fun g : Fin (line.length - 1) → ℝ => f t (numbers g) := fun t => spot_measurable b line t _
  have hwi : ∀ (kin : Bool) (A : ℝ) (us : List ℝ), Integrable (fun g : Fin (line.length - 1) → ℝ => worth kin A K (us.map fun t => f t (numbers g)) (f T (numbers g)) num)
      (Measure.pi fun _ => gaussianReal 0 1) := by
    intro kin A us
    refine hcall.mono' (worth_measurable kin A K num (fun t g => f t (numbers g)) hfm us T).aestronglyMeasurable (Filter.Eventually.of_forall fun g => ?_)
    have := worth_range kin A K (us.map fun t => f t (numbers g)) (f T (numbers g)) num hn
    rw [Real.norm_of_nonneg this.1]
    exact this.2
  have hsi : ∀ (kin : Bool) (us : List ℝ), Integrable (fun g : Fin (line.length - 1) → ℝ => smoothWorth kin eps w B K (us.map fun t => f t (numbers g)) (f T (numbers g)) num)
      (Measure.pi fun _ => gaussianReal 0 1) := by
    intro kin us
    refine hcall.mono' (smooth_measurable kin eps w B K num (fun t g => f t (numbers g)) hfm us T).aestronglyMeasurable (Filter.Eventually.of_forall fun g => ?_)
    obtain ⟨g1, g2, g3, g4⟩ := smooth_between he he1 hw B K (us.map fun t => f t (numbers g)) (f T (numbers g)) num hn
    have r1 := worth_range false (B - w / 2) K (us.map fun t => f t (numbers g)) (f T (numbers g)) num hn
    have r2 := worth_range false (B + w / 2) K (us.map fun t => f t (numbers g)) (f T (numbers g)) num hn
    have r3 := worth_range true (B - w / 2) K (us.map fun t => f t (numbers g)) (f T (numbers g)) num hn
    have r4 := worth_range true (B + w / 2) K (us.map fun t => f t (numbers g)) (f T (numbers g)) num hn
    cases kin
    · rw [Real.norm_of_nonneg (by linarith)]; linarith
    · rw [Real.norm_of_nonneg (by linarith)]; linarith
  have hsplit : ∀ gauss, ((t0 :: (ts ++ [T])).map fun t => (⟨f t gauss, Real.exp (b.rate * t)⟩ : Script.Sample ℝ)) =
      ⟨f t0 gauss, Real.exp (b.rate * t0)⟩ :: ((ts.map fun t => ⟨f t gauss, Real.exp (b.rate * t)⟩) ++ [⟨f T gauss, num⟩]) := by
    intro gauss; simp [hnum]
  have hspots : ∀ gauss, (ts.map fun t => (⟨f t gauss, Real.exp (b.rate * t)⟩ : Script.Sample ℝ)).map Script.Sample.spot = ts.map fun t => f t gauss := by
    intro gauss; rw [List.map_map]; rfl
  have hexact : ∀ (kin : Bool) (q : Prepared), IsBarrier v cval kin twice fuzzy ts.length q → ∀ gauss,
      exactOn q ((t0 :: (ts ++ [T])).map fun t => (⟨f t gauss, Real.exp (b.rate * t)⟩ : Script.Sample ℝ)) = worth kin B K ((ts ++ [T]).map fun t => f t gauss) (f T gauss) num := by
    intro kin q hq gauss
    rw [hsplit, C110_exact hv hq _ _ (by simp), hspots]
    simp
  have hsm : ∀ (kin : Bool) (q : Prepared), IsBarrier v cval kin twice fuzzy ts.length q → ∀ gauss,
      smoothOn d eps q ((t0 :: (ts ++ [T])).map fun t => (⟨f t gauss, Real.exp (b.rate * t)⟩ : Script.Sample ℝ)) =
        some (smoothWorth kin eps w B K ((ts ++ if twice then [T, T] else [T]).map fun t => f t gauss) (f T gauss) num) := by
    intro kin q hq gauss
    rw [hsplit, C110_smooth hv hq hw d eps _ _ (by simp), hspots]
    cases twice <;> simp
  have htail : ∀ gauss, (((t0 :: (ts ++ [T])).map fun t => (⟨f t gauss, Real.exp (b.rate * t)⟩ : Script.Sample ℝ)).tail.map Script.Sample.spot) = (ts ++ [T]).map fun t => f t gauss := by
    intro gauss; simp
  have hdup : ∀ A gauss, worth false A K ((ts ++ [T]).map fun t => f t gauss) (f T gauss) num =
      worth false A K ((ts ++ if twice then [T, T] else [T]).map fun t => f t gauss) (f T gauss) num := by
    intro A gauss
    have : Touched A ((ts ++ [T]).map fun t => f t gauss) ↔ Touched A ((ts ++ if twice then [T, T] else [T]).map fun t => f t gauss) := by
      cases twice <;> simp [Touched]
    rw [worth, worth, this]
  refine ⟨line, flags, _, price, _, _, _, _, ha, hpath, hprice, fun gauss => ⟨hsm true qi hi gauss, hsm false qo ho gauss⟩, ?_, ?_, ?_, ?_, rfl, rfl, ?_, ?_⟩
  · exact integral_nonneg fun g => by dsimp only [Pi.zero_apply]; rw [hexact true qi hi]; exact (worth_range _ _ _ _ _ _ hn).1
  · exact integral_nonneg fun g => by dsimp only [Pi.zero_apply]; rw [hexact false qo ho]; exact (worth_range _ _ _ _ _ _ hn).1
  · simp only [hexact true qi hi, hexact false qo ho]
    rw [gaussMean, gaussMean, ← integral_add (hwi true B (ts ++ [T])) (hwi false B (ts ++ [T])), hmean, gaussMean]
    refine integral_congr_ae (Filter.Eventually.of_forall fun g => ?_)
    dsimp only
    rw [worth_parity]
    rfl
  · rw [gaussMean, gaussMean, ← integral_add (hsi true _) (hsi false _), hmean, gaussMean]
    refine integral_congr_ae (Filter.Eventually.of_forall fun g => ?_)
    dsimp only
    rw [smooth_parity]
    rfl
  · simp only [htail]
    refine integral_mono (hwi false _ _) (hsi false _) fun g => ?_
    dsimp only
    rw [hdup]
    exact (smooth_between he he1 hw B K _ _ num hn).1
  · simp only [htail]
    refine integral_mono (hsi false _) (hwi false _ _) fun g => ?_
    dsimp only
    rw [hdup]
    exact (smooth_between he he1 hw B K _ _ num hn).2.1

/-- The table of a barrier option whose first date may be today. -/
theorem barrier_report_from (sgn : Bool) (lib : Adj.Lib) (cval : List Char → ℝ) (kin twice : Bool) (hw : 0 < w) (smooth eps : ℝ) (b : BS ℝ) (today d0 dT : Nat) (ds : List Nat)
    (hp : (d0 :: (ds ++ [dT])).IsChain (· < ·)) (now : Bool) (rest : List Nat) (hall : d0 :: (ds ++ [dT]) = serialsFrom now today rest)
    (hpos : ∀ d ∈ rest, today < d) (hspot : now = true → 0 < b.spot) (N threads : Nat) (gen : Gen) (ex : List ((Int × Int) × Nat)) (hrun : Runs N threads ex) :
    ∃ (start watch last : Script.PStmts ℝ) (line : List ℝ) (flags : List Bool) (q : Prepared),
      (∃ M, ∀ m, M ≤ m → Script.pEvent v m (Script.tokens (firstText kin)) = .ok start) ∧ (∃ M, ∀ m, M ≤ m → Script.pEvent v m (Script.tokens (watchText kin)) = .ok watch) ∧
      (∃ M, ∀ m, M ≤ m → Script.pEvent v m (Script.tokens (lastText kin twice)) = .ok last) ∧ bsAllocate (times today (d0 :: (ds ++ [dT]))) = some (line, flags) ∧
      prepare true callName cval (start :: (List.replicate ds.length watch ++ [last])) = some q ∧
      ∀ ω, ∃ D : Nat → ℝ, ∀ cutoff, 0 ≤ cutoff → ∃ (t : List (Str × Option ℝ)) (risks : List ℝ),
        Report.report sgn lib cutoff eps smooth callName cval (start :: (List.replicate ds.length watch ++ [last])) today (d0 :: (ds ++ [dT])) b N gen threads ex ω = some t ∧
        t.Pairwise (fun a b => ltS sgn a.1 b.1 = true) ∧ risks.length = 6 ∧
        t.Perm (("PV".toList, some (simulated true gen rest.length N threads ex (fun g =>
            smoothWorth kin eps w B K ((times today (ds ++ if twice then [dT, dT] else [dT])).map fun t => spotAt b line t g) (spotAt b line ((((dT : Int) - today : Int) : ℝ) / 365) g)
              (Real.exp (b.rate * ((((dT : Int) - today : Int) : ℝ) / 365)))) ω)) ::
          (["d_spot".toList, "d_vol".toList, "d_rate".toList, "d_div".toList, "d_BARRIER".toList, "d_STRIKE".toList].zip (risks.map some))) ∧
        ∀ (i : Nat) (r : ℝ), risks[i]? = some r →
          |r - simulated true gen rest.length N threads ex (pathDeriv (q.scripted smooth eps) b [B, K] (times today (d0 :: (ds ++ [dT]))) i) ω| ≤ cutoff * D i := by
  have hafter : ∀ d ∈ d0 :: (ds ++ [dT]), today ≤ d := by
    rw [hall]
    intro d hd
    cases now with
    | false => exact (hpos d hd).le
    | true => exact (List.mem_cons.1 hd).elim (fun h => h.ge) fun h => (hpos d h).le
  have hrest : rest.IsChain (· < ·) := by
    rw [hall] at hp
    cases now with
    | false => exact hp
    | true => exact List.IsChain.tail hp
  have hnn : ∀ t ∈ times today (d0 :: (ds ++ [dT])), 0 ≤ t := by
    intro t ht
    rw [times, List.mem_map] at ht
    obtain ⟨d, hd, rfl⟩ := ht
    have : (0 : ℝ) ≤ (((d : Int) - today : Int) : ℝ) := by exact_mod_cast (by have := hafter d hd; omega : (0 : Int) ≤ (d : Int) - today)
    positivity
  have hch : (times today (d0 :: (ds ++ [dT]))).IsChain (· < ·) := by
    rw [times, List.isChain_map]
    refine hp.imp fun a c hac => ?_
    have : (((a : Int) - today : Int) : ℝ) < (((c : Int) - today : Int) : ℝ) := by exact_mod_cast (by omega : (a : Int) - today < (c : Int) - today)
    exact div_lt_div_of_pos_right this (by norm_num)
  obtain ⟨line, flags, ha, hpath, -⟩ := bs_paths b (times today (d0 :: (ds ++ [dT]))) (by simp [times]) hch hnn
  have hq := barrier_prepared true kin twice cval ds.length B K w v.zero
  refine ⟨_, _, _, line, flags, _, start_parsed hv kin, watch_parsed hv kin, last_parsed hv kin twice, ha, hq, fun ω => ?_⟩
  obtain ⟨D, hD⟩ := table_from sgn lib (fun k => k = 1) eps smooth callName cval _ _ hq now (by
      intro e he
      rw [barrierCode] at he
      rcases List.mem_cons.1 he with rfl | he
      · exact ⟨fun h => absurd h (by decide), trivial⟩
      · rcases List.mem_append.1 he with he | he
        · rw [(List.mem_replicate.1 he).2]
          exact ⟨⟨⟨fun h => absurd h (by decide), trivial⟩, trivial⟩, trivial⟩
        · rw [List.mem_singleton.1 he]
          cases twice
          · exact ⟨⟨⟨fun h => absurd h (by decide), trivial⟩, trivial⟩, trivial, trivial⟩
          · exact ⟨⟨⟨fun h => absurd h (by decide), trivial⟩, trivial⟩, ⟨⟨fun h => absurd h (by decide), trivial⟩, trivial⟩, trivial, trivial⟩)
    (fun _ e he => by
      cases Option.mem_some_iff.1 (show e ∈ some _ from he)
      exact ⟨fun h => absurd h (by decide), trivial⟩) rfl
    (barrier_labels sgn) b hspot today rest (by rw [← hall]; simp) hrest hpos N threads gen ex hrun ω (fun g =>
            smoothWorth kin eps w B K ((times today (ds ++ if twice then [dT, dT] else [dT])).map fun t => spotAt b line t g) (spotAt b line ((((dT : Int) - today : Int) : ℝ) / 365) g)
              (Real.exp (b.rate * ((((dT : Int) - today : Int) : ℝ) / 365)))) (by
      intro pos
      generalize numbers (window rest.length pos ω) = g
      rw [← hall, fuzzyPath, hpath, Option.bind_some]
      have hsplit : ((times today (d0 :: (ds ++ [dT]))).map fun t => (⟨spotAt b line t g, Real.exp (b.rate * t)⟩ : Script.Sample ℝ)) =
          (⟨spotAt b line ((((d0 : Int) - today : Int) : ℝ) / 365) g, Real.exp (b.rate * ((((d0 : Int) - today : Int) : ℝ) / 365))⟩ : Script.Sample ℝ) ::
            (((times today ds).map fun t => ⟨spotAt b line t g, Real.exp (b.rate * t)⟩) ++
              [⟨spotAt b line ((((dT : Int) - today : Int) : ℝ) / 365) g, Real.exp (b.rate * ((((dT : Int) - today : Int) : ℝ) / 365))⟩]) := by
        simp [times]
      rw [hsplit]
      have hl : ((times today ds).map fun t => (⟨spotAt b line t g, Real.exp (b.rate * t)⟩ : Script.Sample ℝ)).length = ds.length := by simp [times]
      obtain ⟨s', h1, h2⟩ := fuzzy_code kin twice (fun k => [B, K].getD k 0) smooth eps B K w v.zero rfl rfl hw
        ⟨spotAt b line ((((d0 : Int) - today : Int) : ℝ) / 365) g, Real.exp (b.rate * ((((d0 : Int) - today : Int) : ℝ) / 365))⟩
        ((times today ds).map fun t => ⟨spotAt b line t g, Real.exp (b.rate * t)⟩)
        ⟨spotAt b line ((((dT : Int) - today : Int) : ℝ) / 365) g, Real.exp (b.rate * ((((dT : Int) - today : Int) : ℝ) / 365))⟩
        ⟨fun k => ([(0 : ℝ), 0]).getD k 0, fun _ _ => 0, fun _ _ => 0⟩ (by funext k; match k with | 0 => rfl | 1 => rfl | k + 2 => rfl)
      rw [hl] at h1
      show (Script.fuzzyEvents _ smooth eps ((barrierCode kin twice ds.length B K w v.zero [0]).zip _) _).map _ = _
      refine (congrArg (Option.map fun s : Script.FSt ℝ => s.σ 1) h1).trans ?_
      rw [Option.map_some, h2]
      congr 2
      cases twice <;> simp [watched, times])
  rw [← hall] at hD
  refine ⟨D, fun cutoff hc => ?_⟩
  obtain ⟨t, risks, t1, t2, t3, t4, t5⟩ := hD cutoff hc
  have hr6 : risks.length = 6 := t3
  refine ⟨t, risks, t1, t2, hr6, t4.trans (List.Perm.of_eq ?_), t5⟩
  obtain ⟨r0, r1, r2, r3, r4, r5, rfl⟩ : ∃ r0 r1 r2 r3 r4 r5, risks = [r0, r1, r2, r3, r4, r5] := by
    match risks, hr6 with
    | [r0, r1, r2, r3, r4, r5], _ => exact ⟨r0, r1, r2, r3, r4, r5, rfl⟩
  rfl

/-- C110, the table: a valuation with sensitivities of a barrier option, from its texts, has the mean of the smoothed values over the simulated paths in its row `PV`, and a row for each
of the parameters of the model and for `BARRIER` and `STRIKE`, which is within the cutoff of the tape of the mean of the derivatives of the paths. -/
theorem C110_report (sgn : Bool) (lib : Adj.Lib) (cval : List Char → ℝ) (kin twice : Bool) (hw : 0 < w) (smooth eps : ℝ) (b : BS ℝ) (today d0 dT : Nat) (ds : List Nat)
    (hp : (d0 :: (ds ++ [dT])).IsChain (· < ·)) (hpos : today < d0) (N threads : Nat) (gen : Gen) (ex : List ((Int × Int) × Nat)) (hrun : Runs N threads ex) :
    ∃ (start watch last : Script.PStmts ℝ) (line : List ℝ) (flags : List Bool) (q : Prepared),
      (∃ M, ∀ m, M ≤ m → Script.pEvent v m (Script.tokens (firstText kin)) = .ok start) ∧ (∃ M, ∀ m, M ≤ m → Script.pEvent v m (Script.tokens (watchText kin)) = .ok watch) ∧
      (∃ M, ∀ m, M ≤ m → Script.pEvent v m (Script.tokens (lastText kin twice)) = .ok last) ∧ bsAllocate (times today (d0 :: (ds ++ [dT]))) = some (line, flags) ∧
      prepare true callName cval (start :: (List.replicate ds.length watch ++ [last])) = some q ∧
      ∀ ω, ∃ D : Nat → ℝ, ∀ cutoff, 0 ≤ cutoff → ∃ (t : List (Str × Option ℝ)) (risks : List ℝ),
        Report.report sgn lib cutoff eps smooth callName cval (start :: (List.replicate ds.length watch ++ [last])) today (d0 :: (ds ++ [dT])) b N gen threads ex ω = some t ∧
        t.Pairwise (fun a b => ltS sgn a.1 b.1 = true) ∧ risks.length = 6 ∧
        t.Perm (("PV".toList, some (simulated true gen (ds.length + 2) N threads ex (fun g =>
            smoothWorth kin eps w B K ((times today (ds ++ if twice then [dT, dT] else [dT])).map fun t => spotAt b line t g) (spotAt b line ((((dT : Int) - today : Int) : ℝ) / 365) g)
              (Real.exp (b.rate * ((((dT : Int) - today : Int) : ℝ) / 365)))) ω)) ::
          (["d_spot".toList, "d_vol".toList, "d_rate".toList, "d_div".toList, "d_BARRIER".toList, "d_STRIKE".toList].zip (risks.map some))) ∧
        ∀ (i : Nat) (r : ℝ), risks[i]? = some r →
          |r - simulated true gen (ds.length + 2) N threads ex (pathDeriv (q.scripted smooth eps) b [B, K] (times today (d0 :: (ds ++ [dT]))) i) ω| ≤ cutoff * D i := by
  have hpw := List.isChain_iff_pairwise.1 hp
  have hall : ∀ d ∈ d0 :: (ds ++ [dT]), today < d := by
    intro d hd
    rcases List.mem_cons.1 hd with rfl | hd
    · exact hpos
    · exact hpos.trans (List.rel_of_pairwise_cons hpw hd)
  have h := barrier_report_from hv sgn lib cval kin twice hw smooth eps b today d0 dT ds hp false (d0 :: (ds ++ [dT])) rfl hall (fun h => by cases h) N threads gen ex hrun
  rwa [show (d0 :: (ds ++ [dT])).length = ds.length + 2 by simp] at h

end

private theorem regular_two : Regular (100 * Real.exp ((0.03 - 0.01) * 2)) (0.2 * Real.sqrt 2) 100 := by
  have h1 := Real.one_le_exp (show (0 : ℝ) ≤ (0.03 - 0.01) * 2 by norm_num)
  have h2 : (1 : ℝ) ≤ Real.sqrt 2 := by rw [Real.le_sqrt (by norm_num) (by norm_num)]; norm_num
  refine Or.inl ⟨by norm_num, ?_, ?_⟩
  · exact (show epsilon ≤ 0.2 * 1 by norm_num [epsilon]).trans (mul_le_mul_of_nonneg_left h2 (by norm_num))
  · rw [epsilon]; nlinarith

/-- Two years, watched at one year and at maturity. -/
example : ∃ qi qo line flags price, IsBarrier Barrier.demoEnv (fun _ => 0) true true false 1 qi ∧ IsBarrier Barrier.demoEnv (fun _ => 0) false true false 1 qo ∧
    bsAllocate [(0 : ℝ), 1, 2] = some (line, flags) ∧ blackOpt (100 * Real.exp ((0.03 - 0.01) * 2)) (0.2 * Real.sqrt 2) 100 .call = some price ∧
    ∃ path : (Nat → ℝ) → List (Script.Sample ℝ), (∀ g, pathSamples (⟨100, 0.03, 0.01, 0.2⟩ : BS ℝ) [0, 1, 2] g = some (path g)) ∧
      gaussMean (line.length - 1) (fun g => exactOn qi (path g)) + gaussMean (line.length - 1) (fun g => exactOn qo (path g)) = Real.exp (-0.03 * 2) * price := by
  obtain ⟨qi, hi, -⟩ := C110_made Barrier.demo_env (fun _ => 0) true true false 1
  obtain ⟨qo, ho, -⟩ := C110_made Barrier.demo_env (fun _ => 0) false true false 1
  obtain ⟨line, flags, path, price, -, -, -, -, h1, h2, h3, -, -, -, h4, -⟩ := C110_price Barrier.demo_env (ts := [1]) hi ho (by norm_num) 0.01 0 le_rfl (by norm_num)
    (⟨100, 0.03, 0.01, 0.2⟩ : BS ℝ) 0 2 (by simp) le_rfl (by norm_num) regular_two
  exact ⟨qi, qo, line, flags, price, hi, ho, h1, h3, path, h2, h4⟩

private def demoRun : List ((Int × Int) × Nat) := [((1024, 976), 1), ((0, 1024), 0)]
private theorem demo_runs : Runs 2000 2 demoRun := ⟨by decide, by decide, ⟨[(0, 1024), (1024, 976)], by decide +kernel, List.Perm.swap _ _ _⟩, by decide⟩

/-- A table with rows for the barrier and the strike. -/
example (sgn : Bool) (lib : Adj.Lib) (ω : ℕ → ℝ) : ∃ start watch last t risks, Report.report sgn lib 0 (2 / 10 ^ 14) 0.01 callName (fun _ => 0) [start, watch, last] 46000 [46001, 46365, 46730]
    (⟨100, 0.03, 0.01, 0.2⟩ : BS ℝ) 2000 .mrg 2 demoRun ω = some t ∧ (risks : List ℝ).length = 6 := by
  obtain ⟨a, b, c, _, _, _, -, -, -, -, -, h⟩ := C110_report Barrier.demo_env sgn lib (fun _ => 0) false true (by norm_num) 0.01 (2 / 10 ^ 14) (⟨100, 0.03, 0.01, 0.2⟩ : BS ℝ) 46000 46001 46730
    [46365] (by simp) (by norm_num) 2000 2 .mrg demoRun demo_runs
  obtain ⟨D, hD⟩ := h ω
  obtain ⟨t, risks, h1, -, h2, -⟩ := hD 0 le_rfl
  exact ⟨a, b, c, t, risks, h1, h2⟩

end Dal
