import Verif.Sim.TapeSimLemmas

/-!
# C104: compiled simulations with adjoints

Specification: the same product run forward on pairs of a value and a derivative, one input at a time (`pathRun`), and the closed-form prices with one input moved (`moved`).
-/

namespace Dal
open Dal.Models Dal.TimeLine Dal.TapeRun Dal.Numeric Dal.Implied MeasureTheory ProbabilityTheory Filter Topology

/-- A compiled product run forward on one path of the model: the payoff. -/
noncomputable def pathRun {T : Type} [Add T] [Sub T] [Mul T] [Num T] (o : Script.Ops T) (fuel : Nat) (p : TapeRun.Product) (B : BS T) (product : List ℝ) (gauss : Nat → ℝ) : Option T :=
  match bsAllocate product with
  | none => none
  | some (line, flags) =>
    match B.scenario product (product.map fun _ => ⟨true, [], []⟩) line flags gauss with
    | none => none
    | some path => (Script.evaluateCompiled o fuel ((p.code.zip path).map fun e => (⟨e.1.ns, e.1.cs.map Num.lit⟩, ⟨e.2.spot, e.2.numeraire⟩)) fun k => Num.lit (p.vars.getD k 0)).map (· p.payoff)

private theorem allocate_pos {product : List ℝ} (hne : product ≠ []) (hpos : ∀ t ∈ product, 0 < t) : bsAllocate product = some (0 :: product, false :: product.map fun _ => true) := by
  obtain ⟨t, r, rfl⟩ := List.exists_cons_of_ne_nil hne
  have hf : (t :: r).filter (fun x => decide (0 < x)) = t :: r := List.filter_eq_self.2 fun x hx => decide_eq_true (hpos x hx)
  show some (_, _) = _
  rw [hf, decide_eq_false (hpos t List.mem_cons_self).ne']

private theorem pathRun_samples {T : Type} [Add T] [Sub T] [Mul T] [Num T] (o : Script.Ops T) (fuel : Nat) (p : TapeRun.Product) (B : BS T) (product : List ℝ) (hne : product ≠ [])
    (hp : product.IsChain (· < ·)) (hpos : ∀ t ∈ product, 0 < t) (gauss : Nat → ℝ) :
    pathRun o fuel p B product gauss = (runSamples o fuel p (samples B product gauss)).map (· p.payoff) := by
  obtain ⟨line, flags, path, h1, h2, h3, h4⟩ := C77_bs_scenario_any B product (product.map fun _ => ⟨true, [], []⟩) gauss hne hp (fun t ht => (hpos t ht).le) (List.length_map _)
  have ha := allocate_pos hne hpos
  rw [ha] at h1
  simp only [Option.some.injEq, Prod.mk.injEq] at h1
  obtain ⟨rfl, rfl⟩ := h1
  unfold pathRun
  rw [ha]
  dsimp only
  rw [h2]
  dsimp only
  rw [runSamples]
  have hchain : (0 :: product).Nodup := by
    have : (0 :: product).Pairwise (· < ·) := List.pairwise_cons.2 ⟨hpos, List.isChain_iff_pairwise.1 hp⟩
    exact this.imp fun h => ne_of_lt h
  have hs : samples B product gauss = path.map fun s => (⟨s.spot, s.numeraire⟩ : Script.Sample T) := by
    rw [samples]
    refine List.ext_getElem? fun k => ?_
    rw [List.getElem?_map, List.getElem?_map]
    by_cases hk : k < product.length
    · obtain ⟨pos, q1, q2⟩ := h4 k hk
      have hpos' : pos = k + 1 := by
        obtain ⟨hl, he⟩ := List.getElem?_eq_some_iff.1 q1
        have hl2 : k + 1 < (0 :: product).length := by simp; omega
        exact (List.Nodup.getElem_inj_iff hchain (hi := hl) (hj := hl2)).1 (by rw [he]; rfl)
      subst hpos'
      rw [q2, List.getElem?_range hk]
      have hg : product.getD k 0 = product[k] := by rw [List.getD_eq_getElem?_getD, List.getElem?_eq_getElem hk]; rfl
      simp only [Option.map_some, hg]
      rw [if_pos (by simp)]
    · rw [List.getElem?_eq_none (by simp; omega), List.getElem?_eq_none (by omega)]; rfl
  rw [hs, List.zip_map_right, List.map_map]
  rfl

/-- C104: with dates after today that rise strictly, if the compiled product can be run on each path, the simulation with adjoints ends well; the sum of its payoffs is that of the runs with doubles, and
each risk, times the number of paths, is the sum over the paths of the derivatives that the runs forward with respect to that input have, up to a multiple of the cutoff of small adjoints. -/
theorem C104_risks (lib : Adj.Lib) (fuel : Nat) (p : TapeRun.Product) (b : BS ℝ) (consts product : List ℝ) (hne : product ≠ []) (hp : product.IsChain (· < ·)) (hpos : ∀ t ∈ product, 0 < t)
    (n : Nat) (hn : 0 < n) (gs : List (Nat → ℝ)) (value : (Nat → ℝ) → ℝ) (hv : ∀ g ∈ gs, pathRun realOps fuel p b product g = some (value g)) :
    ∃ (deriv : Nat → (Nat → ℝ) → ℝ) (B : Nat → ℝ), (∀ g ∈ gs, ∀ i, i < 4 + consts.length → pathRun dualOps fuel p (bsDual i b) product g = some ⟨value g, deriv i g⟩) ∧
      ∀ eps, 0 ≤ eps → ∃ risks : List ℝ, tSimulate lib eps fuel p b consts product n gs = some ((gs.map value).sum, risks) ∧ risks.length = 4 + consts.length ∧
        ∀ (i : Nat) (r : ℝ), risks[i]? = some r → |r * n - (gs.map (deriv i)).sum| ≤ eps * B i := by
  have hb : ∀ i, i < 4 + consts.length → BaseOn i b (0 :: product) product (base lib b consts (0 :: product) product) := fun i hi => base_spec lib i b consts (0 :: product) product hi
  set bs := base lib b consts (0 :: product) product with hbs
  have hderiv : ∀ g, ∃ d : Nat → ℝ, g ∈ gs → ∀ i, i < 4 + consts.length → (runSamples dualOps fuel p (samples (bsDual i b) product g)).map (· p.payoff) = some ⟨value g, d i⟩ := by
    intro g
    by_cases hg : g ∈ gs
    · have h := hv g hg
      rw [pathRun_samples realOps fuel p b product hne hp hpos g] at h
      obtain ⟨d, -, hd, -⟩ := tOne_spec lib fuel p b product bs (4 + consts.length) (by omega) hb g (value g) h
      exact ⟨d, fun _ => hd⟩
    · exact ⟨fun _ => 0, fun h => absurd h hg⟩
  choose d hd using hderiv
  obtain ⟨B, hB⟩ := tPaths_spec lib fuel p b product bs (4 + consts.length) (by omega) hb value (fun i g => d g i) gs fun g hg i hi => hd g hg i hi
  refine ⟨fun i g => d g i, fun i => B i + ∑ k ∈ Finset.range bs.tape.nodes.length, |Dal.TapeRun.tans i bs.tape.nodes k|, fun g hg i hi => ?_, fun eps heps => ?_⟩
  · rw [pathRun_samples dualOps fuel p (bsDual i b) product hne hp hpos g]
    exact hd g hg i hi
  obtain ⟨adj, a1, a2⟩ := hB eps heps 0 fun _ => 0
  have hlow := (hb 0 (by omega)).low
  have hlin : ∀ i, i < 4 + consts.length → Adj.Lin bs.tape.nodes (tans i bs.tape.nodes) i := fun i hi => lin_of_back (hb i hi).back (hb i hi).leaf
  have hdown := fun i hi => Adj.down_ok heps (hlin i hi) (bs.tape.nodes.length - 1) (bs.tape.nodes.length - 1) adj (by omega) le_rfl
  obtain ⟨adj', b1, -⟩ := hdown 0 (by omega)
  refine ⟨(List.range (4 + consts.length)).map fun j => adj' j / n, ?_, by simp, ?_⟩
  · unfold tSimulate
    rw [allocate_pos hne hpos]
    dsimp only
    rw [← hbs, show (false :: product.map fun _ => true).headD false = false from rfl, a1]
    dsimp only
    rw [Adj.propagate, if_neg (by omega), Nat.sub_zero, b1, zero_add]
  · intro i r hr
    have hi : i < 4 + consts.length := by have := (List.getElem?_eq_some_iff.1 hr).1; simpa using this
    rw [List.getElem?_map, List.getElem?_range hi] at hr
    have hr' : adj' i / n = r := Option.some.inj hr
    have hn' : (n : ℝ) ≠ 0 := Nat.cast_ne_zero.2 hn.ne'
    rw [← hr', div_mul_cancel₀ _ hn']
    obtain ⟨adj'', c1, c2⟩ := hdown i hi
    rw [b1] at c1
    cases c1
    have hpos := (hb i hi).pos
    rw [Nat.sub_self, Adj.total_one _ _ hpos (hlin i hi).one, show bs.tape.nodes.length - 1 + 1 = bs.tape.nodes.length by omega, Adj.weight_total_low _ _ le_rfl hpos,
      ← Finset.range_eq_Ico] at c2
    have c3 := a2 i hi
    simp only [zero_mul, Finset.sum_const_zero, zero_add] at c3
    rw [mul_add]
    rw [abs_le] at c2 c3 ⊢
    constructor <;> linarith [c2.1, c2.2, c3.1, c3.2]

/-- With no cutoff the risks are the means of the derivatives. -/
theorem C104_exact (lib : Adj.Lib) (fuel : Nat) (p : TapeRun.Product) (b : BS ℝ) (consts product : List ℝ) (hne : product ≠ []) (hp : product.IsChain (· < ·)) (hpos : ∀ t ∈ product, 0 < t)
    (n : Nat) (hn : 0 < n) (gs : List (Nat → ℝ)) (value : (Nat → ℝ) → ℝ) (deriv : Nat → (Nat → ℝ) → ℝ)
    (hd : ∀ g ∈ gs, ∀ i, i < 4 + consts.length → pathRun dualOps fuel p (bsDual i b) product g = some ⟨value g, deriv i g⟩) :
    tSimulate lib 0 fuel p b consts product n gs = some ((gs.map value).sum, (List.range (4 + consts.length)).map fun i => (gs.map (deriv i)).sum / n) := by
  have hv : ∀ g ∈ gs, pathRun realOps fuel p b product g = some (value g) := by
    intro g hg
    have h1 := hd g hg 0 (by omega)
    rw [pathRun_samples _ _ _ _ _ hne hp hpos] at h1 ⊢
    rw [runSamples_v 0]
    cases hr : runSamples dualOps fuel p (samples (bsDual 0 b) product g) with
    | none => rw [hr] at h1; simp at h1
    | some r =>
      rw [hr] at h1
      have := congrArg (Option.map Dual.v) h1
      simpa using this
  obtain ⟨d, B, h1, h2⟩ := C104_risks lib fuel p b consts product hne hp hpos n hn gs value hv
  obtain ⟨risks, h3, h4, h5⟩ := h2 0 le_rfl
  rw [h3]
  congr 2
  refine List.ext_getElem? fun i => ?_
  by_cases hi : i < 4 + consts.length
  · rw [List.getElem?_eq_getElem (by omega), List.getElem?_map, List.getElem?_range hi]
    have h6 := h5 i risks[i] (List.getElem?_eq_getElem (by omega))
    rw [zero_mul] at h6
    have h7 := sub_eq_zero.1 (abs_nonpos_iff.1 h6)
    have hn' : (n : ℝ) ≠ 0 := Nat.cast_ne_zero.2 hn.ne'
    have h8 : gs.map (deriv i) = gs.map (d i) := List.map_congr_left fun g hg => by
      have := (hd g hg i hi).symm.trans (h1 g hg i hi)
      simpa using this
    show some risks[i] = some ((gs.map (deriv i)).sum / n)
    rw [h8, ← h7, mul_div_cancel_right₀ _ hn']
  · rw [List.getElem?_eq_none (by omega), List.getElem?_eq_none (by simp; omega)]

private theorem opsHom_lift : Script.OpsHom realOps dualOps Script.lift := by
  refine ⟨rfl, ?_, ?_, ?_, ?_, ?_, ?_, ?_, ?_, ?_, fun _ _ => rfl, fun _ _ => rfl, fun _ _ => rfl⟩ <;> intros <;> refine Dual.ext ?_ ?_ <;> simp [dualOps, realOps, Script.lift]

/-- C104, what the risks of the constant variables are: whatever the product pays, its derivative with respect to a constant variable is zero on every path of the compiled run, so that the risk reported
is zero up to the cutoff. -/
theorem C104_constants (lib : Adj.Lib) (fuel : Nat) (p : TapeRun.Product) (b : BS ℝ) (consts product : List ℝ) (hne : product ≠ []) (hp : product.IsChain (· < ·)) (hpos : ∀ t ∈ product, 0 < t)
    (n : Nat) (hn : 0 < n) (gs : List (Nat → ℝ)) (value : (Nat → ℝ) → ℝ) (hv : ∀ g ∈ gs, pathRun realOps fuel p b product g = some (value g)) :
    ∃ B : Nat → ℝ, ∀ eps, 0 ≤ eps → ∃ risks : List ℝ, tSimulate lib eps fuel p b consts product n gs = some ((gs.map value).sum, risks) ∧ risks.length = 4 + consts.length ∧
      ∀ (j : Nat) (r : ℝ), risks[4 + j]? = some r → |r * n| ≤ eps * B j := by
  obtain ⟨d, B, h1, h2⟩ := C104_risks lib fuel p b consts product hne hp hpos n hn gs value hv
  refine ⟨fun j => B (4 + j), fun eps heps => ?_⟩
  obtain ⟨risks, h3, h4, h5⟩ := h2 eps heps
  refine ⟨risks, h3, h4, fun j r hr => ?_⟩
  have hj : 4 + j < 4 + consts.length := by have := (List.getElem?_eq_some_iff.1 hr).1; omega
  have hz : (gs.map (d (4 + j))).sum = 0 := by
    rw [show gs.map (d (4 + j)) = gs.map fun _ => (0 : ℝ) from List.map_congr_left fun g hg => ?_]
    · simp
    have h6 := h1 g hg (4 + j) hj
    have h7 := hv g hg
    rw [pathRun_samples _ _ _ _ _ hne hp hpos] at h6 h7
    have hB : bsDual (4 + j) b = ⟨Script.lift b.spot, Script.lift b.rate, Script.lift b.div, Script.lift b.vol⟩ := by
      rw [bsDual, if_neg (by omega), if_neg (by omega), if_neg (by omega), if_neg (by omega)]; rfl
    have hs : samples (bsDual (4 + j) b) product g = (samples b product g).map (Script.Sample.map Script.lift) := by
      rw [samples, samples, List.map_map]
      refine List.map_congr_left fun k _ => ?_
      obtain ⟨e1, e2⟩ := dual_log (bsDual (4 + j) b) (fun j => (0 :: product).getD j 0) g (k + 1)
      rw [bsDual_values] at e1
      have e3 : (bsDual (4 + j) b).logAt (fun j => (0 :: product).getD j 0) g (k + 1) = Script.lift (b.logAt (fun j => (0 :: product).getD j 0) g (k + 1)) := by
        refine Dual.ext e1 ?_
        rw [e2, hB]
        simp [Script.lift]
      rw [e3, hB]
      show (⟨_, _⟩ : Script.Sample Dual) = ⟨_, _⟩
      congr 1
      · exact Dual.ext rfl (zero_mul _)
      · exact Dual.ext rfl (by show (0 * _ + _ * 0) * _ = (0 : ℝ); ring)
    have hrun : runSamples dualOps fuel p (samples (bsDual (4 + j) b) product g) = (runSamples realOps fuel p (samples b product g)).map fun r => fun k => Script.lift (r k) := by
      rw [hs, runSamples, runSamples, ← Script.evaluateCompiled_hom opsHom_lift, List.map_map, List.zip_map_right, List.map_map]
      congr 1
      refine List.map_congr_left fun e _ => ?_
      show ((⟨e.1.ns, e.1.cs.map Script.lift⟩ : Script.Streams Dual), Script.Sample.map Script.lift e.2) = (⟨e.1.ns, (e.1.cs.map id).map Script.lift⟩, Script.Sample.map Script.lift e.2)
      rw [List.map_id]
    rw [hrun] at h6
    cases hr2 : runSamples realOps fuel p (samples b product g) with
    | none => rw [hr2] at h6; simp at h6
    | some r =>
      rw [hr2] at h6
      have := congrArg (Option.map Dual.d) h6
      simp only [Option.map_some, Option.some.injEq] at this
      exact this.symm
  have := h5 (4 + j) r hr
  rwa [hz, sub_zero] at this

/-! ## Options -/

/-- What the compiler makes of the script that pays a call or a put. -/
noncomputable def optionCode (put : Bool) (K : ℝ) : Script.Streams ℝ := Script.compSs realOps 0 {} (optionTree put 0 0 K)

private theorem option_step (put : Bool) (K : ℝ) (f : Nat) (sp : Script.Sample Dual) (σ : Nat → Dual) :
    Script.run dualOps (optionCode put K).ns ((optionCode put K).cs.map Num.lit) sp (f + 5) (optionCode put K).ns.length 0 ⟨[], {}, σ⟩ =
      some ⟨[], {}, Script.upd σ 0 (dualOps.add (σ 0) (dualPay put ⟨K, 0⟩ sp.numeraire sp.spot))⟩ := by
  cases put <;> rfl

private theorem option_runs (put : Bool) (K : ℝ) (f : Nat) : ∀ (L : List (Script.Sample Dual)) (σ : Nat → Dual),
    ∃ r, Script.evaluateCompiled dualOps (f + 5) (((List.replicate L.length (optionCode put K)).zip L).map fun e => (⟨e.1.ns, e.1.cs.map Num.lit⟩, e.2)) σ = some r ∧
      (r 0).v = (σ 0).v + (L.map fun s => (dualPay put ⟨K, 0⟩ s.numeraire s.spot).v).sum ∧ (r 0).d = (σ 0).d + (L.map fun s => (dualPay put ⟨K, 0⟩ s.numeraire s.spot).d).sum := by
  intro L
  induction L with
  | nil => intro σ; exact ⟨σ, rfl, by simp, by simp⟩
  | cons s L ih =>
    intro σ
    obtain ⟨r, h1, h2, h3⟩ := ih (Script.upd σ 0 (dualOps.add (σ 0) (dualPay put ⟨K, 0⟩ s.numeraire s.spot)))
    refine ⟨r, ?_, ?_, ?_⟩
    · rw [List.length_cons, List.replicate_succ, List.zip_cons_cons, List.map_cons, Script.evaluateCompiled]
      dsimp only
      rw [option_step]
      exact h1
    · rw [h2, List.map_cons, List.sum_cons, ← add_assoc]; rfl
    · rw [h3, List.map_cons, List.sum_cons, ← add_assoc]; rfl

/-- The line of a product without today's date. -/
noncomputable def datesLine (product : List ℝ) (j : Nat) : ℝ := (0 :: product).getD j 0

/-- The option product: the same script at each date, one variable, the payoff. -/
noncomputable def optionProduct (put : Bool) (K : ℝ) (product : List ℝ) : TapeRun.Product := ⟨List.replicate product.length (optionCode put K), [0], 0⟩

/-- The derivative on a path of what options pay, with respect to the input `i`. -/
noncomputable def optionSens (put : Bool) (K : ℝ) (b : BS ℝ) (product : List ℝ) (i : Nat) (g : Nat → ℝ) : ℝ :=
  ∑ k : Fin product.length, (dualPay put ⟨K, 0⟩ ((bsDual i b).numeraire product[k]) (Num.exp ((bsDual i b).logAt (datesLine product) g (k + 1)))).d

/-- What options pay on a path, discounted. -/
noncomputable def optionValue (put : Bool) (K : ℝ) (b : BS ℝ) (product : List ℝ) (g : Nat → ℝ) : ℝ :=
  ∑ k : Fin product.length, optionPayoff put K (Real.exp (b.logAt (datesLine product) g (k + 1))) / Real.exp (b.rate * product[k])

theorem range_sum (product : List ℝ) (F : Nat → ℝ → ℝ) : ((List.range product.length).map fun k => F k (product.getD k 0)).sum = ∑ k : Fin product.length, F k product[k] := by
  have h : ((List.range product.length).map fun k => F k (product.getD k 0)).sum = ∑ k ∈ Finset.range product.length, F k (product.getD k 0) := rfl
  rw [h, Finset.sum_range]
  refine Finset.sum_congr rfl fun k _ => ?_
  rw [List.getD_eq_getElem?_getD, List.getElem?_eq_getElem k.2]; rfl

private theorem option_path (put : Bool) (K : ℝ) (b : BS ℝ) (product : List ℝ) (hne : product ≠ []) (hp : product.IsChain (· < ·)) (hpos : ∀ t ∈ product, 0 < t) (f i : Nat) (g : Nat → ℝ) :
    pathRun dualOps (f + 5) (optionProduct put K product) (bsDual i b) product g = some ⟨optionValue put K b product g, optionSens put K b product i g⟩ := by
  rw [pathRun_samples _ _ _ _ _ hne hp hpos, runSamples]
  have hlen : (samples (bsDual i b) product g).length = product.length := by simp [samples]
  obtain ⟨r, h1, h2, h3⟩ := option_runs put K f (samples (bsDual i b) product g) fun k => Num.lit ((optionProduct put K product).vars.getD k 0)
  rw [hlen] at h1
  rw [optionProduct] at h1 h2 h3 ⊢
  rw [h1]
  show some (r 0) = _
  congr 1
  refine Dual.ext ?_ ?_
  · rw [h2, samples, List.map_map]
    refine (zero_add _).trans ?_
    rw [optionValue, ← range_sum product fun k t => optionPayoff put K (Real.exp (b.logAt (datesLine product) g (k + 1))) / Real.exp (b.rate * t)]
    congr 1
    refine List.map_congr_left fun k _ => ?_
    have h := (dual_log (bsDual i b) (datesLine product) g (k + 1)).1
    rw [bsDual_values] at h
    show (dualPay put ⟨K, 0⟩ ((bsDual i b).numeraire (product.getD k 0)) (Num.exp ((bsDual i b).logAt (datesLine product) g (k + 1)))).v = _
    rw [← h]
    generalize (bsDual i b).logAt (datesLine product) g (k + 1) = X
    cases put with
    | false =>
      show (if decide (Real.exp X.v - K < 0) = true then (⟨0, 0⟩ : Dual) else ⟨Real.exp X.v - K, _⟩ : Dual).v / _ = _
      rw [optionPayoff, if_neg Bool.false_ne_true]
      by_cases hlt : Real.exp X.v - K < 0
      · rw [if_pos (decide_eq_true hlt), max_eq_left hlt.le]; rfl
      · rw [if_neg (by simpa using hlt), max_eq_right (not_lt.1 hlt)]; rfl
    | true =>
      show (if decide (K - Real.exp X.v < 0) = true then (⟨0, 0⟩ : Dual) else ⟨K - Real.exp X.v, _⟩ : Dual).v / _ = _
      rw [optionPayoff, if_pos (rfl : true = true)]
      by_cases hlt : K - Real.exp X.v < 0
      · rw [if_pos (decide_eq_true hlt), max_eq_left hlt.le]; rfl
      · rw [if_neg (by simpa using hlt), max_eq_right (not_lt.1 hlt)]; rfl
  · rw [h3, samples, List.map_map]
    refine (zero_add _).trans ?_
    rw [optionSens, ← range_sum product fun k t => (dualPay put ⟨K, 0⟩ ((bsDual i b).numeraire t) (Num.exp ((bsDual i b).logAt (datesLine product) g (k + 1)))).d]
    rfl

/-- C104 for options: without the cutoff, a compiled simulation of a product that pays a call or a put at each of its dates gives the sum of the discounted payoffs, and as risks the means over the paths
of the derivatives of the discounted payoffs with respect to the spot, the volatility, the rate and the dividend yield, and for the strike. -/
theorem C104_option (lib : Adj.Lib) (put : Bool) (K : ℝ) (b : BS ℝ) (product : List ℝ) (hne : product ≠ []) (hp : product.IsChain (· < ·)) (hpos : ∀ t ∈ product, 0 < t) (f n : Nat) (hn : 0 < n)
    (gs : List (Nat → ℝ)) :
    tSimulate lib 0 (f + 5) (optionProduct put K product) b [K] product n gs =
      some ((gs.map (optionValue put K b product)).sum, (List.range 5).map fun i => (gs.map (optionSens put K b product i)).sum / n) :=
  C104_exact lib (f + 5) _ b [K] product hne hp hpos n hn gs (optionValue put K b product) (optionSens put K b product) fun g _ i _ => option_path put K b product hne hp hpos f i g

/-- The model with one parameter moved, in the order of the risks. -/
def moved (b : BS ℝ) (t : ℝ) : Fin 4 → BS ℝ
  | 0 => { b with spot := t }
  | 1 => { b with vol := t }
  | 2 => { b with rate := t }
  | 3 => { b with div := t }

/-- The parameter, in the order of the risks. -/
def paramOf (b : BS ℝ) : Fin 4 → ℝ
  | 0 => b.spot
  | 1 => b.vol
  | 2 => b.rate
  | 3 => b.div

/-- C104, what the derivatives on the paths estimate: the mean over the Gaussian numbers of the derivative on a path with respect to a parameter of the model is the derivative of the sum of the discounted
Black prices with respect to that parameter. -/
theorem C104_option_mean (put : Bool) (K : ℝ) (b : BS ℝ) (product : List ℝ) (hp : product.IsChain (· < ·)) (hpos : ∀ t ∈ product, 0 < t) (s0 : 0 < b.spot) (k0 : 0 < K)
    (v0 : ∀ t ∈ product, epsilon < b.vol * Real.sqrt t) (e0 : ∀ t ∈ product, epsilon < b.spot * Real.exp ((b.rate - b.div) * t) * K) (i : Fin 4) :
    ∃ prices : ℝ → Fin product.length → ℝ,
      (∀ᶠ t in 𝓝 (paramOf b i), ∀ k, blackOpt ((moved b t i).spot * Real.exp (((moved b t i).rate - (moved b t i).div) * product[k])) ((moved b t i).vol * Real.sqrt product[k]) K
        (if put then .put else .call) = some (prices t k)) ∧
      HasDerivAt (fun t => ∑ k : Fin product.length, Real.exp (-(moved b t i).rate * product[k]) * prices t k) (gaussMean product.length (optionSens put K b product i)) (paramOf b i) := by
  have hpw : (0 :: product).Pairwise (· < ·) := List.pairwise_cons.2 ⟨hpos, List.isChain_iff_pairwise.1 hp⟩
  have hk : ∀ k : Fin product.length, datesLine product (k + 1) = product[k] := by
    intro k
    show (0 :: product).getD (k.1 + 1) 0 = _
    rw [List.getD_eq_getElem?_getD, List.getElem?_cons_succ, List.getElem?_eq_getElem k.2]; rfl
  have hmono : ∀ k : Fin product.length, ∀ j, j < k.1 + 1 → datesLine product j ≤ datesLine product (j + 1) := by
    intro k j hj
    have := k.2
    rw [datesLine, datesLine, List.getD_eq_getElem?_getD, List.getD_eq_getElem?_getD, List.getElem?_eq_getElem (by simp; omega), List.getElem?_eq_getElem (by simp; omega)]
    exact (List.pairwise_iff_getElem.1 hpw j (j + 1) (by simp; omega) (by simp; omega) (by omega)).le
  have hdate := fun k : Fin product.length => C100_date put (fun t => (moved b t i).spot) (fun t => (moved b t i).rate) (fun t => (moved b t i).div) (fun t => (moved b t i).vol) (fun _ => K)
    (paramOf b i) (bsDual i b) ⟨K, 0⟩
    (by fin_cases i <;> exact ⟨rfl, by first | exact hasDerivAt_id _ | exact hasDerivAt_const _ _⟩)
    (by fin_cases i <;> exact ⟨rfl, by first | exact hasDerivAt_id _ | exact hasDerivAt_const _ _⟩)
    (by fin_cases i <;> exact ⟨rfl, by first | exact hasDerivAt_id _ | exact hasDerivAt_const _ _⟩)
    (by fin_cases i <;> exact ⟨rfl, by first | exact hasDerivAt_id _ | exact hasDerivAt_const _ _⟩)
    ⟨rfl, hasDerivAt_const _ _⟩ (datesLine product) product.length (k + 1) (by have := k.2; omega) (hmono k) rfl
    (by rw [hk]; exact hpos _ (List.getElem_mem _)) (by fin_cases i <;> exact s0) k0
    (by rw [hk]; have := v0 _ (List.getElem_mem (l := product) k.2); fin_cases i <;> exact this)
    (by rw [hk]; have := e0 _ (List.getElem_mem (l := product) k.2); fin_cases i <;> exact this)
  simp only [hk] at hdate
  choose prices x1 x2 x3 using hdate
  refine ⟨fun t k => prices k t, eventually_all.2 x1, ?_⟩
  unfold optionSens
  rw [gaussMean, integral_finsetSum]
  · exact HasDerivAt.fun_sum fun k _ => x2 k
  · exact fun k _ => x3 k

private theorem ncdf_positive (d : ℝ) : 0 < Numeric.ncdf d := by
  have hs : StrictMono Numeric.ncdf := strictMono_of_deriv_pos fun x => by rw [(ncdf_deriv x).deriv]; exact density_pos x
  exact lt_of_le_of_lt (ncdf_nonneg (d - 1)) (hs (by linarith))

/-- C104, not so for the strike: the simulation reports the risk zero for the strike of calls and puts, but the prices fall (or rise) with it. -/
theorem C104_strike_violated (lib : Adj.Lib) (put : Bool) (K : ℝ) (b : BS ℝ) (product : List ℝ) (hne : product ≠ []) (hp : product.IsChain (· < ·)) (hpos : ∀ t ∈ product, 0 < t)
    (s0 : 0 < b.spot) (k0 : 0 < K) (v0 : ∀ t ∈ product, epsilon < b.vol * Real.sqrt t) (e0 : ∀ t ∈ product, epsilon < b.spot * Real.exp ((b.rate - b.div) * t) * K)
    (f n : Nat) (hn : 0 < n) (gs : List (Nat → ℝ)) :
    (∃ sum risks, tSimulate lib 0 (f + 5) (optionProduct put K product) b [K] product n gs = some (sum, risks) ∧ risks[4]? = some 0) ∧
    ∃ (prices : ℝ → Fin product.length → ℝ) (d : ℝ),
      (∀ᶠ t in 𝓝 K, ∀ k, blackOpt (b.spot * Real.exp ((b.rate - b.div) * product[k])) (b.vol * Real.sqrt product[k]) t (if put then .put else .call) = some (prices t k)) ∧
      HasDerivAt (fun t => ∑ k : Fin product.length, Real.exp (-b.rate * product[k]) * prices t k) d K ∧ (if put then 0 < d else d < 0) := by
  refine ⟨?_, ?_⟩
  · have hv : ∀ g ∈ gs, pathRun realOps (f + 5) (optionProduct put K product) b product g = some (optionValue put K b product g) := by
      intro g _
      have h1 := option_path put K b product hne hp hpos f 0 g
      rw [pathRun_samples _ _ _ _ _ hne hp hpos] at h1 ⊢
      rw [runSamples_v 0]
      cases hr : runSamples dualOps (f + 5) (optionProduct put K product) (samples (bsDual 0 b) product g) with
      | none => rw [hr] at h1; simp at h1
      | some r =>
        rw [hr] at h1
        have := congrArg (Option.map Dual.v) h1
        simpa using this
    obtain ⟨B, hB⟩ := C104_constants lib (f + 5) (optionProduct put K product) b [K] product hne hp hpos n hn gs _ hv
    obtain ⟨risks, h1, h2, h3⟩ := hB 0 le_rfl
    refine ⟨_, risks, h1, ?_⟩
    have h4 : 4 < risks.length := by rw [h2]; simp
    have h5 := h3 0 risks[4] (List.getElem?_eq_getElem h4)
    rw [zero_mul, abs_nonpos_iff] at h5
    rw [List.getElem?_eq_getElem h4, (mul_eq_zero.1 h5).resolve_right (Nat.cast_ne_zero.2 hn.ne')]
  · have hmove := fun k : Fin product.length => price_moves put (F := fun _ => b.spot * Real.exp ((b.rate - b.div) * product[k])) (K := fun t => t) (v := fun _ => b.vol * Real.sqrt product[k])
      (r := fun _ => b.rate) (T := product[k]) (hasDerivAt_const K _) (hasDerivAt_id K) (hasDerivAt_const K _) (hasDerivAt_const K _)
      (mul_pos s0 (Real.exp_pos _)) k0 (v0 _ (List.getElem_mem _)) (e0 _ (List.getElem_mem _))
    choose prices x1 x2 using hmove
    refine ⟨fun t k => prices k t, _, eventually_all.2 x1, HasDerivAt.fun_sum fun k _ => x2 k, ?_⟩
    have hne' : (Finset.univ : Finset (Fin product.length)).Nonempty := ⟨⟨0, List.length_pos_of_ne_nil hne⟩, Finset.mem_univ _⟩
    cases put with
    | true =>
      rw [if_pos rfl]
      refine Finset.sum_pos (fun k _ => ?_) hne'
      simp only [if_true, zero_mul, mul_zero, sub_zero, one_mul]
      refine mul_pos (Real.exp_pos _) ?_
      rw [← ncdf_neg]
      exact ncdf_positive _
    | false =>
      rw [if_neg (by decide)]
      refine Finset.sum_neg (fun k _ => ?_) hne'
      simp only [Bool.false_eq_true, if_false, zero_mul, mul_zero, sub_zero, one_mul, zero_add, zero_sub]
      exact mul_neg_of_pos_of_neg (Real.exp_pos _) (neg_lt_zero.2 (ncdf_positive _))

/-- C104, not so for a payoff that is the spot of today: `x = spot()` at today's date gives `x` the number of the spot, which is before the mark; the propagation starts below where it should stop and
leaves the tape. -/
theorem C104_today_violated (lib : Adj.Lib) (eps : ℝ) (f : Nat) (b : BS ℝ) (n : Nat) (g : Nat → ℝ) (gs : List (Nat → ℝ)) :
    pathRun realOps (f + 3) ⟨[⟨[.op .spot, .op .assign, .arg 0], []⟩], [0], 0⟩ b [0] g = some (Real.exp (Real.log b.spot)) ∧
    tSimulate lib eps (f + 3) ⟨[⟨[.op .spot, .op .assign, .arg 0], []⟩], [0], 0⟩ b [] [0] n (g :: gs) = none := by
  have ha : bsAllocate [(0 : ℝ)] = some ([0], [true]) := by simp [bsAllocate]
  refine ⟨?_, ?_⟩
  · unfold pathRun
    rw [ha]
    rfl
  · unfold tSimulate
    rw [ha]
    dsimp only
    rw [show ([true] : List Bool).headD false = true from rfl, tPaths]
    have hm : 0 < (base lib b [] [0] [0]).tape.nodes.length := (base_spec lib 0 b [] [0] [0] (by decide)).low
    have h : tOne lib eps (f + 3) ⟨[⟨[.op .spot, .op .assign, .arg 0], []⟩], [0], 0⟩ (base lib b [] [0] [0]) true g (fun _ => 0) = none := by
      have he : ∃ t, ∃ σ : Nat → Nat, tEvaluate lib (f + 3) [0] ([⟨[.op .spot, .op .assign, .arg 0], []⟩].zip (tScenario lib (base lib b [] [0] [0]) true g).2)
          (tScenario lib (base lib b [] [0] [0]) true g).1 = some (t, σ) ∧ σ 0 = 0 := ⟨_, _, rfl, rfl⟩
      obtain ⟨t, σ, he, h0⟩ := he
      unfold tOne
      dsimp only
      rw [he]
      dsimp only
      rw [h0, Adj.propagateFrom, Adj.propagate, if_pos hm]
    rw [h]

/-! ### Examples -/

private noncomputable def demoModel : BS ℝ := ⟨100, 0.03, 0.01, 0.2⟩

private theorem demo_pos : ∀ t ∈ ([1, 2] : List ℝ), 0 < t := by simp

private theorem demo_ge : ∀ t ∈ ([1, 2] : List ℝ), 1 ≤ t := by simp

private theorem demo_vol (t : ℝ) (ht : t ∈ ([1, 2] : List ℝ)) : epsilon < demoModel.vol * Real.sqrt t := by
  have h2 : (1 : ℝ) ≤ Real.sqrt t := by rw [Real.le_sqrt (by norm_num) (by linarith [demo_ge t ht])]; linarith [demo_ge t ht]
  exact lt_of_lt_of_le (show epsilon < 0.2 * 1 by norm_num [epsilon]) (mul_le_mul_of_nonneg_left h2 (by norm_num [demoModel]))

private theorem demo_fwd (t : ℝ) (ht : t ∈ ([1, 2] : List ℝ)) : epsilon < demoModel.spot * Real.exp ((demoModel.rate - demoModel.div) * t) * 110 := by
  have h1 := Real.one_le_exp (show (0 : ℝ) ≤ (0.03 - 0.01) * t by nlinarith [demo_ge t ht])
  show epsilon < 100 * Real.exp ((0.03 - 0.01) * t) * 110
  rw [epsilon]; nlinarith

private theorem demo_value (g : Nat → ℝ) : pathRun realOps 5 (optionProduct false 110 [1, 2]) demoModel [1, 2] g = some (optionValue false 110 demoModel [1, 2] g) := by
  have h1 := option_path false 110 demoModel [1, 2] (by simp) (by simp) demo_pos 0 0 g
  rw [pathRun_samples _ _ _ _ _ (by simp) (by simp) demo_pos] at h1 ⊢
  rw [runSamples_v 0]
  cases hr : runSamples dualOps 5 (optionProduct false 110 [1, 2]) (samples (bsDual 0 demoModel) [1, 2] g) with
  | none => rw [hr] at h1; simp at h1
  | some r =>
    rw [hr] at h1
    have := congrArg (Option.map Dual.v) h1
    simpa using this

/-- Two paths of calls in one year and in two, with the cutoff of the code: the five risks. -/
example (lib : Adj.Lib) (g g' : Nat → ℝ) : ∃ sum risks, tSimulate lib (2 / 10 ^ 14) 5 (optionProduct false 110 [1, 2]) demoModel [110] [1, 2] 2 [g, g'] = some (sum, risks) ∧ risks.length = 5 := by
  obtain ⟨_, _, _, h⟩ := C104_risks lib 5 (optionProduct false 110 [1, 2]) demoModel [110] [1, 2] (by simp) (by simp) demo_pos 2 (by decide) [g, g'] _ fun g _ => demo_value g
  obtain ⟨risks, h1, h2, _⟩ := h (2 / 10 ^ 14) (by norm_num)
  exact ⟨_, risks, h1, h2⟩

example (lib : Adj.Lib) (g : Nat → ℝ) : ∃ sum risks, tSimulate lib 0 5 (optionProduct false 110 [1, 2]) demoModel [110] [1, 2] 1 [g] = some (sum, risks) :=
  ⟨_, _, C104_exact lib 5 _ demoModel [110] [1, 2] (by simp) (by simp) demo_pos 1 (by decide) [g] _ _ fun g _ i _ => option_path false 110 demoModel [1, 2] (by simp) (by simp) demo_pos 0 i g⟩

example (lib : Adj.Lib) (g : Nat → ℝ) : ∃ sum risks, tSimulate lib 0 5 (optionProduct false 110 [1, 2]) demoModel [110] [1, 2] 1 [g] = some (sum, risks) ∧ ∀ r, risks[4]? = some r → r = 0 := by
  obtain ⟨B, h⟩ := C104_constants lib 5 (optionProduct false 110 [1, 2]) demoModel [110] [1, 2] (by simp) (by simp) demo_pos 1 (by decide) [g] _ fun g _ => demo_value g
  obtain ⟨risks, h1, _, h3⟩ := h 0 le_rfl
  refine ⟨_, risks, h1, fun r hr => ?_⟩
  have := h3 0 r hr
  simpa using this

example (lib : Adj.Lib) (g : Nat → ℝ) : tSimulate lib 0 5 (optionProduct true 110 [1, 2]) demoModel [110] [1, 2] 1 [g] =
    some (optionValue true 110 demoModel [1, 2] g, (List.range 5).map fun i => optionSens true 110 demoModel [1, 2] i g) := by
  simpa using C104_option lib true 110 demoModel [1, 2] (by simp) (by simp) demo_pos 0 1 (by decide) [g]

/-- The vega of puts. -/
example : ∃ prices : ℝ → Fin 2 → ℝ, HasDerivAt (fun t => ∑ k : Fin 2, Real.exp (-0.03 * ([1, 2] : List ℝ)[k]) * prices t k) (gaussMean 2 (optionSens true 110 demoModel [1, 2] 1)) 0.2 := by
  obtain ⟨prices, _, h⟩ := C104_option_mean true 110 demoModel [1, 2] (by simp) demo_pos (show (0 : ℝ) < 100 by norm_num) (by norm_num) demo_vol demo_fwd 1
  exact ⟨prices, h⟩

example (lib : Adj.Lib) (g : Nat → ℝ) : ∃ sum risks, tSimulate lib 0 5 (optionProduct false 110 [1, 2]) demoModel [110] [1, 2] 1 [g] = some (sum, risks) ∧ risks[4]? = some 0 :=
  (C104_strike_violated lib false 110 demoModel [1, 2] (by simp) (by simp) demo_pos (show (0 : ℝ) < 100 by norm_num) (by norm_num) demo_vol demo_fwd 0 1 (by decide) [g]).1

end Dal
