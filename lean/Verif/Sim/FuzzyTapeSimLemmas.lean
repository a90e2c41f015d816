import Verif.Sim.FuzzyTapeLemmas
import Verif.Sim.TapeSimLemmas
import Verif.Script.SmoothValue

/-! # Lemmas on simulations through the smoothed evaluator on the tape -/

namespace Dal.TapeRun

open Dal.Adj Dal.Script Dal.Models Dal.TimeLine

/-- The constant variables with the derivatives in the input at position `i`. -/
noncomputable def constDual (i : Nat) (consts : List ℝ) (k : Nat) : Dual := ⟨consts.getD k 0, if i = 4 + k then 1 else 0⟩

theorem base_ext (lib : Lib) (b : BS ℝ) (consts line product : List ℝ) : Ext (Tape.empty.leaves ([b.spot, b.vol, b.rate, b.div] ++ consts)) (base lib b consts line product).tape := by
  rw [base]
  have hl := (leaves_spec ([b.spot, b.vol, b.rate, b.div] ++ consts) Tape.empty).2.1
  set t0 := Tape.empty.leaves ([b.spot, b.vol, b.rate, b.div] ++ consts) with ht0
  have hlen : 4 ≤ t0.nodes.length := by rw [hl]; simp [Tape.empty]
  have e1 := expr_made 0 lib t0 (.bin .sub (.num 2) (.num 3)) (by omega) ⟨show 2 < _ by omega, show 3 < _ by omega⟩
  set mu := t0.expr lib (.bin .sub (.num 2) (.num 3)) with hmu
  have l1 := e1.ext.le
  have e2 := (tSteps_spec lib 0 1 mu.2 (steps line) mu.1 (by omega) (by omega) e1.pos).1
  have l2 := e2.le
  have e3 := (tNums_spec lib 0 2 product (tSteps lib 1 mu.2 (steps line) mu.1).1 (by omega) (by omega)).1
  exact e1.ext.trans (e2.trans (e3.trans (leaves_spec _ _).1))

theorem base_consts (lib : Lib) (i : Nat) (b : BS ℝ) (consts line product : List ℝ) (k : Nat) (hk : k < consts.length) :
    4 + k < (base lib b consts line product).tape.nodes.length ∧ (base lib b consts line product).tape.dual i (4 + k) = constDual i consts k := by
  have e := base_ext lib b consts line product
  obtain ⟨-, hl, hd⟩ := leaves_spec ([b.spot, b.vol, b.rate, b.div] ++ consts) Tape.empty
  have hlen : 4 + k < (Tape.empty.leaves ([b.spot, b.vol, b.rate, b.div] ++ consts)).nodes.length := by rw [hl]; simp [Tape.empty]; omega
  refine ⟨lt_of_lt_of_le hlen e.le, ?_⟩
  rw [e.dual i hlen]
  have := hd i (4 + k) consts[k] (by
    rw [List.getElem?_append_right (by simp)]
    simp [List.getElem?_eq_getElem hk])
  rw [show Tape.empty.nodes.length + (4 + k) = 4 + k by simp [Tape.empty]] at this
  rw [this, constDual, List.getD_eq_getElem?_getD, List.getElem?_eq_getElem hk]
  simp only [Option.getD_some, eq_comm]

/-- The run of the script on the samples of a path. -/
noncomputable def runSmooth (p : Scripted) (cv : Nat → Dual) (sps : List (Script.Sample Dual)) : Option Dual :=
  (smoothEvents cv p.defEps p.eps (p.events.zip sps) ⟨fun k => Script.lift (p.vars.getD k 0), fun _ _ => Script.lift 0, fun _ _ => Script.lift 0⟩).map fun s => s.σ p.payoff

/-- The run of the script with doubles. -/
noncomputable def runFuzzy (p : Scripted) (cv : Nat → ℝ) (sps : List (Script.Sample ℝ)) : Option ℝ :=
  (fuzzyEvents cv p.defEps p.eps (p.events.zip sps) ⟨fun k => p.vars.getD k 0, fun _ _ => 0, fun _ _ => 0⟩).map fun s => s.σ p.payoff

theorem samples_v (i : Nat) (b : BS ℝ) (product : List ℝ) (gauss : Nat → ℝ) : samples b product gauss = (samples (bsDual i b) product gauss).map Sample.values := by
  rw [samples, samples, List.map_map]
  refine List.map_congr_left fun k _ => ?_
  show (⟨_, _⟩ : Script.Sample ℝ) = ⟨_, _⟩
  have h := (dual_log (bsDual i b) (fun j => (0 :: product).getD j 0) gauss (k + 1)).1
  rw [bsDual_values] at h
  congr 1
  show Real.exp _ = Real.exp _
  rw [h]

theorem samplesFrom_v (i : Nat) (today : Bool) (b : BS ℝ) (product : List ℝ) (gauss : Nat → ℝ) :
    samplesFrom today b product gauss = (samplesFrom today (bsDual i b) product gauss).map Sample.values := by
  cases today with
  | false => exact samples_v i b product gauss
  | true =>
    rw [samplesFrom, samplesFrom, List.map_cons, samples_v i]
    rfl

theorem runFuzzy_v (i : Nat) (p : Scripted) (today : Bool) (b : BS ℝ) (consts product : List ℝ) (gauss : Nat → ℝ) :
    runFuzzy p (fun k => consts.getD k 0) (samplesFrom today b product gauss) = (runSmooth p (constDual i consts) (samplesFrom today (bsDual i b) product gauss)).map Dual.v := by
  rw [runFuzzy, runSmooth, samplesFrom_v i, List.zip_map_right]
  have h := smoothEvents_v (constDual i consts) p.defEps p.eps (p.events.zip (samplesFrom today (bsDual i b) product gauss))
    ⟨fun k => Script.lift (p.vars.getD k 0), fun _ _ => Script.lift 0, fun _ _ => Script.lift 0⟩
  rw [show (p.events.zip (samplesFrom today (bsDual i b) product gauss)).map (Prod.map id Sample.values) = (p.events.zip (samplesFrom today (bsDual i b) product gauss)).map fun ev => (ev.1, ev.2.values) from rfl]
  have h' : fuzzyEvents (fun k => consts.getD k 0) p.defEps p.eps ((p.events.zip (samplesFrom today (bsDual i b) product gauss)).map fun ev => (ev.1, ev.2.values))
      ⟨fun k => p.vars.getD k 0, fun _ _ => 0, fun _ _ => 0⟩ = _ := h.symm
  rw [h', Option.map_map, Option.map_map]
  rfl

theorem vEvaluate_spec (lib : Lib) (i : Nat) (F : Nat → Prop) (p : Scripted) (b : BS ℝ) (consts product : List ℝ) (hi : i < 4 + consts.length) (today : Bool) (ho : ∀ e ∈ p.events, OwnSs True F e) (ho0 : today = true → ∀ e ∈ p.events.head?, OwnSs False F e) (gauss : Nat → ℝ) :
    (match vEvaluate lib p.defEps p.eps consts.length p.vars (p.events.zip (tScenario lib (base lib b consts (0 :: product) (datesFrom today product)) today gauss).2)
        (tScenario lib (base lib b consts (0 :: product) (datesFrom today product)) today gauss).1 with
      | none => runSmooth p (constDual i consts) (samplesFrom today (bsDual i b) product gauss) = none
      | some r => runSmooth p (constDual i consts) (samplesFrom today (bsDual i b) product gauss) = some (r.1.dual i (r.2 p.payoff)) ∧ Ext (base lib b consts (0 :: product) (datesFrom today product)).tape r.1 ∧
        ∀ k, r.2 k < r.1.nodes.length ∧ (F k → (base lib b consts (0 :: product) (datesFrom today product)).tape.nodes.length ≤ r.2 k)) := by
  have hb := base_spec lib i b consts (0 :: product) (datesFrom today product) hi
  have hcs := base_consts lib i b consts (0 :: product) (datesFrom today product)
  set bs := base lib b consts (0 :: product) (datesFrom today product) with hbs
  obtain ⟨e1, s1, slow, s2⟩ := scenario_any lib i b today product bs hb gauss
  set sc := tScenario lib bs today gauss with hsc
  obtain ⟨e2, q1, q2⟩ := tInit_spec i sc.1 p.vars (lt_of_lt_of_le hb.pos e1.le)
  have e12 := e1.trans e2
  have hz := q1 p.vars.length
  have hzd := congrFun q2 p.vars.length
  have hzp : (tInit sc.1 p.vars).2 p.vars.length = sc.1.nodes.length + p.vars.length := by simp [tInit]
  rw [hzp] at hz hzd
  have hzd' : (tInit sc.1 p.vars).1.dual i (sc.1.nodes.length + p.vars.length) = Script.lift 0 := by
    refine hzd.trans ?_
    rw [List.getD_eq_getElem?_getD, List.getElem?_eq_none (le_refl _)]; rfl
  set z := sc.1.nodes.length + p.vars.length with hzdef
  set cv : Nat → Nat := fun k => if k < consts.length then 4 + k else z with hcv
  have hcvlt : ∀ k, cv k < (tInit sc.1 p.vars).1.nodes.length := by
    intro k
    simp only [hcv]
    split_ifs with h
    · exact lt_of_lt_of_le (hcs k h).1 e12.le
    · exact hz.2
  have hcvd : (fun k => (tInit sc.1 p.vars).1.dual i (cv k)) = constDual i consts := by
    funext k
    simp only [hcv]
    split_ifs with h
    · rw [e12.dual i (hcs k h).1, (hcs k h).2]
    · rw [hzd', constDual, List.getD_eq_getElem?_getD, List.getElem?_eq_none (not_lt.1 h), if_neg (by omega)]
      rfl
  have hmem : ∀ e ∈ p.events.zip sc.2, e.1 ∈ p.events ∧ e.2 ∈ sc.2 := fun e he => List.of_mem_zip (a := e.1) (b := e.2) he
  have hlow : bs.tape.nodes.length ≤ z := e1.le.trans hz.1
  have key := vEvents_dual lib i bs.tape.nodes.length F cv p.defEps p.eps (p.events.zip sc.2) (tInit sc.1 p.vars).1 ⟨(tInit sc.1 p.vars).2, fun _ _ => z, fun _ _ => z⟩
    (fun ev hev => by
      obtain ⟨k, hk⟩ := List.mem_iff_getElem?.1 hev
      obtain ⟨k1, k2⟩ := List.getElem?_zip_eq_some.1 hk
      have hsp := (s1 ev.2 (hmem ev hev).2).ext e2
      by_cases hc : today = false ∨ k ≠ 0
      · exact ⟨True, ho ev.1 (hmem ev hev).1, fun _ => slow k ev.2 k2 hc, hsp, hcvlt, lt_of_lt_of_le hb.pos e12.le, e12.le⟩
      · rw [not_or, not_not, Bool.not_eq_false] at hc
        refine ⟨False, ho0 hc.1 ev.1 ?_, fun h => h.elim, hsp, hcvlt, lt_of_lt_of_le hb.pos e12.le, e12.le⟩
        rw [hc.2, ← List.head?_eq_getElem?] at k1
        exact k1)
    ⟨fun k => (q1 k).2, fun _ _ => hz.2, fun _ _ => hz.2, fun k _ => e1.le.trans (q1 k).1, fun _ _ _ => hlow, fun _ _ _ => hlow⟩
  rw [hcvd] at key
  have hst : fsDual i (tInit sc.1 p.vars).1 ⟨(tInit sc.1 p.vars).2, fun _ _ => z, fun _ _ => z⟩ =
      ⟨fun k => Script.lift (p.vars.getD k 0), fun _ _ => Script.lift 0, fun _ _ => Script.lift 0⟩ := by
    rw [fsDual]
    dsimp only
    rw [q2, hzd']
  have hev : ((p.events.zip sc.2).map fun ev => (ev.1, sampleDual i (tInit sc.1 p.vars).1 ev.2)) = p.events.zip (samplesFrom today (bsDual i b) product gauss) := by
    rw [← s2, List.zip_map_right]
    refine List.map_congr_left fun e he => ?_
    rw [sampleDual_ext (s1 e.2 (hmem e he).2) e2 i]
    rfl
  rw [hst, hev] at key
  rw [vEvaluate]
  rw [← hzdef, ← hcv]
  rw [runSmooth]
  cases hx : vEvents lib cv p.defEps p.eps (p.events.zip sc.2) (tInit sc.1 p.vars).1 ⟨(tInit sc.1 p.vars).2, fun _ _ => z, fun _ _ => z⟩ with
  | none =>
    rw [hx] at key
    dsimp only
    rw [show smoothEvents _ _ _ _ _ = none from key]
    rfl
  | some r =>
    rw [hx] at key
    obtain ⟨k1, k2, k3⟩ := key
    dsimp only
    rw [k1]
    exact ⟨rfl, e12.trans k2, fun k => ⟨k3.σ k, k3.σlow k⟩⟩

theorem vOne_spec (lib : Lib) (F : Nat → Prop) (p : Scripted) (b : BS ℝ) (consts product : List ℝ) (today : Bool) (ho : ∀ e ∈ p.events, OwnSs True F e) (ho0 : today = true → ∀ e ∈ p.events.head?, OwnSs False F e) (hF : F p.payoff) (gauss : Nat → ℝ)
    (v : ℝ) (hv : runFuzzy p (fun k => consts.getD k 0) (samplesFrom today b product gauss) = some v) :
    ∃ d B : Nat → ℝ, (∀ i, i < 4 + consts.length → runSmooth p (constDual i consts) (samplesFrom today (bsDual i b) product gauss) = some ⟨v, d i⟩) ∧
      ∀ eps, 0 ≤ eps → ∀ adj, ∃ adj', vOne lib eps consts.length p (base lib b consts (0 :: product) (datesFrom today product)) today gauss adj = some (v, adj') ∧
        ∀ i, i < 4 + consts.length → |∑ k ∈ Finset.range (base lib b consts (0 :: product) (datesFrom today product)).tape.nodes.length, adj' k * tans i (base lib b consts (0 :: product) (datesFrom today product)).tape.nodes k -
          (∑ k ∈ Finset.range (base lib b consts (0 :: product) (datesFrom today product)).tape.nodes.length, adj k * tans i (base lib b consts (0 :: product) (datesFrom today product)).tape.nodes k + d i)| ≤ eps * B i := by
  have hev := fun i hi => vEvaluate_spec lib i F p b consts product hi today ho ho0 gauss
  have hb : ∀ i, i < 4 + consts.length → BaseOn i b (0 :: product) (datesFrom today product) (base lib b consts (0 :: product) (datesFrom today product)) := fun i hi => base_spec lib i b consts (0 :: product) (datesFrom today product) hi
  set bs := base lib b consts (0 :: product) (datesFrom today product) with hbs
  cases he : vEvaluate lib p.defEps p.eps consts.length p.vars (p.events.zip (tScenario lib bs today gauss).2) (tScenario lib bs today gauss).1 with
  | none =>
    have h0 := hev 0 (by omega)
    rw [he] at h0
    rw [runFuzzy_v 0, show runSmooth _ _ _ = none from h0] at hv
    simp at hv
  | some r =>
    obtain ⟨t, σ⟩ := r
    have hev' : ∀ i, i < 4 + consts.length → runSmooth p (constDual i consts) (samplesFrom today (bsDual i b) product gauss) = some (t.dual i (σ p.payoff)) ∧ Ext bs.tape t ∧
        ∀ k, σ k < t.nodes.length ∧ (F k → bs.tape.nodes.length ≤ σ k) := by
      intro i hi
      have := hev i hi
      rw [he] at this
      exact this
    obtain ⟨-, ext, hσ⟩ := hev' 0 (by omega)
    have hval : t.env (σ p.payoff) = v := by
      rw [runFuzzy_v 0, (hev' 0 (by omega)).1] at hv
      exact Option.some.inj hv
    have hlin : ∀ i, i < 4 + consts.length → Lin t.nodes (tans i t.nodes) i := by
      intro i hi
      refine lin_of_back (ext.back (hb i hi).back) ?_
      obtain ⟨q, hq⟩ := ext.pre
      rw [← hq, List.getElem?_append_left (hb i hi).pos, (hb i hi).leaf]
    refine ⟨fun i => tans i t.nodes (σ p.payoff), fun i => ∑ k ∈ Finset.Ico bs.tape.nodes.length (σ p.payoff + 1), |tans i t.nodes k|, ?_, ?_⟩
    · intro i hi
      rw [(hev' i hi).1, ← hval]
      rfl
    · intro eps heps adj
      have hm : bs.tape.nodes.length ≤ σ p.payoff ∧ σ p.payoff < t.nodes.length := ⟨(hσ p.payoff).2 hF, (hσ p.payoff).1⟩
      have hdown := fun i hi => down_ok heps (hlin i hi) (σ p.payoff - bs.tape.nodes.length) (σ p.payoff)
        (Function.update (fun k => if k < bs.tape.nodes.length then adj k else 0) (σ p.payoff) 1) hm.2 (by omega)
      obtain ⟨adj', a1, -⟩ := hdown 0 (by omega)
      refine ⟨adj', ?_, ?_⟩
      · rw [vOne]
        rw [he]
        dsimp only
        rw [propagateFrom, propagate, if_neg (by omega), a1]
        dsimp only
        rw [hval]
      · intro i hi
        obtain ⟨adj'', a2, a3⟩ := hdown i hi
        rw [a1] at a2
        cases a2
        rw [show σ p.payoff - (σ p.payoff - bs.tape.nodes.length) = bs.tape.nodes.length by omega, weight_total_low _ _ ext.le (hb i hi).pos, total_start _ _ hm.2 hm.1 (hb i hi).pos] at a3
        have hsum : ∀ a : Nat → ℝ, ∑ k ∈ Finset.range bs.tape.nodes.length, a k * tans i t.nodes k = ∑ k ∈ Finset.range bs.tape.nodes.length, a k * tans i bs.tape.nodes k := fun a =>
          Finset.sum_congr rfl fun k hk => by rw [ext.tan i k (Finset.mem_range.1 hk)]
        rw [hsum, hsum] at a3
        exact a3

theorem vPaths_spec (lib : Lib) (F : Nat → Prop) (p : Scripted) (b : BS ℝ) (consts product : List ℝ) (today : Bool) (ho : ∀ e ∈ p.events, OwnSs True F e) (ho0 : today = true → ∀ e ∈ p.events.head?, OwnSs False F e) (hF : F p.payoff)
    (value : (Nat → ℝ) → ℝ) (deriv : Nat → (Nat → ℝ) → ℝ) : ∀ (gs : List (Nat → ℝ)),
    (∀ g ∈ gs, ∀ i, i < 4 + consts.length → runSmooth p (constDual i consts) (samplesFrom today (bsDual i b) product g) = some ⟨value g, deriv i g⟩) →
    ∃ B : Nat → ℝ, ∀ eps, 0 ≤ eps → ∀ sum adj, ∃ adj',
      vPaths lib eps consts.length p (base lib b consts (0 :: product) (datesFrom today product)) today gs sum adj = some (sum + (gs.map value).sum, adj') ∧
        ∀ i, i < 4 + consts.length → |∑ k ∈ Finset.range (base lib b consts (0 :: product) (datesFrom today product)).tape.nodes.length, adj' k * tans i (base lib b consts (0 :: product) (datesFrom today product)).tape.nodes k -
          (∑ k ∈ Finset.range (base lib b consts (0 :: product) (datesFrom today product)).tape.nodes.length, adj k * tans i (base lib b consts (0 :: product) (datesFrom today product)).tape.nodes k + (gs.map (deriv i)).sum)| ≤ eps * B i := by
  intro gs
  induction gs with
  | nil => intro _; exact ⟨fun _ => 0, fun eps _ sum adj => ⟨adj, by simp [vPaths], fun i _ => by simp⟩⟩
  | cons g gs ih =>
    intro h
    obtain ⟨B1, hB1⟩ := ih fun g' hg' => h g' (List.mem_cons_of_mem _ hg')
    have hg := h g (List.mem_cons_self ..)
    have hv : runFuzzy p (fun k => consts.getD k 0) (samplesFrom today b product g) = some (value g) := by
      rw [runFuzzy_v 0, hg 0 (by omega)]
      rfl
    obtain ⟨d, B2, hd, hB2⟩ := vOne_spec lib F p b consts product today ho ho0 hF g (value g) hv
    refine ⟨fun i => B2 i + B1 i, fun eps heps sum adj => ?_⟩
    obtain ⟨adj1, o1, o2⟩ := hB2 eps heps adj
    obtain ⟨adj2, p1, p2⟩ := hB1 eps heps (sum + value g) adj1
    refine ⟨adj2, ?_, fun i hi => ?_⟩
    · rw [vPaths, o1]
      dsimp only
      rw [p1, List.map_cons, List.sum_cons, add_assoc]
    · have e1 := o2 i hi
      have e2 := p2 i hi
      have hdi : d i = deriv i g := by
        have := (hd i hi).symm.trans (hg i hi)
        simpa using this
      rw [hdi] at e1
      rw [List.map_cons, List.sum_cons, mul_add]
      rw [abs_le] at e1 e2 ⊢
      constructor <;> linarith [e1.1, e1.2, e2.1, e2.2]

/-! ### The time line of a product -/

theorem allocate_after {product : List ℝ} (hne : product ≠ []) (hpos : ∀ t ∈ product, 0 < t) : bsAllocate product = some (0 :: product, false :: product.map fun _ => true) := by
  obtain ⟨t, r, rfl⟩ := List.exists_cons_of_ne_nil hne
  have hf : (t :: r).filter (fun x => decide (0 < x)) = t :: r := List.filter_eq_self.2 fun x hx => decide_eq_true (hpos x hx)
  show some (_, _) = _
  rw [hf, decide_eq_false (hpos t List.mem_cons_self).ne']

theorem samples_scenario {T : Type} [Add T] [Sub T] [Mul T] [Num T] (B : BS T) (product : List ℝ) (hne : product ≠ []) (hp : product.IsChain (· < ·)) (hpos : ∀ t ∈ product, 0 < t) (gauss : Nat → ℝ) :
    ∃ path, B.scenario product (product.map fun _ => ⟨true, [], []⟩) (0 :: product) (false :: product.map fun _ => true) gauss = some path ∧
      samples B product gauss = path.map fun s => (⟨s.spot, s.numeraire⟩ : Script.Sample T) := by
  obtain ⟨line, flags, path, h1, h2, h3, h4⟩ := C77_bs_scenario_any B product (product.map fun _ => ⟨true, [], []⟩) gauss hne hp (fun t ht => (hpos t ht).le) (List.length_map _)
  rw [allocate_after hne hpos] at h1
  simp only [Option.some.injEq, Prod.mk.injEq] at h1
  obtain ⟨rfl, rfl⟩ := h1
  refine ⟨path, h2, ?_⟩
  have hchain : (0 :: product).Nodup := by
    have : (0 :: product).Pairwise (· < ·) := List.pairwise_cons.2 ⟨hpos, List.isChain_iff_pairwise.1 hp⟩
    exact this.imp fun h => ne_of_lt h
  rw [samples]
  refine List.ext_getElem? fun k => ?_
  rw [List.getElem?_map, List.getElem?_map]
  by_cases hk : k < product.length
  · obtain ⟨pos, q1, q2⟩ := h4 k hk
    have hpos' : pos = k + 1 := by
      obtain ⟨hl, he⟩ := List.getElem?_eq_some_iff.1 q1
      have hl2 : k + 1 < (0 :: product).length := by simp; omega
      exact (List.Nodup.getElem_inj_iff hchain (hi := hl) (hj := hl2)).1 (by rw [he]; rfl)
    subst hpos'
    rw [q2, List.getElem?_range hk]
    have hg : product.getD k 0 = product[k] := by rw [List.getD_eq_getElem?_getD, List.getElem?_eq_getElem hk]; rfl
    simp only [Option.map_some, hg]
    rw [if_pos (by simp)]
  · rw [List.getElem?_eq_none (by simp; omega), List.getElem?_eq_none (by omega)]; rfl

theorem allocate_today {rest : List ℝ} (hpos : ∀ t ∈ rest, 0 < t) : bsAllocate (0 :: rest) = some (0 :: rest, true :: rest.map fun _ => true) := by
  have hf : (0 :: rest).filter (fun x => decide (0 < x)) = rest := by
    rw [List.filter_cons_of_neg (by simp)]
    exact List.filter_eq_self.2 fun x hx => decide_eq_true (hpos x hx)
  show some (_, _) = _
  rw [hf]
  simp

theorem allocate_from (today : Bool) {rest : List ℝ} (hne : datesFrom today rest ≠ []) (hpos : ∀ t ∈ rest, 0 < t) :
    bsAllocate (datesFrom today rest) = some (0 :: rest, today :: rest.map fun _ => true) := by
  cases today with
  | false => exact allocate_after hne hpos
  | true => exact allocate_today hpos

theorem samplesFrom_scenario {T : Type} [Add T] [Sub T] [Mul T] [Num T] (today : Bool) (B : BS T) (hs : today = true → Num.exp (Num.log B.spot) = B.spot) (rest : List ℝ) (hne : datesFrom today rest ≠ []) (hp : rest.IsChain (· < ·))
    (hpos : ∀ t ∈ rest, 0 < t) (gauss : Nat → ℝ) :
    ∃ path, B.scenario (datesFrom today rest) ((datesFrom today rest).map fun _ => ⟨true, [], []⟩) (0 :: rest) (today :: rest.map fun _ => true) gauss = some path ∧
      samplesFrom today B rest gauss = path.map fun s => (⟨s.spot, s.numeraire⟩ : Script.Sample T) := by
  cases today with
  | false => exact samples_scenario B rest hne hp hpos gauss
  | true =>
    have hchain : (0 :: rest).Pairwise (· < ·) := List.pairwise_cons.2 ⟨hpos, List.isChain_iff_pairwise.1 hp⟩
    obtain ⟨line, flags, path, h1, h2, h3, h4⟩ := C77_bs_scenario_any B (0 :: rest) ((0 :: rest).map fun _ => ⟨true, [], []⟩) gauss (by simp) (List.isChain_iff_pairwise.2 hchain)
      (by simpa using fun t ht => (hpos t ht).le) (List.length_map _)
    rw [allocate_today hpos] at h1
    simp only [Option.some.injEq, Prod.mk.injEq] at h1
    obtain ⟨rfl, rfl⟩ := h1
    refine ⟨path, h2, ?_⟩
    have hnd : (0 :: rest).Nodup := hchain.imp fun h => ne_of_lt h
    have hat : ∀ (k : Nat) (hk : k < (0 :: rest).length), path[k]? = some ⟨Num.exp (B.logAt (fun i => (0 :: rest).getD i 0) gauss k), B.numeraire (0 :: rest)[k], [], []⟩ := by
      intro k hk
      obtain ⟨pos, q1, q2⟩ := h4 k hk
      have hpos' : pos = k := by
        obtain ⟨hl, he⟩ := List.getElem?_eq_some_iff.1 q1
        exact (List.Nodup.getElem_inj_iff hnd (hi := hl) (hj := hk)).1 he
      subst hpos'
      rw [q2]
      simp only [List.getElem_map, if_true, List.map_nil]
    rw [samplesFrom, samples]
    refine List.ext_getElem? fun k => ?_
    rw [List.getElem?_map]
    cases k with
    | zero =>
      rw [hat 0 (by simp)]
      show some _ = some _
      rw [show B.logAt (fun i => (0 :: rest).getD i 0) gauss 0 = Num.log B.spot from rfl, hs rfl]
      rfl
    | succ k =>
      rw [List.getElem?_cons_succ, List.getElem?_map]
      by_cases hk : k < rest.length
      · rw [hat (k + 1) (by simpa using hk), List.getElem?_range hk]
        have hg : rest.getD k 0 = rest[k] := by rw [List.getD_eq_getElem?_getD, List.getElem?_eq_getElem hk]; rfl
        simp only [Option.map_some, hg]
        rfl
      · rw [List.getElem?_eq_none (by simp; omega), List.getElem?_eq_none (by rw [h3]; simp; omega)]; rfl

end Dal.TapeRun
