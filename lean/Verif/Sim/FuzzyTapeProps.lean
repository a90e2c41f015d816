import Verif.Sim.FuzzyTapeSimLemmas
import Verif.Sim.TapeProps
import Verif.Script.SmoothProps

/-!
# C105: simulations with adjoints through the smoothed evaluator

Specification: the same script run forward on pairs of a value and a derivative, one input at a time (`smoothPath`), on doubles (`fuzzyPath`), and on doubles with one input moved (`movedTo`, `constTo`).
-/

namespace Dal
open Dal.Models Dal.TimeLine Dal.TapeRun Dal.Numeric Dal.Implied MeasureTheory ProbabilityTheory Filter Topology

/-- The samples of a path of the model at the dates of the product. -/
noncomputable def pathSamples {T : Type} [Add T] [Sub T] [Mul T] [Num T] (B : BS T) (product : List ℝ) (gauss : Nat → ℝ) : Option (List (Script.Sample T)) :=
  match bsAllocate product with
  | none => none
  | some (line, flags) => (B.scenario product (product.map fun _ => ⟨true, [], []⟩) line flags gauss).map fun path => path.map fun s => ⟨s.spot, s.numeraire⟩

/-- A script run through the smoothed evaluator on one path of the model, on pairs of a value and a derivative: the payoff. -/
noncomputable def smoothPath (p : Scripted) (cv : Nat → Dual) (B : BS Dual) (product : List ℝ) (gauss : Nat → ℝ) : Option Dual :=
  (pathSamples B product gauss).bind fun sps =>
    (Script.smoothEvents cv p.defEps p.eps (p.events.zip sps) ⟨fun k => Num.lit (p.vars.getD k 0), fun _ _ => Num.lit 0, fun _ _ => Num.lit 0⟩).map fun s => s.σ p.payoff

/-- The same on doubles. -/
noncomputable def fuzzyPath (p : Scripted) (cv : Nat → ℝ) (B : BS ℝ) (product : List ℝ) (gauss : Nat → ℝ) : Option ℝ :=
  (pathSamples B product gauss).bind fun sps =>
    (Script.fuzzyEvents cv p.defEps p.eps (p.events.zip sps) ⟨fun k => p.vars.getD k 0, fun _ _ => 0, fun _ _ => 0⟩).map fun s => s.σ p.payoff

theorem pathSamples_from {T : Type} [Add T] [Sub T] [Mul T] [Num T] (today : Bool) (B : BS T) (hs : today = true → Num.exp (Num.log B.spot) = B.spot) (rest : List ℝ)
    (hne : datesFrom today rest ≠ []) (hp : rest.IsChain (· < ·)) (hpos : ∀ t ∈ rest, 0 < t) (gauss : Nat → ℝ) :
    pathSamples B (datesFrom today rest) gauss = some (samplesFrom today B rest gauss) := by
  obtain ⟨path, h1, h2⟩ := samplesFrom_scenario today B hs rest hne hp hpos gauss
  rw [pathSamples, allocate_from today hne hpos]
  dsimp only
  rw [h1, h2]
  rfl

/-- Today's spot: the model takes it through the logarithm and back. -/
theorem spot_real (today : Bool) (b : BS ℝ) (hb : today = true → 0 < b.spot) : today = true → (Num.exp (Num.log b.spot) : ℝ) = b.spot := fun h => Real.exp_log (hb h)

theorem spot_dual (today : Bool) (b : BS ℝ) (hb : today = true → 0 < b.spot) (i : Nat) : today = true → Num.exp (Num.log (bsDual i b).spot) = (bsDual i b).spot := by
  intro h
  refine Dual.ext (Real.exp_log (hb h)) ?_
  show ((if i = 0 then 1 else 0) / b.spot) * Real.exp (Real.log b.spot) = if i = 0 then 1 else 0
  rw [Real.exp_log (hb h), div_mul_cancel₀ _ (hb h).ne']

theorem smoothPath_from (today : Bool) (p : Scripted) (cv : Nat → Dual) (i : Nat) (b : BS ℝ) (hb : today = true → 0 < b.spot) (rest : List ℝ) (hne : datesFrom today rest ≠ [])
    (hp : rest.IsChain (· < ·)) (hpos : ∀ t ∈ rest, 0 < t) (gauss : Nat → ℝ) :
    smoothPath p cv (bsDual i b) (datesFrom today rest) gauss = runSmooth p cv (samplesFrom today (bsDual i b) rest gauss) := by
  rw [smoothPath, pathSamples_from today _ (spot_dual today b hb i) rest hne hp hpos]; rfl

theorem fuzzyPath_from (today : Bool) (p : Scripted) (cv : Nat → ℝ) (b : BS ℝ) (hb : today = true → 0 < b.spot) (rest : List ℝ) (hne : datesFrom today rest ≠ [])
    (hp : rest.IsChain (· < ·)) (hpos : ∀ t ∈ rest, 0 < t) (gauss : Nat → ℝ) :
    fuzzyPath p cv b (datesFrom today rest) gauss = runFuzzy p cv (samplesFrom today b rest gauss) := by
  rw [fuzzyPath, pathSamples_from today _ (spot_real today b hb) rest hne hp hpos]; rfl

private theorem smoothPath_eq (p : Scripted) (cv : Nat → Dual) (B : BS Dual) (product : List ℝ) (hne : product ≠ []) (hp : product.IsChain (· < ·)) (hpos : ∀ t ∈ product, 0 < t) (gauss : Nat → ℝ) :
    smoothPath p cv B product gauss = runSmooth p cv (samples B product gauss) := by
  rw [smoothPath, show pathSamples B product gauss = _ from pathSamples_from false B (fun h => by cases h) product hne hp hpos gauss]; rfl

private theorem fuzzyPath_eq (p : Scripted) (cv : Nat → ℝ) (B : BS ℝ) (product : List ℝ) (hne : product ≠ []) (hp : product.IsChain (· < ·)) (hpos : ∀ t ∈ product, 0 < t) (gauss : Nat → ℝ) :
    fuzzyPath p cv B product gauss = runFuzzy p cv (samples B product gauss) :=
  fuzzyPath_from false p cv B (fun h => by cases h) product hne hp hpos gauss

private theorem runFuzzy_after (i : Nat) (p : Scripted) (b : BS ℝ) (consts product : List ℝ) (gauss : Nat → ℝ) :
    runFuzzy p (fun k => consts.getD k 0) (samples b product gauss) = (runSmooth p (constDual i consts) (samples (bsDual i b) product gauss)).map Dual.v :=
  runFuzzy_v i p false b consts product gauss

theorem fuzzy_of_smooth (p : Scripted) (b : BS ℝ) (consts product : List ℝ) (hne : product ≠ []) (hp : product.IsChain (· < ·)) (hpos : ∀ t ∈ product, 0 < t) (g : Nat → ℝ) (v d : ℝ)
    (h : smoothPath p (constDual 0 consts) (bsDual 0 b) product g = some ⟨v, d⟩) : fuzzyPath p (fun k => consts.getD k 0) b product g = some v := by
  rw [smoothPath_eq _ _ _ _ hne hp hpos] at h
  rw [fuzzyPath_eq _ _ _ _ hne hp hpos, runFuzzy_after 0, h]
  rfl

/-- The risks of a task, for a product with or without today's date. -/
theorem risks_from (lib : Adj.Lib) (F : Nat → Prop) (p : Scripted) (today : Bool) (ho : ∀ e ∈ p.events, OwnSs True F e) (ho0 : today = true → ∀ e ∈ p.events.head?, OwnSs False F e)
    (hF : F p.payoff) (b : BS ℝ) (hspot : today = true → 0 < b.spot) (consts product : List ℝ) (hne : datesFrom today product ≠ [])
    (hp : product.IsChain (· < ·)) (hpos : ∀ t ∈ product, 0 < t) (n : Nat) (hn : 0 < n) (gs : List (Nat → ℝ)) (value : (Nat → ℝ) → ℝ)
    (hv : ∀ g ∈ gs, fuzzyPath p (fun k => consts.getD k 0) b (datesFrom today product) g = some (value g)) :
    ∃ (deriv : Nat → (Nat → ℝ) → ℝ) (B : Nat → ℝ),
      (∀ g ∈ gs, ∀ i, i < 4 + consts.length → smoothPath p (constDual i consts) (bsDual i b) (datesFrom today product) g = some ⟨value g, deriv i g⟩) ∧
      ∀ eps, 0 ≤ eps → ∃ risks : List ℝ, vSimulate lib eps p b consts (datesFrom today product) n gs = some ((gs.map value).sum, risks) ∧ risks.length = 4 + consts.length ∧
        ∀ (i : Nat) (r : ℝ), risks[i]? = some r → |r * n - (gs.map (deriv i)).sum| ≤ eps * B i := by
  have hb : ∀ i, i < 4 + consts.length → BaseOn i b (0 :: product) (datesFrom today product) (base lib b consts (0 :: product) (datesFrom today product)) := fun i hi => base_spec lib i b consts (0 :: product) (datesFrom today product) hi
  have hderiv : ∀ g, ∃ d : Nat → ℝ, g ∈ gs → ∀ i, i < 4 + consts.length → runSmooth p (constDual i consts) (samplesFrom today (bsDual i b) product g) = some ⟨value g, d i⟩ := by
    intro g
    by_cases hg : g ∈ gs
    · have h := hv g hg
      rw [fuzzyPath_from today p _ b hspot product hne hp hpos g] at h
      obtain ⟨d, -, hd, -⟩ := vOne_spec lib F p b consts product today ho ho0 hF g (value g) h
      exact ⟨d, fun _ => hd⟩
    · exact ⟨fun _ => 0, fun h => absurd h hg⟩
  choose d hd using hderiv
  obtain ⟨B, hB⟩ := vPaths_spec lib F p b consts product today ho ho0 hF value (fun i g => d g i) gs fun g hg i hi => hd g hg i hi
  set bs := base lib b consts (0 :: product) (datesFrom today product) with hbs
  refine ⟨fun i g => d g i, fun i => B i + ∑ k ∈ Finset.range bs.tape.nodes.length, |Dal.TapeRun.tans i bs.tape.nodes k|, fun g hg i hi => ?_, fun eps heps => ?_⟩
  · rw [smoothPath_from today p _ i b hspot product hne hp hpos g]
    exact hd g hg i hi
  obtain ⟨adj, a1, a2⟩ := hB eps heps 0 fun _ => 0
  have hlow := (hb 0 (by omega)).low
  have hlin : ∀ i, i < 4 + consts.length → Adj.Lin bs.tape.nodes (tans i bs.tape.nodes) i := fun i hi => lin_of_back (hb i hi).back (hb i hi).leaf
  have hdown := fun i hi => Adj.down_ok heps (hlin i hi) (bs.tape.nodes.length - 1) (bs.tape.nodes.length - 1) adj (by omega) le_rfl
  obtain ⟨adj', b1, -⟩ := hdown 0 (by omega)
  refine ⟨(List.range (4 + consts.length)).map fun j => adj' j / n, ?_, by simp, ?_⟩
  · unfold vSimulate
    rw [allocate_from today hne hpos]
    dsimp only
    rw [← hbs, show (today :: product.map fun _ => true).headD false = today from rfl, a1]
    dsimp only
    rw [Adj.propagate, if_neg (by omega), Nat.sub_zero, b1, zero_add]
  · intro i r hr
    have hi : i < 4 + consts.length := by have := (List.getElem?_eq_some_iff.1 hr).1; simpa using this
    rw [List.getElem?_map, List.getElem?_range hi] at hr
    have hr' : adj' i / n = r := Option.some.inj hr
    have hn' : (n : ℝ) ≠ 0 := Nat.cast_ne_zero.2 hn.ne'
    rw [← hr', div_mul_cancel₀ _ hn']
    obtain ⟨adj'', c1, c2⟩ := hdown i hi
    rw [b1] at c1
    cases c1
    have hpos := (hb i hi).pos
    rw [Nat.sub_self, Adj.total_one _ _ hpos (hlin i hi).one, show bs.tape.nodes.length - 1 + 1 = bs.tape.nodes.length by omega, Adj.weight_total_low _ _ le_rfl hpos,
      ← Finset.range_eq_Ico] at c2
    have c3 := a2 i hi
    simp only [zero_mul, Finset.sum_const_zero, zero_add] at c3
    rw [mul_add]
    rw [abs_le] at c2 c3 ⊢
    constructor <;> linarith [c2.1, c2.2, c3.1, c3.2]

/-- C105: with dates after today that rise strictly, if the payoff variable is only ever assigned numbers made on the path (`OwnSs`) and the script can be run on each path, the simulation with adjoints
ends well; the sum of its payoffs is that of the runs with doubles, and each risk, times the number of paths, is the sum over the paths of the derivatives that the runs forward with respect to that input
have, up to a multiple of the cutoff of small adjoints. The inputs are the spot, the volatility, the rate, the dividend yield, and the constant variables. -/
theorem C105_risks (lib : Adj.Lib) (F : Nat → Prop) (p : Scripted) (ho : ∀ e ∈ p.events, OwnSs True F e) (hF : F p.payoff) (b : BS ℝ) (consts product : List ℝ) (hne : product ≠ [])
    (hp : product.IsChain (· < ·)) (hpos : ∀ t ∈ product, 0 < t) (n : Nat) (hn : 0 < n) (gs : List (Nat → ℝ)) (value : (Nat → ℝ) → ℝ)
    (hv : ∀ g ∈ gs, fuzzyPath p (fun k => consts.getD k 0) b product g = some (value g)) :
    ∃ (deriv : Nat → (Nat → ℝ) → ℝ) (B : Nat → ℝ), (∀ g ∈ gs, ∀ i, i < 4 + consts.length → smoothPath p (constDual i consts) (bsDual i b) product g = some ⟨value g, deriv i g⟩) ∧
      ∀ eps, 0 ≤ eps → ∃ risks : List ℝ, vSimulate lib eps p b consts product n gs = some ((gs.map value).sum, risks) ∧ risks.length = 4 + consts.length ∧
        ∀ (i : Nat) (r : ℝ), risks[i]? = some r → |r * n - (gs.map (deriv i)).sum| ≤ eps * B i :=
  risks_from lib F p false ho (fun h => by cases h) hF b (fun h => by cases h) consts product hne hp hpos n hn gs value hv

/-- With no cutoff the risks are the means of the derivatives, for a product with or without today's date. -/
theorem exact_from (lib : Adj.Lib) (F : Nat → Prop) (p : Scripted) (today : Bool) (ho : ∀ e ∈ p.events, OwnSs True F e)
    (ho0 : today = true → ∀ e ∈ p.events.head?, OwnSs False F e) (hF : F p.payoff) (b : BS ℝ) (hspot : today = true → 0 < b.spot) (consts product : List ℝ) (hne : datesFrom today product ≠ [])
    (hp : product.IsChain (· < ·)) (hpos : ∀ t ∈ product, 0 < t) (n : Nat) (hn : 0 < n) (gs : List (Nat → ℝ)) (value : (Nat → ℝ) → ℝ) (deriv : Nat → (Nat → ℝ) → ℝ)
    (hd : ∀ g ∈ gs, ∀ i, i < 4 + consts.length → smoothPath p (constDual i consts) (bsDual i b) (datesFrom today product) g = some ⟨value g, deriv i g⟩) :
    vSimulate lib 0 p b consts (datesFrom today product) n gs = some ((gs.map value).sum, (List.range (4 + consts.length)).map fun i => (gs.map (deriv i)).sum / n) := by
  have hv : ∀ g ∈ gs, fuzzyPath p (fun k => consts.getD k 0) b (datesFrom today product) g = some (value g) := by
    intro g hg
    have h1 := hd g hg 0 (by omega)
    rw [smoothPath_from today p _ 0 b hspot product hne hp hpos] at h1
    rw [fuzzyPath_from today p _ b hspot product hne hp hpos, runFuzzy_v 0, h1]
    rfl
  obtain ⟨d, B, h1, h2⟩ := risks_from lib F p today ho ho0 hF b hspot consts product hne hp hpos n hn gs value hv
  obtain ⟨risks, h3, h4, h5⟩ := h2 0 le_rfl
  rw [h3]
  congr 2
  refine List.ext_getElem? fun i => ?_
  by_cases hi : i < 4 + consts.length
  · rw [List.getElem?_eq_getElem (by omega), List.getElem?_map, List.getElem?_range hi]
    have h6 := h5 i risks[i] (List.getElem?_eq_getElem (by omega))
    rw [zero_mul] at h6
    have h7 := sub_eq_zero.1 (abs_nonpos_iff.1 h6)
    have hn' : (n : ℝ) ≠ 0 := Nat.cast_ne_zero.2 hn.ne'
    have h8 : gs.map (deriv i) = gs.map (d i) := List.map_congr_left fun g hg => by
      have := (hd g hg i hi).symm.trans (h1 g hg i hi)
      simpa using this
    show some risks[i] = some ((gs.map (deriv i)).sum / n)
    rw [h8, ← h7, mul_div_cancel_right₀ _ hn']
  · rw [List.getElem?_eq_none (by omega), List.getElem?_eq_none (by simp; omega)]

/-- With no cutoff the risks are the means of the derivatives. -/
theorem C105_exact (lib : Adj.Lib) (F : Nat → Prop) (p : Scripted) (ho : ∀ e ∈ p.events, OwnSs True F e) (hF : F p.payoff) (b : BS ℝ) (consts product : List ℝ) (hne : product ≠ [])
    (hp : product.IsChain (· < ·)) (hpos : ∀ t ∈ product, 0 < t) (n : Nat) (hn : 0 < n) (gs : List (Nat → ℝ)) (value : (Nat → ℝ) → ℝ) (deriv : Nat → (Nat → ℝ) → ℝ)
    (hd : ∀ g ∈ gs, ∀ i, i < 4 + consts.length → smoothPath p (constDual i consts) (bsDual i b) product g = some ⟨value g, deriv i g⟩) :
    vSimulate lib 0 p b consts product n gs = some ((gs.map value).sum, (List.range (4 + consts.length)).map fun i => (gs.map (deriv i)).sum / n) :=
  exact_from lib F p false ho (fun h => by cases h) hF b (fun h => by cases h) consts product hne hp hpos n hn gs value deriv hd

/-- However the paths are dealt out to tasks, the sum and the risks are those of all paths together. -/
theorem C105_tasks (lib : Adj.Lib) (F : Nat → Prop) (p : Scripted) (ho : ∀ e ∈ p.events, OwnSs True F e) (hF : F p.payoff) (b : BS ℝ) (consts product : List ℝ) (hne : product ≠ [])
    (hp : product.IsChain (· < ·)) (hpos : ∀ t ∈ product, 0 < t) (n : Nat) (hn : 0 < n) (value : (Nat → ℝ) → ℝ) (deriv : Nat → (Nat → ℝ) → ℝ) (tasks : List (List (Nat → ℝ)))
    (hd : ∀ g ∈ tasks.flatten, ∀ i, i < 4 + consts.length → smoothPath p (constDual i consts) (bsDual i b) product g = some ⟨value g, deriv i g⟩) :
    vTasks lib 0 p b consts product n tasks = some ((tasks.flatten.map value).sum, (List.range (4 + consts.length)).map fun i => (tasks.flatten.map (deriv i)).sum / n) := by
  induction tasks with
  | nil =>
    rw [vTasks]
    congr 2
    refine List.ext_getElem? fun i => ?_
    rw [List.getElem?_map]
    by_cases hi : i < 4 + consts.length
    · rw [List.getElem?_range hi, List.getElem?_eq_getElem (by simpa using hi)]; simp
    · rw [List.getElem?_eq_none (by simp; omega), List.getElem?_eq_none (by simp; omega)]; rfl
  | cons gs rest ih =>
    have h1 := C105_exact lib F p ho hF b consts product hne hp hpos n hn gs value deriv fun g hg => hd g (by rw [List.flatten_cons]; exact List.mem_append_left _ hg)
    have h2 := ih fun g hg => hd g (by rw [List.flatten_cons]; exact List.mem_append_right _ hg)
    rw [vTasks, h1, h2]
    dsimp only
    rw [List.flatten_cons, List.map_append, List.sum_append]
    congr 2
    rw [List.zipWith_map_left, List.zipWith_map_right, List.zipWith_self]
    refine List.map_congr_left fun i _ => ?_
    rw [List.map_append, List.sum_append, add_div]

/-- The model with the input `i` moved. -/
noncomputable def movedTo (b : BS ℝ) (i : Nat) (t : ℝ) : BS ℝ := ⟨if i = 0 then t else b.spot, if i = 2 then t else b.rate, if i = 3 then t else b.div, if i = 1 then t else b.vol⟩

/-- The constant variables with the input `i` moved. -/
noncomputable def constTo (consts : List ℝ) (i : Nat) (t : ℝ) (k : Nat) : ℝ := if i = 4 + k then t else consts.getD k 0

/-- The value of the input `i`. -/
noncomputable def inputOf (b : BS ℝ) (consts : List ℝ) (i : Nat) : ℝ :=
  if i = 0 then b.spot else if i = 1 then b.vol else if i = 2 then b.rate else if i = 3 then b.div else consts.getD (i - 4) 0

/-- The samples of a path as functions of the input `i`. -/
noncomputable def movedSamples (b : BS ℝ) (product : List ℝ) (g : Nat → ℝ) (i : Nat) : List (ℝ → Script.Sample ℝ) :=
  (List.range product.length).map fun k t => ⟨Real.exp ((movedTo b i t).logAt (datesLine product) g (k + 1)), Real.exp ((movedTo b i t).rate * product.getD k 0)⟩

/-- The samples of a path as functions of the input `i`, with or without today's. -/
noncomputable def movedFrom : Bool → BS ℝ → List ℝ → (Nat → ℝ) → Nat → List (ℝ → Script.Sample ℝ)
  | false, b, rest, g, i => movedSamples b rest g i
  | true, b, rest, g, i => (fun t => ⟨(movedTo b i t).spot, Real.exp ((movedTo b i t).rate * 0)⟩) :: movedSamples b rest g i

private theorem pick_tracks {c : Prop} [Decidable c] (x u : ℝ) (h : c → u = x) : Tracks (fun t => if c then t else x) u ⟨x, if c then 1 else 0⟩ := by
  by_cases hc : c
  · simp only [if_pos hc]; rw [← h hc]; exact ⟨rfl, hasDerivAt_id _⟩
  · simp only [if_neg hc]; exact ⟨rfl, hasDerivAt_const _ _⟩

/-- The risks are derivatives, for a product with or without today's date: if on each path the smoothed script has no tie at an edge (`Smooth`, as in C101), near each input the runs with doubles are defined and have a derivative, and without the
cutoff the risks are the means over the paths of these derivatives. -/
theorem gradient_from (lib : Adj.Lib) (F : Nat → Prop) (p : Scripted) (today : Bool) (ho : ∀ e ∈ p.events, OwnSs True F e)
    (ho0 : today = true → ∀ e ∈ p.events.head?, OwnSs False F e) (hF : F p.payoff) (b : BS ℝ) (hb : b.spot ≠ 0) (hspot : today = true → 0 < b.spot) (consts product : List ℝ) (hne : datesFrom today product ≠ [])
    (hp : product.IsChain (· < ·)) (hpos : ∀ t ∈ product, 0 < t) (n : Nat) (hn : 0 < n) (gs : List (Nat → ℝ))
    (hs : ∀ g ∈ gs, ∀ i, i < 4 + consts.length → Smooth (constTo consts i) p.defEps p.eps (inputOf b consts i) (p.events.zip (movedFrom today b product g i))
      fun _ => ⟨fun k => p.vars.getD k 0, fun _ _ => 0, fun _ _ => 0⟩) :
    ∃ (f : Nat → (Nat → ℝ) → ℝ → ℝ) (value : (Nat → ℝ) → ℝ) (deriv : Nat → (Nat → ℝ) → ℝ),
      (∀ g ∈ gs, fuzzyPath p (fun k => consts.getD k 0) b (datesFrom today product) g = some (value g)) ∧
      (∀ g ∈ gs, ∀ i, i < 4 + consts.length → (∀ᶠ t in 𝓝 (inputOf b consts i), fuzzyPath p (constTo consts i t) (movedTo b i t) (datesFrom today product) g = some (f i g t)) ∧
        HasDerivAt (f i g) (deriv i g) (inputOf b consts i)) ∧
      vSimulate lib 0 p b consts (datesFrom today product) n gs = some ((gs.map value).sum, (List.range (4 + consts.length)).map fun i => (gs.map (deriv i)).sum / n) := by
  have key : ∀ g i, ∃ (f : ℝ → ℝ) (d : Dual), g ∈ gs → i < 4 + consts.length → (∀ᶠ t in 𝓝 (inputOf b consts i), fuzzyPath p (constTo consts i t) (movedTo b i t) (datesFrom today product) g = some (f t)) ∧
      smoothPath p (constDual i consts) (bsDual i b) (datesFrom today product) g = some d ∧ HasDerivAt f d.d (inputOf b consts i) := by
    intro g i
    by_cases hc : g ∈ gs ∧ i < 4 + consts.length
    swap
    · exact ⟨fun _ => 0, ⟨0, 0⟩, fun h1 h2 => absurd ⟨h1, h2⟩ hc⟩
    obtain ⟨hg, hi⟩ := hc
    set u := inputOf b consts i with hu
    have t1 : Tracks (fun t => (movedTo b i t).spot) u (bsDual i b).spot := pick_tracks _ _ fun h => by rw [hu, inputOf, if_pos h]
    have t2 : Tracks (fun t => (movedTo b i t).rate) u (bsDual i b).rate := pick_tracks _ _ fun h => by subst h; rfl
    have t3 : Tracks (fun t => (movedTo b i t).div) u (bsDual i b).div := pick_tracks _ _ fun h => by subst h; rfl
    have t4 : Tracks (fun t => (movedTo b i t).vol) u (bsDual i b).vol := pick_tracks _ _ fun h => by subst h; rfl
    have h0 : (movedTo b i u).spot ≠ 0 := fun h => hb (t1.1.trans h)
    have hgrad := fun (k : Nat) (T : ℝ) => C77_bs_gradient (fun t => (movedTo b i t).spot) (fun t => (movedTo b i t).rate) (fun t => (movedTo b i t).div) (fun t => (movedTo b i t).vol) u (bsDual i b)
      t1 t2 t3 t4 h0 (datesLine product) g k T
    have hlen : (movedFrom today b product g i).length = (samplesFrom today (bsDual i b) product g).length := by cases today <;> simp [movedFrom, samplesFrom, movedSamples, samples]
    have hzip : ((p.events.zip ((movedFrom today b product g i).zip (samplesFrom today (bsDual i b) product g))).map fun ev => (ev.1, ev.2.1)) = p.events.zip (movedFrom today b product g i) := by
      rw [show (fun ev : Script.Stmts Nat ℝ × (ℝ → Script.Sample ℝ) × Script.Sample Dual => (ev.1, ev.2.1)) = Prod.map id Prod.fst from rfl, ← List.zip_map_right, List.map_fst_zip hlen.le]
    have hzip2 : ((p.events.zip ((movedFrom today b product g i).zip (samplesFrom today (bsDual i b) product g))).map fun ev => (ev.1, ev.2.2)) =
        p.events.zip (samplesFrom today (bsDual i b) product g) := by
      rw [show (fun ev : Script.Stmts Nat ℝ × (ℝ → Script.Sample ℝ) × Script.Sample Dual => (ev.1, ev.2.2)) = Prod.map id Prod.snd from rfl, ← List.zip_map_right, List.map_snd_zip hlen.ge]
    have hmoved : ∀ t, (movedFrom today b product g i).map (fun q => q t) = samplesFrom today (movedTo b i t) product g := by
      intro t
      have h : (movedSamples b product g i).map (fun q => q t) = samples (movedTo b i t) product g := by
        rw [movedSamples, samples, List.map_map]; rfl
      cases today
      · exact h
      · exact congrArg (List.cons _) h
    have hzip3 : ∀ t, ((p.events.zip ((movedFrom today b product g i).zip (samplesFrom today (bsDual i b) product g))).map fun ev => (ev.1, ev.2.1 t)) =
        p.events.zip (samplesFrom today (movedTo b i t) product g) := by
      intro t
      rw [show (fun ev : Script.Stmts Nat ℝ × (ℝ → Script.Sample ℝ) × Script.Sample Dual => (ev.1, ev.2.1 t)) = Prod.map id ((fun q => q t) ∘ Prod.fst) from rfl, ← List.zip_map_right,
        ← List.map_map, List.map_fst_zip hlen.le, hmoved]
    have htrack : ∀ q ∈ (movedSamples b product g i).zip (samples (bsDual i b) product g), Tracks (fun t => (q.1 t).spot) u q.2.spot ∧ Tracks (fun t => (q.1 t).numeraire) u q.2.numeraire := by
      intro q hq
      obtain ⟨k, hk, hke⟩ := List.mem_iff_getElem.1 hq
      rw [List.getElem_zip] at hke
      rw [← hke]
      have hk1 : k < (movedSamples b product g i).length := by rw [List.length_zip] at hk; omega
      have hk2 : k < (samples (bsDual i b) product g).length := by rw [List.length_zip] at hk; omega
      have e1 : (movedSamples b product g i)[k] =
          fun t => ⟨Real.exp ((movedTo b i t).logAt (datesLine product) g (k + 1)), Real.exp ((movedTo b i t).rate * product.getD k 0)⟩ := by
        simp only [movedSamples, List.getElem_map, List.getElem_range]
      have e2 : (samples (bsDual i b) product g)[k] = ⟨Num.exp ((bsDual i b).logAt (datesLine product) g (k + 1)), (bsDual i b).numeraire (product.getD k 0)⟩ := by
        simp only [samples, List.getElem_map, List.getElem_range]; rfl
      show Tracks (fun t => ((movedSamples b product g i)[k] t).spot) u (samples (bsDual i b) product g)[k].spot ∧ Tracks (fun t => ((movedSamples b product g i)[k] t).numeraire) u
        (samples (bsDual i b) product g)[k].numeraire
      rw [e1, e2]
      exact ⟨(hgrad (k + 1) 0).1, (hgrad 0 (product.getD k 0)).2⟩
    have htrack' : ∀ q ∈ (movedFrom today b product g i).zip (samplesFrom today (bsDual i b) product g), Tracks (fun t => (q.1 t).spot) u q.2.spot ∧ Tracks (fun t => (q.1 t).numeraire) u q.2.numeraire := by
      cases today
      · exact htrack
      · intro q hq
        rcases List.mem_cons.1 hq with rfl | hq
        · exact ⟨t1, (hgrad 0 0).2⟩
        · exact htrack q hq
    have hnear : ∀ᶠ t in 𝓝 u, today = true → 0 < (movedTo b i t).spot := by
      cases htd : today
      · exact Filter.Eventually.of_forall fun _ h => by cases h
      · have h1 : 0 < (movedTo b i u).spot := by rw [show (movedTo b i u).spot = b.spot from t1.1.symm]; exact hspot htd
        filter_upwards [t1.2.continuousAt.eventually (lt_mem_nhds h1)] with t ht _ using ht
    obtain ⟨f, d, f1, f2, f3⟩ := C101_gradient u (constTo consts i) (constDual i consts)
      (fun k => pick_tracks _ _ fun h => by subst h; rw [hu, inputOf, if_neg (by omega), if_neg (by omega), if_neg (by omega), if_neg (by omega), Nat.add_sub_cancel_left])
      p.defEps p.eps (p.events.zip ((movedFrom today b product g i).zip (samplesFrom today (bsDual i b) product g)))
      (fun ev hev => htrack' ev.2 (List.of_mem_zip (a := ev.1) (b := ev.2) hev).2)
      (fun _ => ⟨fun k => p.vars.getD k 0, fun _ _ => 0, fun _ _ => 0⟩) ⟨fun k => Num.lit (p.vars.getD k 0), fun _ _ => Num.lit 0, fun _ _ => Num.lit 0⟩
      (fun _ => ⟨rfl, hasDerivAt_const _ _⟩) (fun _ _ => ⟨rfl, hasDerivAt_const _ _⟩) (fun _ _ => ⟨rfl, hasDerivAt_const _ _⟩) (by rw [hzip]; exact hs g hg i hi)
    refine ⟨fun t => (f t).σ p.payoff, d.σ p.payoff, fun _ _ => ⟨?_, ?_, (f3 p.payoff).2⟩⟩
    · filter_upwards [f1, hnear] with t ht hpt
      rw [hzip3] at ht
      rw [fuzzyPath_from today p _ _ hpt product hne hp hpos, runFuzzy, ht]
      rfl
    · rw [hzip2] at f2
      rw [smoothPath_from today p _ i b hspot product hne hp hpos, runSmooth]
      rw [show Script.smoothEvents (constDual i consts) p.defEps p.eps (p.events.zip (samplesFrom today (bsDual i b) product g))
        ⟨fun k => Script.lift (p.vars.getD k 0), fun _ _ => Script.lift 0, fun _ _ => Script.lift 0⟩ = some d from f2]
      rfl
  choose f d hk using key
  have hval : ∀ g ∈ gs, ∀ i, i < 4 + consts.length → fuzzyPath p (fun k => consts.getD k 0) b (datesFrom today product) g = some (d g i).v := by
    intro g hg i hi
    have := (hk g i hg hi).2.1
    rw [smoothPath_from today p _ i b hspot product hne hp hpos] at this
    rw [fuzzyPath_from today p _ b hspot product hne hp hpos, runFuzzy_v i, this]
    rfl
  refine ⟨fun i g => f g i, fun g => (d g 0).v, fun i g => (d g i).d, fun g hg => hval g hg 0 (by omega), fun g hg i hi => ⟨(hk g i hg hi).1, (hk g i hg hi).2.2⟩, ?_⟩
  refine exact_from lib F p today ho ho0 hF b hspot consts product hne hp hpos n hn gs _ _ fun g hg i hi => ?_
  rw [(hk g i hg hi).2.1]
  have h1 := (hval g hg i hi).symm.trans (hval g hg 0 (by omega))
  congr 1
  exact Dual.ext (Option.some.inj h1) rfl

/-- C105, the risks are derivatives: if on each path the smoothed script has no tie at an edge (`Smooth`, as in C101), near each input the runs with doubles are defined and have a derivative, and without the
cutoff the risks are the means over the paths of these derivatives. -/
theorem C105_gradient (lib : Adj.Lib) (F : Nat → Prop) (p : Scripted) (ho : ∀ e ∈ p.events, OwnSs True F e) (hF : F p.payoff) (b : BS ℝ) (hb : b.spot ≠ 0) (consts product : List ℝ) (hne : product ≠ [])
    (hp : product.IsChain (· < ·)) (hpos : ∀ t ∈ product, 0 < t) (n : Nat) (hn : 0 < n) (gs : List (Nat → ℝ))
    (hs : ∀ g ∈ gs, ∀ i, i < 4 + consts.length → Smooth (constTo consts i) p.defEps p.eps (inputOf b consts i) (p.events.zip (movedSamples b product g i))
      fun _ => ⟨fun k => p.vars.getD k 0, fun _ _ => 0, fun _ _ => 0⟩) :
    ∃ (f : Nat → (Nat → ℝ) → ℝ → ℝ) (value : (Nat → ℝ) → ℝ) (deriv : Nat → (Nat → ℝ) → ℝ),
      (∀ g ∈ gs, fuzzyPath p (fun k => consts.getD k 0) b product g = some (value g)) ∧
      (∀ g ∈ gs, ∀ i, i < 4 + consts.length → (∀ᶠ t in 𝓝 (inputOf b consts i), fuzzyPath p (constTo consts i t) (movedTo b i t) product g = some (f i g t)) ∧
        HasDerivAt (f i g) (deriv i g) (inputOf b consts i)) ∧
      vSimulate lib 0 p b consts product n gs = some ((gs.map value).sum, (List.range (4 + consts.length)).map fun i => (gs.map (deriv i)).sum / n) :=
  gradient_from lib F p false ho (fun h => by cases h) hF b hb (fun h => by cases h) consts product hne hp hpos n hn gs hs

/-! ### Options -/

/-- A product that pays a call or a put at each of its dates. -/
def optionScripted (put : Bool) (K defEps eps : ℝ) (product : List ℝ) : Scripted := ⟨List.replicate product.length (optionTree put 0 0 K), [0], 0, defEps, eps⟩

/-- The derivative of what the options pay on a path with respect to an input; the strike is the input 4. -/
noncomputable def optionSensK (put : Bool) (K : ℝ) (b : BS ℝ) (product : List ℝ) (i : Nat) (g : Nat → ℝ) : ℝ :=
  ∑ k : Fin product.length, (dualPay put ⟨K, if i = 4 then 1 else 0⟩ ((bsDual i b).numeraire product[k]) (Num.exp ((bsDual i b).logAt (datesLine product) g (k + 1)))).d

private theorem option_step (put : Bool) (K defEps eps : ℝ) (cv : Nat → Dual) (sp : Script.Sample Dual) (s : Script.FSt Dual) :
    Script.smoothSs cv sp defEps eps (optionTree put 0 0 K) 0 s = some ⟨Script.upd s.σ 0 (dualOps.add (s.σ 0) (dualPay put (cv 0) sp.numeraire sp.spot)), s.s0, s.s1⟩ := by
  cases put <;> rfl

private theorem option_sum (put : Bool) (K defEps eps : ℝ) (cv : Nat → Dual) (sps : List (Script.Sample Dual)) (s : Script.FSt Dual) :
    ∃ r, Script.smoothEvents cv defEps eps ((List.replicate sps.length (optionTree put 0 0 K)).zip sps) s = some r ∧
      (r.σ 0).v = (s.σ 0).v + (sps.map fun sp => (dualPay put (cv 0) sp.numeraire sp.spot).v).sum ∧ (r.σ 0).d = (s.σ 0).d + (sps.map fun sp => (dualPay put (cv 0) sp.numeraire sp.spot).d).sum := by
  induction sps generalizing s with
  | nil => exact ⟨s, rfl, by simp, by simp⟩
  | cons sp sps ih =>
    obtain ⟨r, h1, h2, h3⟩ := ih ⟨Script.upd s.σ 0 (dualOps.add (s.σ 0) (dualPay put (cv 0) sp.numeraire sp.spot)), s.s0, s.s1⟩
    refine ⟨r, ?_, ?_, ?_⟩
    · rw [List.length_cons, List.replicate_succ, List.zip_cons_cons, Script.smoothEvents]
      dsimp only
      rw [option_step]
      exact h1
    · rw [h2, List.map_cons, List.sum_cons, ← add_assoc]; rfl
    · rw [h3, List.map_cons, List.sum_cons, ← add_assoc]; rfl

theorem option_smooth (put : Bool) (K defEps eps : ℝ) (b : BS ℝ) (product : List ℝ) (hne : product ≠ []) (hp : product.IsChain (· < ·)) (hpos : ∀ t ∈ product, 0 < t) (i : Nat) (g : Nat → ℝ) :
    smoothPath (optionScripted put K defEps eps product) (constDual i [K]) (bsDual i b) product g = some ⟨optionValue put K b product g, optionSensK put K b product i g⟩ := by
  rw [smoothPath_eq _ _ _ _ hne hp hpos, runSmooth]
  obtain ⟨r, h1, h2, h3⟩ := option_sum put K defEps eps (constDual i [K]) (samples (bsDual i b) product g) ⟨fun k => Script.lift ((optionScripted put K defEps eps product).vars.getD k 0), fun _ _ => Script.lift 0, fun _ _ => Script.lift 0⟩
  rw [show (samples (bsDual i b) product g).length = product.length by simp [samples]] at h1
  rw [show Script.smoothEvents (constDual i [K]) (optionScripted put K defEps eps product).defEps (optionScripted put K defEps eps product).eps
    ((optionScripted put K defEps eps product).events.zip (samples (bsDual i b) product g)) _ = some r from h1]
  show some (r.σ 0) = _
  congr 1
  refine Dual.ext ?_ ?_
  · rw [h2, samples, List.map_map]
    refine (zero_add _).trans ?_
    rw [optionValue, ← range_sum product fun k t => optionPayoff put K (Real.exp (b.logAt (datesLine product) g (k + 1))) / Real.exp (b.rate * t)]
    congr 1
    refine List.map_congr_left fun k _ => ?_
    have h := (dual_log (bsDual i b) (datesLine product) g (k + 1)).1
    rw [bsDual_values] at h
    show (dualPay put (constDual i [K] 0) ((bsDual i b).numeraire (product.getD k 0)) (Num.exp ((bsDual i b).logAt (datesLine product) g (k + 1)))).v = _
    rw [← h]
    generalize (bsDual i b).logAt (datesLine product) g (k + 1) = X
    cases put with
    | false =>
      show (if decide (Real.exp X.v - K < 0) = true then (⟨0, 0⟩ : Dual) else ⟨Real.exp X.v - K, _⟩ : Dual).v / _ = _
      rw [optionPayoff, if_neg Bool.false_ne_true]
      by_cases hlt : Real.exp X.v - K < 0
      · rw [if_pos (decide_eq_true hlt), max_eq_left hlt.le]; rfl
      · rw [if_neg (by simpa using hlt), max_eq_right (not_lt.1 hlt)]; rfl
    | true =>
      show (if decide (K - Real.exp X.v < 0) = true then (⟨0, 0⟩ : Dual) else ⟨K - Real.exp X.v, _⟩ : Dual).v / _ = _
      rw [optionPayoff, if_pos (rfl : true = true)]
      by_cases hlt : K - Real.exp X.v < 0
      · rw [if_pos (decide_eq_true hlt), max_eq_left hlt.le]; rfl
      · rw [if_neg (by simpa using hlt), max_eq_right (not_lt.1 hlt)]; rfl
  · rw [h3, samples, List.map_map]
    refine (zero_add _).trans ?_
    rw [optionSensK, ← range_sum product fun k t => (dualPay put ⟨K, if i = 4 then 1 else 0⟩ ((bsDual i b).numeraire t) (Num.exp ((bsDual i b).logAt (datesLine product) g (k + 1)))).d]
    rfl

theorem option_own (put : Bool) (K defEps eps : ℝ) (product : List ℝ) : ∀ e ∈ (optionScripted put K defEps eps product).events, OwnSs True (fun k => k = 0) e := by
  intro e he
  rw [List.eq_of_mem_replicate he]
  exact ⟨trivial, trivial⟩

/-- C105 for options: a simulation, not compiled, of a product that pays a call or a put at each of its dates gives the sum of the discounted payoffs, and as risks the means over the paths of the
derivatives of the discounted payoffs with respect to the spot, the volatility, the rate, the dividend yield and the strike. -/
theorem C105_option (lib : Adj.Lib) (put : Bool) (K defEps eps : ℝ) (b : BS ℝ) (product : List ℝ) (hne : product ≠ []) (hp : product.IsChain (· < ·)) (hpos : ∀ t ∈ product, 0 < t) (n : Nat) (hn : 0 < n)
    (gs : List (Nat → ℝ)) :
    vSimulate lib 0 (optionScripted put K defEps eps product) b [K] product n gs =
      some ((gs.map (optionValue put K b product)).sum, (List.range 5).map fun i => (gs.map (optionSensK put K b product i)).sum / n) :=
  C105_exact lib (fun k => k = 0) _ (option_own put K defEps eps product) rfl b [K] product hne hp hpos n hn gs (optionValue put K b product) (optionSensK put K b product)
    fun g _ i _ => option_smooth put K defEps eps b product hne hp hpos i g

/-- C105, what the risks of options estimate: the mean over the Gaussian numbers of the derivative on a path with respect to any input, the strike too, is the derivative of the sum of the discounted
Black prices with respect to it. -/
theorem C105_option_mean (put : Bool) (K : ℝ) (b : BS ℝ) (product : List ℝ) (hp : product.IsChain (· < ·)) (hpos : ∀ t ∈ product, 0 < t) (s0 : 0 < b.spot) (k0 : 0 < K)
    (v0 : ∀ t ∈ product, epsilon < b.vol * Real.sqrt t) (e0 : ∀ t ∈ product, epsilon < b.spot * Real.exp ((b.rate - b.div) * t) * K) (i : Nat) (hi : i < 5) :
    ∃ prices : ℝ → Fin product.length → ℝ,
      (∀ᶠ t in 𝓝 (inputOf b [K] i), ∀ k, blackOpt ((movedTo b i t).spot * Real.exp (((movedTo b i t).rate - (movedTo b i t).div) * product[k])) ((movedTo b i t).vol * Real.sqrt product[k])
        (constTo [K] i t 0) (if put then .put else .call) = some (prices t k)) ∧
      HasDerivAt (fun t => ∑ k : Fin product.length, Real.exp (-(movedTo b i t).rate * product[k]) * prices t k) (gaussMean product.length (optionSensK put K b product i)) (inputOf b [K] i) := by
  have hpw : (0 :: product).Pairwise (· < ·) := List.pairwise_cons.2 ⟨hpos, List.isChain_iff_pairwise.1 hp⟩
  have hk : ∀ k : Fin product.length, datesLine product (k + 1) = product[k] := by
    intro k
    show (0 :: product).getD (k.1 + 1) 0 = _
    rw [List.getD_eq_getElem?_getD, List.getElem?_cons_succ, List.getElem?_eq_getElem k.2]; rfl
  have hmono : ∀ k : Fin product.length, ∀ j, j < k.1 + 1 → datesLine product j ≤ datesLine product (j + 1) := by
    intro k j hj
    have := k.2
    rw [datesLine, datesLine, List.getD_eq_getElem?_getD, List.getD_eq_getElem?_getD, List.getElem?_eq_getElem (by simp; omega), List.getElem?_eq_getElem (by simp; omega)]
    exact (List.pairwise_iff_getElem.1 hpw j (j + 1) (by simp; omega) (by simp; omega) (by omega)).le
  have t1 : Tracks (fun t => (movedTo b i t).spot) (inputOf b [K] i) (bsDual i b).spot := pick_tracks _ _ fun h => by subst h; rfl
  have t2 : Tracks (fun t => (movedTo b i t).rate) (inputOf b [K] i) (bsDual i b).rate := pick_tracks _ _ fun h => by subst h; rfl
  have t3 : Tracks (fun t => (movedTo b i t).div) (inputOf b [K] i) (bsDual i b).div := pick_tracks _ _ fun h => by subst h; rfl
  have t4 : Tracks (fun t => (movedTo b i t).vol) (inputOf b [K] i) (bsDual i b).vol := pick_tracks _ _ fun h => by subst h; rfl
  have t5 : Tracks (fun t => constTo [K] i t 0) (inputOf b [K] i) ⟨K, if i = 4 then 1 else 0⟩ := pick_tracks (c := i = 4) K _ fun h => by subst h; rfl
  have w1 : b.spot = (movedTo b i (inputOf b [K] i)).spot := t1.1
  have w2 : b.rate = (movedTo b i (inputOf b [K] i)).rate := t2.1
  have w3 : b.div = (movedTo b i (inputOf b [K] i)).div := t3.1
  have w4 : b.vol = (movedTo b i (inputOf b [K] i)).vol := t4.1
  have w5 : K = constTo [K] i (inputOf b [K] i) 0 := t5.1
  have hdate := fun k : Fin product.length => C100_date put (fun t => (movedTo b i t).spot) (fun t => (movedTo b i t).rate) (fun t => (movedTo b i t).div) (fun t => (movedTo b i t).vol)
    (fun t => constTo [K] i t 0) (inputOf b [K] i) (bsDual i b) ⟨K, if i = 4 then 1 else 0⟩ t1 t2 t3 t4 t5 (datesLine product) product.length (k + 1) (by have := k.2; omega) (hmono k) rfl
    (by rw [hk]; exact hpos _ (List.getElem_mem _)) (by rw [← w1]; exact s0) (by rw [← w5]; exact k0)
    (by rw [hk, ← w4]; exact v0 _ (List.getElem_mem (l := product) k.2)) (by rw [hk, ← w1, ← w2, ← w3, ← w5]; exact e0 _ (List.getElem_mem (l := product) k.2))
  simp only [hk] at hdate
  choose prices x1 x2 x3 using hdate
  refine ⟨fun t k => prices k t, eventually_all.2 x1, ?_⟩
  unfold optionSensK
  rw [gaussMean, integral_finsetSum]
  · exact HasDerivAt.fun_sum fun k _ => x2 k
  · exact fun k _ => x3 k

/-- C105, compiled or not: on the same paths the two simulations of options give the same payoffs and the same risks of the model's parameters; only the risk of the strike differs. -/
theorem C105_option_compiled (lib : Adj.Lib) (put : Bool) (K defEps eps : ℝ) (b : BS ℝ) (product : List ℝ) (hne : product ≠ []) (hp : product.IsChain (· < ·)) (hpos : ∀ t ∈ product, 0 < t) (f n : Nat)
    (hn : 0 < n) (gs : List (Nat → ℝ)) :
    ∃ sum risks strike, vSimulate lib 0 (optionScripted put K defEps eps product) b [K] product n gs = some (sum, risks ++ [strike]) ∧
      tSimulate lib 0 (f + 5) (optionProduct put K product) b [K] product n gs = some (sum, risks ++ [0]) := by
  refine ⟨(gs.map (optionValue put K b product)).sum, (List.range 4).map fun i => (gs.map (optionSensK put K b product i)).sum / n, (gs.map (optionSensK put K b product 4)).sum / n, ?_, ?_⟩
  · rw [C105_option lib put K defEps eps b product hne hp hpos n hn gs, List.range_succ (n := 4), List.map_append]; rfl
  · rw [C104_option lib put K b product hne hp hpos f n hn gs, List.range_succ (n := 4), List.map_append]
    have h4 : optionSens put K b product 4 = fun _ => 0 := by
      funext g
      refine Finset.sum_eq_zero fun k _ => ?_
      have h1 : ((bsDual 4 b).logAt (datesLine product) g (k + 1)).d = 0 := by
        rw [(dual_log (bsDual 4 b) (datesLine product) g (k + 1)).2]; simp [bsDual]
      generalize hX : (bsDual 4 b).logAt (datesLine product) g (k + 1) = X at h1
      have h2 : ((bsDual 4 b).numeraire product[k]).d = 0 := by
        have h3 : ((bsDual 4 b).rate * Num.lit product[k]).d = 0 := by
          show 0 * product[k] + b.rate * 0 = 0
          simp
        show ((bsDual 4 b).rate * Num.lit product[k]).d * _ = 0
        rw [h3, zero_mul]
      generalize (bsDual 4 b).numeraire product[k] = N at h2
      have h3 : (Num.exp X).d = 0 := by show X.d * Real.exp X.v = 0; rw [h1, zero_mul]
      generalize Num.exp X = Y at h3
      have key : ∀ z : Dual, z.d = 0 → (dualOps.div (Script.evalBin dualOps .max z ⟨0, 0⟩) N).d = 0 := by
        intro z hz
        have hm : (Script.evalBin dualOps .max z ⟨0, 0⟩).d = 0 := by
          show (if dualOps.lt z ⟨0, 0⟩ then (⟨0, 0⟩ : Dual) else z).d = 0
          split_ifs
          · rfl
          · exact hz
        generalize Script.evalBin dualOps .max z ⟨0, 0⟩ = m at hm
        show 1 / N.v * m.d + -m.v / N.v / N.v * N.d = 0
        rw [hm, h2]; simp
      cases put with
      | false => exact key _ (show Y.d + -1 * 0 = 0 by rw [h3]; ring)
      | true => exact key _ (show 0 + -1 * Y.d = 0 by rw [h3]; ring)
    have h5 : ((List.range 4).map fun i => (gs.map (optionSens put K b product i)).sum / n) = (List.range 4).map fun i => (gs.map (optionSensK put K b product i)).sum / (n : ℝ) := by
      refine List.map_congr_left fun i hi => ?_
      have hi4 : i ≠ 4 := by have := List.mem_range.1 hi; omega
      rw [show optionSens put K b product i = optionSensK put K b product i by funext g; rw [optionSensK, optionSens, if_neg hi4]]
    rw [h5, List.map_cons, List.map_nil, h4]
    simp

/-! ### Copies of constant variables -/

/-- A script that copies a constant variable to its payoff. -/
def copyScripted (defEps eps : ℝ) : Scripted := ⟨[.cons (.assign ⟨0, false⟩ (.constVar 0 100)) .nil], [0], 0, defEps, eps⟩

/-- C105, the demand on the payoff is needed: a script that assigns a constant variable to the payoff can be run on any path, but its simulation with adjoints is undefined: the payoff is a number from before
the mark, and the propagation starts there and goes on past the mark. -/
theorem C105_copy_violated (lib : Adj.Lib) (eps defEps e : ℝ) (b : BS ℝ) (K T : ℝ) (hT : 0 < T) (n : Nat) (g : Nat → ℝ) :
    fuzzyPath (copyScripted defEps e) (fun k => [K].getD k 0) b [T] g = some K ∧ vSimulate lib eps (copyScripted defEps e) b [K] [T] n [g] = none := by
  refine ⟨?_, ?_⟩
  · rw [fuzzyPath_eq _ _ _ _ (by simp) (by simp) (by simpa using hT)]
    rfl
  · unfold vSimulate
    rw [allocate_after (by simp) (by simpa using hT)]
    dsimp only
    rw [show (false :: [T].map fun _ => true).headD false = false from rfl, vPaths]
    have hm : 4 < (base lib b [K] (0 :: [T]) [T]).tape.nodes.length := (base_spec lib 4 b [K] (0 :: [T]) [T] (by simp)).pos
    have h : vOne lib eps [K].length (copyScripted defEps e) (base lib b [K] (0 :: [T]) [T]) false g (fun _ => 0) = none := by
      have he : ∃ t, ∃ σ : Nat → Nat, vEvaluate lib defEps e [K].length [0] ((copyScripted defEps e).events.zip (tScenario lib (base lib b [K] (0 :: [T]) [T]) false g).2)
          (tScenario lib (base lib b [K] (0 :: [T]) [T]) false g).1 = some (t, σ) ∧ σ 0 = 4 := ⟨_, _, rfl, rfl⟩
      obtain ⟨t, σ, he, h0⟩ := he
      unfold vOne
      dsimp only
      rw [show vEvaluate lib (copyScripted defEps e).defEps (copyScripted defEps e).eps [K].length (copyScripted defEps e).vars
        ((copyScripted defEps e).events.zip (tScenario lib (base lib b [K] (0 :: [T]) [T]) false g).2) (tScenario lib (base lib b [K] (0 :: [T]) [T]) false g).1 = some (t, σ) from he]
      dsimp only
      rw [show σ (copyScripted defEps e).payoff = 4 from h0, Adj.propagateFrom, Adj.propagate, if_pos hm]
    rw [h]

/-! ### Examples -/

private noncomputable def demoBS : BS ℝ := ⟨100, 0.03, 0.01, 0.2⟩

private theorem demo_after : ∀ t ∈ ([1, 2] : List ℝ), 0 < t := by simp

private theorem demo_far : ∀ t ∈ ([1, 2] : List ℝ), 1 ≤ t := by simp

private theorem demo_fuzzy (g : Nat → ℝ) : fuzzyPath (optionScripted false 110 1 0.01 [1, 2]) (fun k => [110].getD k 0) demoBS [1, 2] g = some (optionValue false 110 demoBS [1, 2] g) := by
  have h1 := option_smooth false 110 1 0.01 demoBS [1, 2] (by simp) (by simp) demo_after 0 g
  rw [smoothPath_eq _ _ _ _ (by simp) (by simp) demo_after] at h1
  rw [fuzzyPath_eq _ _ _ _ (by simp) (by simp) demo_after, runFuzzy_after 0, h1]
  rfl

/-- Two paths of calls in one year and in two, with the cutoff of the code: the five risks. -/
example (lib : Adj.Lib) (g g' : Nat → ℝ) :
    ∃ sum risks, vSimulate lib (2 / 10 ^ 14) (optionScripted false 110 1 0.01 [1, 2]) demoBS [110] [1, 2] 2 [g, g'] = some (sum, risks) ∧ risks.length = 5 := by
  obtain ⟨_, _, _, h⟩ := C105_risks lib _ _ (option_own false 110 1 0.01 [1, 2]) rfl demoBS [110] [1, 2] (by simp) (by simp) demo_after 2 (by decide) [g, g'] _ fun g _ => demo_fuzzy g
  obtain ⟨risks, h1, h2, _⟩ := h (2 / 10 ^ 14) (by norm_num)
  exact ⟨_, risks, h1, h2⟩

/-- Three paths in two tasks. -/
example (lib : Adj.Lib) (g g' g'' : Nat → ℝ) : vTasks lib 0 (optionScripted true 110 1 0.01 [1, 2]) demoBS [110] [1, 2] 3 [[g], [g', g'']] =
    vSimulate lib 0 (optionScripted true 110 1 0.01 [1, 2]) demoBS [110] [1, 2] 3 [g, g', g''] := by
  rw [C105_tasks lib _ _ (option_own true 110 1 0.01 [1, 2]) rfl demoBS [110] [1, 2] (by simp) (by simp) demo_after 3 (by decide) _ _ [[g], [g', g'']]
      fun g _ i _ => option_smooth true 110 1 0.01 demoBS [1, 2] (by simp) (by simp) demo_after i g,
    C105_exact lib _ _ (option_own true 110 1 0.01 [1, 2]) rfl demoBS [110] [1, 2] (by simp) (by simp) demo_after 3 (by decide) [g, g', g''] _ _
      fun g _ i _ => option_smooth true 110 1 0.01 demoBS [1, 2] (by simp) (by simp) demo_after i g]
  rfl

/-- `x = spot() * K`: the risk of `K` is the mean of the spot. -/
example (lib : Adj.Lib) (g : Nat → ℝ) : ∃ sum risks r, vSimulate lib 0 ⟨[.cons (.assign ⟨0, false⟩ (.bin .mul .spot (.constVar 0 3) none)) .nil], [0], 0, 1, 0.01⟩ demoBS [3] [1] 1 [g] = some (sum, risks) ∧
    risks[4]? = some r ∧ r = Real.exp (demoBS.logAt (datesLine [1]) g 1) := by
  obtain ⟨f, value, deriv, h1, h2, h3⟩ := C105_gradient lib (fun _ => True) ⟨[.cons (.assign ⟨0, false⟩ (.bin .mul .spot (.constVar 0 3) none)) .nil], [0], 0, 1, 0.01⟩
    (by intro e he; rw [List.mem_singleton.1 he]; exact ⟨fun _ => trivial, trivial⟩) trivial demoBS (show (100 : ℝ) ≠ 0 by norm_num) [3] [1] (by simp) (by simp) (by simp) 1 (by decide) [g]
    (fun g _ i _ => ⟨⟨⟨trivial, trivial, trivial⟩, trivial⟩, trivial⟩)
  refine ⟨_, _, _, h3, rfl, ?_⟩
  obtain ⟨h4, h5⟩ := h2 g List.mem_cons_self 4 (by simp)
  have h6 : ∀ t, fuzzyPath ⟨[.cons (.assign ⟨0, false⟩ (.bin .mul .spot (.constVar 0 3) none)) .nil], [0], 0, 1, 0.01⟩ (constTo [3] 4 t) (movedTo demoBS 4 t) [1] g =
      some (Real.exp (demoBS.logAt (datesLine [1]) g 1) * t) := by
    intro t
    rw [fuzzyPath_eq _ _ _ _ (by simp) (by simp) (by simp)]
    rfl
  have h7 : HasDerivAt (f 4 g) (Real.exp (demoBS.logAt (datesLine [1]) g 1)) (inputOf demoBS [3] 4) := by
    refine (((hasDerivAt_id _).const_mul (Real.exp (demoBS.logAt (datesLine [1]) g 1))).congr_of_eventuallyEq ?_).congr_deriv (mul_one _)
    filter_upwards [h4] with t ht
    rw [h6 t] at ht
    exact (Option.some.inj ht).symm
  simpa using h5.unique h7

example (lib : Adj.Lib) (g : Nat → ℝ) : vSimulate lib 0 (optionScripted true 110 1 0.01 [1, 2]) demoBS [110] [1, 2] 1 [g] =
    some (optionValue true 110 demoBS [1, 2] g, (List.range 5).map fun i => optionSensK true 110 demoBS [1, 2] i g) := by
  simpa using C105_option lib true 110 1 0.01 demoBS [1, 2] (by simp) (by simp) demo_after 1 (by decide) [g]

/-- The risk of the strike of calls. -/
example : ∃ prices : ℝ → Fin 2 → ℝ, HasDerivAt (fun t => ∑ k : Fin 2, Real.exp (-0.03 * ([1, 2] : List ℝ)[k]) * prices t k) (gaussMean 2 (optionSensK false 110 demoBS [1, 2] 4)) 110 := by
  obtain ⟨prices, _, h⟩ := C105_option_mean false 110 demoBS [1, 2] (by simp) demo_after (show (0 : ℝ) < 100 by norm_num) (by norm_num)
    (by
      intro t ht
      have h2 : (1 : ℝ) ≤ Real.sqrt t := by rw [Real.le_sqrt (by norm_num) (by linarith [demo_far t ht])]; linarith [demo_far t ht]
      exact lt_of_lt_of_le (show epsilon < 0.2 * 1 by norm_num [epsilon]) (mul_le_mul_of_nonneg_left h2 (by norm_num [demoBS])))
    (by
      intro t ht
      have h1 := Real.one_le_exp (show (0 : ℝ) ≤ (0.03 - 0.01) * t by nlinarith [demo_far t ht])
      show epsilon < 100 * Real.exp ((0.03 - 0.01) * t) * 110
      rw [epsilon]; nlinarith) 4 (by decide)
  exact ⟨prices, h⟩

example (lib : Adj.Lib) (g : Nat → ℝ) : ∃ sum risks strike, vSimulate lib 0 (optionScripted true 110 1 0.01 [1, 2]) demoBS [110] [1, 2] 1 [g] = some (sum, risks ++ [strike]) ∧
    tSimulate lib 0 5 (optionProduct true 110 [1, 2]) demoBS [110] [1, 2] 1 [g] = some (sum, risks ++ [0]) :=
  C105_option_compiled lib true 110 1 0.01 demoBS [1, 2] (by simp) (by simp) demo_after 0 1 (by decide) [g]

end Dal
