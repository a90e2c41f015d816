import Verif.Sim.ReportLemmas
import Verif.Sim.ValueProps
import Verif.Script.DomainLemmas

/-!
# C106: valuations with sensitivities, from the text of a product to the table

Specification: the same script run forward on pairs of a value and a derivative on one path at a time (`smoothPath`), the mean over the paths of a simulation (`simulated`), and, for
options, the Black prices and their derivatives.
-/

namespace Dal
open Dal.Models Dal.TimeLine Dal.TapeRun Dal.Numeric Dal.Implied Dal.Noise Dal.Report Dal.Valued Dal.Strings MeasureTheory ProbabilityTheory Filter Topology

/-- The derivative that the run on pairs delivers on a path. -/
noncomputable def pathDeriv (p : Scripted) (b : BS ℝ) (consts product : List ℝ) (i : Nat) (g : Nat → ℝ) : ℝ :=
  ((smoothPath p (constDual i consts) (bsDual i b) product g).map Dual.d).getD 0

/-- The simulation, for a product with or without today's date: today takes no normal numbers. -/
theorem simulation_from (lib : Adj.Lib) (F : Nat → Prop) (p : Scripted) (today : Bool) (ho : ∀ e ∈ p.events, OwnSs True F e) (ho0 : today = true → ∀ e ∈ p.events.head?, OwnSs False F e)
    (hF : F p.payoff) (b : BS ℝ) (hspot : today = true → 0 < b.spot) (consts product : List ℝ) (hne : datesFrom today product ≠ [])
    (hp : product.IsChain (· < ·)) (hpos : ∀ t ∈ product, 0 < t) (N threads : Nat) (gen : Gen) (ex : List ((Int × Int) × Nat)) (h : Runs N threads ex) (ω : ℕ → ℝ) (value : (Nat → ℝ) → ℝ)
    (hv : ∀ pos, fuzzyPath p (fun k => consts.getD k 0) b (datesFrom today product) (numbers (window product.length pos ω)) = some (value (numbers (window product.length pos ω)))) :
    ∃ B : Nat → ℝ, ∀ cutoff, 0 ≤ cutoff → ∃ agg risks, simulation lib cutoff p b consts (datesFrom today product) N gen threads ex ω = some (agg, risks) ∧ risks.length = 4 + consts.length ∧
      agg / N = simulated true gen product.length N threads ex value ω ∧
      ∀ (i : Nat) (r : ℝ), risks[i]? = some r → |r - simulated true gen product.length N threads ex (pathDeriv p b consts (datesFrom today product) i) ω| ≤ cutoff * B i := by
  have hN : (0 : ℝ) < N := by exact_mod_cast h.some
  set gs : (Int × Int) × Nat → List (Nat → ℝ) := fun e => pathsFrom product.length ω e.1.2.toNat (gen.skip product.length e.1.1.toNat 0) with hgs
  have hmem : ∀ e, ∀ g ∈ gs e, ∃ pos, g = numbers (window product.length pos ω) := by
    intro e g hg
    rw [hgs] at hg
    dsimp only at hg
    rw [paths_eq] at hg
    obtain ⟨i, -, rfl⟩ := List.mem_map.1 hg
    exact ⟨_, rfl⟩
  have hval : ∀ e, ∀ g ∈ gs e, fuzzyPath p (fun k => consts.getD k 0) b (datesFrom today product) g = some (value g) := by
    intro e g hg
    obtain ⟨pos, rfl⟩ := hmem e g hg
    exact hv pos
  have key : ∀ e, ∃ B : Nat → ℝ, ∀ eps, 0 ≤ eps → ∃ risks : List ℝ, vSimulate lib eps p b consts (datesFrom today product) N (gs e) = some (((gs e).map value).sum, risks) ∧ risks.length = 4 + consts.length ∧
      ∀ (i : Nat) (r : ℝ), risks[i]? = some r → |r * N - ((gs e).map (pathDeriv p b consts (datesFrom today product) i)).sum| ≤ eps * B i := by
    intro e
    obtain ⟨deriv, B, h1, h2⟩ := risks_from lib F p today ho ho0 hF b hspot consts product hne hp hpos N h.some (gs e) value (hval e)
    refine ⟨B, fun eps he => ?_⟩
    obtain ⟨risks, h3, h4, h5⟩ := h2 eps he
    refine ⟨risks, h3, h4, fun i r hr => ?_⟩
    have hi : i < 4 + consts.length := by
      have := (List.getElem?_eq_some_iff.1 hr).1
      omega
    rw [show (gs e).map (pathDeriv p b consts (datesFrom today product) i) = (gs e).map (deriv i) from List.map_congr_left fun g hg => by rw [pathDeriv, h1 g hg i hi]; rfl]
    exact h5 i r hr
  choose B hB using key
  refine ⟨fun i => (ex.map fun e => B e i).sum / N, fun cutoff hc => ?_⟩
  choose risks h1 h2 h3 using fun e => hB e cutoff hc
  obtain ⟨res, h4, h5, h6⟩ := simulation_spec lib cutoff p b today consts product hne hpos N gen ω (fun e => (((gs e).map value).sum, risks e)) h1 h2 threads ex h.thread
  have hsum : ∀ f : (Nat → ℝ) → ℝ, simulated true gen product.length N threads ex f ω = (ex.map fun e => ((gs e).map f).sum).sum / N := by
    intro f
    rw [simulated, if_pos rfl, valueTape_sum _ _ _ _ _ h.thread]
    congr 2
    refine List.map_congr_left fun e _ => ?_
    rw [hgs]
    dsimp only
    rw [paths_eq, List.map_map]
    rfl
  refine ⟨res.1, res.2, h4, h5, ?_, fun i r hr => ?_⟩
  · rw [hsum, show res.1 = part none res from rfl, h6]
    rfl
  · have hi : i < 4 + consts.length := by
      have := (List.getElem?_eq_some_iff.1 hr).1
      omega
    have h7 : r = (ex.map fun e => (risks e).getD i 0).sum := by
      rw [show (ex.map fun e => (risks e).getD i 0).sum = part (some i) res from (h6 (some i)).symm]
      show r = res.2.getD i 0
      rw [List.getD_eq_getElem?_getD, hr]; rfl
    rw [hsum, h7]
    have h8 : ∀ l : List ((Int × Int) × Nat), |(l.map fun e => (risks e).getD i 0).sum * N - (l.map fun e => ((gs e).map (pathDeriv p b consts (datesFrom today product) i)).sum).sum| ≤
        cutoff * (l.map fun e => B e i).sum := by
      intro l
      induction l with
      | nil => simp
      | cons e l ih =>
        simp only [List.map_cons, List.sum_cons]
        have h9 := h3 e i ((risks e).getD i 0) (by
          rw [List.getD_eq_getElem?_getD, List.getElem?_eq_getElem (by rw [h2 e]; exact hi)]; rfl)
        calc _ = |((risks e).getD i 0 * N - ((gs e).map (pathDeriv p b consts (datesFrom today product) i)).sum) +
              ((l.map fun e => (risks e).getD i 0).sum * N - (l.map fun e => ((gs e).map (pathDeriv p b consts (datesFrom today product) i)).sum).sum)| := by congr 1; ring
          _ ≤ _ := (abs_add_le _ _).trans (by rw [mul_add]; exact add_le_add h9 ih)
    have h10 := h8 ex
    rw [show (ex.map fun e => (risks e).getD i 0).sum - (ex.map fun e => ((gs e).map (pathDeriv p b consts (datesFrom today product) i)).sum).sum / N =
      ((ex.map fun e => (risks e).getD i 0).sum * N - (ex.map fun e => ((gs e).map (pathDeriv p b consts (datesFrom today product) i)).sum).sum) / N by field_simp, abs_div, abs_of_pos hN, ← mul_div_assoc]
    exact div_le_div_of_nonneg_right h10 hN.le

/-- C106, the simulation: if the script can be run on the paths, then the simulation has a result, whatever the order of the tasks and their threads; the value over the number of paths
is the mean of the payoffs over the paths, and each risk is, up to the cutoff of the adjoints, the mean of the derivatives. -/
theorem C106_simulation (lib : Adj.Lib) (F : Nat → Prop) (p : Scripted) (ho : ∀ e ∈ p.events, OwnSs True F e) (hF : F p.payoff) (b : BS ℝ) (consts product : List ℝ) (hne : product ≠ [])
    (hp : product.IsChain (· < ·)) (hpos : ∀ t ∈ product, 0 < t) (N threads : Nat) (gen : Gen) (ex : List ((Int × Int) × Nat)) (h : Runs N threads ex) (ω : ℕ → ℝ) (value : (Nat → ℝ) → ℝ)
    (hv : ∀ pos, fuzzyPath p (fun k => consts.getD k 0) b product (numbers (window product.length pos ω)) = some (value (numbers (window product.length pos ω)))) :
    ∃ B : Nat → ℝ, ∀ cutoff, 0 ≤ cutoff → ∃ agg risks, simulation lib cutoff p b consts product N gen threads ex ω = some (agg, risks) ∧ risks.length = 4 + consts.length ∧
      agg / N = simulated true gen product.length N threads ex value ω ∧
      ∀ (i : Nat) (r : ℝ), risks[i]? = some r → |r - simulated true gen product.length N threads ex (pathDeriv p b consts product i) ω| ≤ cutoff * B i :=
  simulation_from lib F p false ho (fun h => by cases h) hF b (fun h => by cases h) consts product hne hp hpos N threads gen ex h ω value hv

private theorem filled_length {A : Type} : ∀ (l : List (Option A)) (r : List A), filled l = some r → r.length = l.length := by
  intro l
  induction l with
  | nil => intro r h; injection h with h; subst h; rfl
  | cons x l ih =>
    intro r h
    cases x with
    | none => cases h
    | some a =>
      rw [filled, Option.map_eq_some_iff] at h
      obtain ⟨r', h1, rfl⟩ := h
      simp [ih r' h1]

private theorem sets_length {A B : Type} (f : A → Nat) (g : A → B) : ∀ (l : List A) (v : List B), (l.foldl (fun v e => v.set (f e) (g e)) v).length = v.length := by
  intro l
  induction l with
  | nil => intro v; rfl
  | cons x l ih => intro v; rw [List.foldl_cons, ih, List.length_set]

private theorem prepare_lengths {fuzzy : Bool} {payoff : List Char} {cval : List Char → ℝ} {prog : List (Script.PStmts ℝ)} {q : Prepared} (h : prepare fuzzy payoff cval prog = some q) :
    q.consts.length = q.values.length := by
  unfold prepare at h
  dsimp only at h
  split at h
  · rename_i i names values h1 h2 h3
    split at h
    · cases h
    · injection h with h
      subst h
      show names.length = values.length
      rw [filled_length _ _ h2, filled_length _ _ h3, Script.Indexer.constNames, Script.Indexer.constValues, sets_length, sets_length]
      simp
  · cases h

/-- What is simulated for a prepared product. -/
noncomputable def Report.Prepared.scripted (q : Prepared) (smooth eps : ℝ) : Scripted := ⟨q.events, q.vars.map fun _ => 0, q.payoff, smooth, eps⟩

/-- The dates of a product: those after today, with today's before them or not. -/
def serialsFrom : Bool → Nat → List Nat → List Nat
  | false, _, rest => rest
  | true, today, rest => today :: rest

theorem times_from (now : Bool) (today : Nat) (rest : List Nat) : times today (serialsFrom now today rest) = datesFrom now (times today rest) := by
  cases now with
  | false => rfl
  | true => simp [serialsFrom, datesFrom, times]

/-- The table, for a product with or without today's date. -/
theorem table_from (sgn : Bool) (lib : Adj.Lib) (F : Nat → Prop) (eps smooth : ℝ) (payoff : List Char) (cval : List Char → ℝ) (prog : List (Script.PStmts ℝ)) (q : Prepared)
    (hq : prepare true payoff cval prog = some q) (now : Bool) (ho : ∀ e ∈ q.events, OwnSs True F e) (ho0 : now = true → ∀ e ∈ q.events.head?, OwnSs False F e) (hF : F q.payoff)
    (hd : (Results.bsLabels ++ q.consts).Pairwise fun a b => eqS sgn a b = false) (b : BS ℝ) (hspot : now = true → 0 < b.spot) (today : Nat) (dates : List Nat)
    (hne : serialsFrom now today dates ≠ []) (hp : dates.IsChain (· < ·))
    (hpos : ∀ d ∈ dates, today < d) (N threads : Nat) (gen : Gen) (ex : List ((Int × Int) × Nat)) (h : Runs N threads ex) (ω : ℕ → ℝ) (value : (Nat → ℝ) → ℝ)
    (hv : ∀ pos, fuzzyPath (q.scripted smooth eps) (fun k => q.values.getD k 0) b (times today (serialsFrom now today dates)) (numbers (window dates.length pos ω)) =
      some (value (numbers (window dates.length pos ω)))) :
    ∃ B : Nat → ℝ, ∀ cutoff, 0 ≤ cutoff → ∃ t risks, Report.report sgn lib cutoff eps smooth payoff cval prog today (serialsFrom now today dates) b N gen threads ex ω = some t ∧
      t.Pairwise (fun a b => ltS sgn a.1 b.1 = true) ∧ risks.length = 4 + q.consts.length ∧
      t.Perm (("PV".toList, some (simulated true gen dates.length N threads ex value ω)) :: ((Results.bsLabels ++ q.consts).zip risks).map fun e => ("d_".toList ++ e.1, some e.2)) ∧
      ∀ (i : Nat) (r : ℝ), risks[i]? = some r →
        |r - simulated true gen dates.length N threads ex (pathDeriv (q.scripted smooth eps) b q.values (times today (serialsFrom now today dates)) i) ω| ≤ cutoff * B i := by
  have hl := prepare_lengths hq
  have hlen : (times today dates).length = dates.length := by simp [times]
  have hne' : datesFrom now (times today dates) ≠ [] := by
    rw [← times_from]
    simpa [times] using hne
  have hp' : (times today dates).IsChain (· < ·) := by
    rw [times, List.isChain_map]
    refine hp.imp fun a c hac => ?_
    have : ((a : Int) : ℝ) < ((c : Int) : ℝ) := by exact_mod_cast hac
    push_cast
    push_cast at this
    linarith
  have hpos' : ∀ t ∈ times today dates, 0 < t := by
    intro t ht
    obtain ⟨d, hd, rfl⟩ := List.mem_map.1 ht
    have : ((today : Int) : ℝ) < ((d : Int) : ℝ) := by exact_mod_cast hpos d hd
    push_cast
    push_cast at this
    linarith
  obtain ⟨B, hB⟩ := simulation_from lib F (q.scripted smooth eps) now ho ho0 hF b hspot q.values (times today dates) hne' hp' hpos' N threads gen ex h ω value (by rw [hlen, ← times_from]; exact hv)
  rw [hlen, ← times_from] at hB
  refine ⟨B, fun cutoff hc => ?_⟩
  obtain ⟨agg, risks, h1, h2, h3, h4⟩ := hB cutoff hc
  obtain ⟨t, t1, t2, -, t4⟩ := C96_table (K := ℝ) sgn "BSModelData_".toList (C96_model sgn [] true (N : Int) [] (fun _ => (none : Option (ℝ × List ℝ)))).2.2.1 (N : Int) (Results.bsLabels ++ q.consts)
    (fun n => simulation lib cutoff (q.scripted smooth eps) b q.values (times today (serialsFrom now today dates)) n.toNat gen threads ex ω) agg risks h1 (by rw [h2, List.length_append, hl]; rfl) hd
  refine ⟨t, risks, ?_, t2, by rw [h2, hl], ?_, h4⟩
  · rw [Report.report, hq]
    exact t1
  · have h5 : Valued.average agg (N : Int) = some (simulated true gen dates.length N threads ex value ω) := by
      rw [Valued.average, if_neg (by have := h.some; omega), ← h3]
      norm_cast
    rw [← h5]
    exact t4

/-- C106, the table: for a product that passes the preparation, can be run on the paths and whose constants are not called like parameters of the model, the table has one row for the
value and one for each parameter and each constant; the value is the mean of the payoffs over the paths and the others are, up to the cutoff, the means of the derivatives. -/
theorem C106_table (sgn : Bool) (lib : Adj.Lib) (F : Nat → Prop) (eps smooth : ℝ) (payoff : List Char) (cval : List Char → ℝ) (prog : List (Script.PStmts ℝ)) (q : Prepared)
    (hq : prepare true payoff cval prog = some q) (ho : ∀ e ∈ q.events, OwnSs True F e) (hF : F q.payoff)
    (hd : (Results.bsLabels ++ q.consts).Pairwise fun a b => eqS sgn a b = false) (b : BS ℝ) (today : Nat) (dates : List Nat) (hne : dates ≠ []) (hp : dates.IsChain (· < ·))
    (hpos : ∀ d ∈ dates, today < d) (N threads : Nat) (gen : Gen) (ex : List ((Int × Int) × Nat)) (h : Runs N threads ex) (ω : ℕ → ℝ) (value : (Nat → ℝ) → ℝ)
    (hv : ∀ pos, fuzzyPath (q.scripted smooth eps) (fun k => q.values.getD k 0) b (times today dates) (numbers (window dates.length pos ω)) = some (value (numbers (window dates.length pos ω)))) :
    ∃ B : Nat → ℝ, ∀ cutoff, 0 ≤ cutoff → ∃ t risks, Report.report sgn lib cutoff eps smooth payoff cval prog today dates b N gen threads ex ω = some t ∧
      t.Pairwise (fun a b => ltS sgn a.1 b.1 = true) ∧ risks.length = 4 + q.consts.length ∧
      t.Perm (("PV".toList, some (simulated true gen dates.length N threads ex value ω)) :: ((Results.bsLabels ++ q.consts).zip risks).map fun e => ("d_".toList ++ e.1, some e.2)) ∧
      ∀ (i : Nat) (r : ℝ), risks[i]? = some r →
        |r - simulated true gen dates.length N threads ex (pathDeriv (q.scripted smooth eps) b q.values (times today dates) i) ω| ≤ cutoff * B i :=
  table_from sgn lib F eps smooth payoff cval prog q hq false ho (fun h => by cases h) hF hd b (fun h => by cases h) today dates hne hp hpos N threads gen ex h ω value hv

/-! ### Options, from the text -/

private theorem one_item (f : Script.Itv ℝ → Script.Itv ℝ → Option (Script.Itv ℝ)) (i j k : Script.Itv ℝ) (h : f i j = some k) : Script.domBin f [i] [j] = some [k] := by
  simp [Script.domBin, Script.addAll, h, Script.addItv, Script.addLoop]

private theorem itv_sub (K : ℝ) : Script.Itv.sub Script.line (Script.single K) = some Script.line ∧ Script.Itv.sub (Script.single K) Script.line = some Script.line := by
  constructor <;> simp [Script.Itv.sub, Script.Itv.opp, Script.single, Script.line, Script.Itv.add, Script.mkItv, Script.Bd.opp, Script.Bd.minf_le]

private theorem itv_max : Script.Itv.imax (Script.single (0 : ℝ)) Script.line = some Script.halfLine := by
  simp [Script.Itv.imax, Script.single, Script.line, Script.halfLine, Script.mkItv, Script.Bd.minf_le, Script.Bd.le_pinf, Script.Bd.fin_lt_pinf, not_lt.2 (Script.Bd.minf_le _)]

private theorem itv_div : Script.Itv.div (Script.halfLine : Script.Itv ℝ) Script.halfLine = some Script.halfLine := by
  simp [Script.Itv.div, Script.Itv.inv, Script.Itv.isSingleton, Script.halfLine, Script.mkItv, Script.Bd.le_pinf, Script.Itv.mul, Script.Itv.isZero, Script.Bd.mul, Script.Bd.pos, Script.Bd.neg]

private theorem itv_add : Script.Itv.add (Script.single (0 : ℝ)) Script.halfLine = some Script.halfLine ∧ Script.Itv.add (Script.halfLine : Script.Itv ℝ) Script.halfLine = some Script.halfLine := by
  constructor <;> simp [Script.Itv.add, Script.single, Script.halfLine, Script.mkItv, Script.Bd.le_pinf]

private theorem dom_step (fuzzy put : Bool) (K : ℝ) (δ : Nat → Script.Dom ℝ) (h : δ 0 = [Script.single 0] ∨ δ 0 = [Script.halfLine]) :
    Script.domSs realOps fuzzy (optionTree put 0 0 K) δ = some (optionTree put 0 0 K, Script.upd δ 0 [Script.halfLine]) := by
  have h1 : Script.domE realOps δ (.bin .max (if put then .bin .sub (.constVar 0 K) .spot none else .bin .sub .spot (.constVar 0 K) none) (.const 0) none) = some [Script.halfLine] := by
    have h2 : Script.domE realOps δ (if put then .bin .sub (.constVar 0 K) .spot none else .bin .sub .spot (.constVar 0 K) none) = some [Script.line] := by
      cases put
      · exact one_item _ _ _ _ (itv_sub K).1
      · exact one_item _ _ _ _ (itv_sub K).2
    rw [Script.domE, h2]
    exact one_item _ _ _ _ itv_max
  have h3 : Script.domBin Script.Itv.add (δ 0) [Script.halfLine] = some [Script.halfLine] := by
    rcases h with h | h <;> rw [h]
    · exact one_item _ _ _ _ itv_add.1
    · exact one_item _ _ _ _ itv_add.2
  rw [optionTree, Script.domSs, Script.domS, h1, Option.bind_some, one_item _ _ _ _ itv_div, Option.bind_some]
  dsimp only
  rw [h3]
  rfl

theorem option_dom (fuzzy put : Bool) (K : ℝ) : ∀ (n : Nat) (δ : Nat → Script.Dom ℝ), (δ 0 = [Script.single 0] ∨ δ 0 = [Script.halfLine]) →
    ∃ δ', Script.domEvents realOps fuzzy (List.replicate n (optionTree put 0 0 K)) δ = some (List.replicate n (optionTree put 0 0 K), δ') := by
  intro n
  induction n with
  | zero => intro δ _; exact ⟨δ, rfl⟩
  | succ n ih =>
    intro δ h
    obtain ⟨δ', h1⟩ := ih (Script.upd δ 0 [Script.halfLine]) (Or.inr rfl)
    refine ⟨δ', ?_⟩
    rw [List.replicate_succ, Script.domEvents, dom_step fuzzy put K δ h, Option.bind_some]
    dsimp only
    rw [h1]
    rfl

private theorem if_events (put : Bool) (K : ℝ) : ∀ n, Script.ifEvents {} (List.replicate n (optionTree put 0 0 K)) = ({}, List.replicate n (optionTree put 0 0 K)) := by
  intro n
  induction n with
  | zero => rfl
  | succ n ih =>
    rw [List.replicate_succ, Script.ifEvents]
    have h : Script.ifStmts {} (optionTree put 0 0 K) = ({}, optionTree put 0 0 K) := by cases put <;> rfl
    rw [h]
    dsimp only
    rw [ih]

/-- Options pass the preparation unchanged. -/
theorem option_prepared (put : Bool) (cval : List Char → ℝ) (K : ℝ) (n : Nat) (hn : 0 < n) :
    prepare true ['o', 'p', 't'] cval (List.replicate n (optionTree put ['o', 'p', 't'] ['K'] K)) =
      some ⟨[some ['o', 'p', 't']], [['K']], [K], 0, List.replicate n (optionTree put 0 0 K), 0⟩ := by
  obtain ⟨δ, hδ⟩ := option_dom true put K n Script.domInit (Or.inl rfl)
  unfold prepare
  rw [option_indexed put cval K n hn]
  dsimp only
  rw [if_events, hδ]
  have h : Script.payoffIdx ['o', 'p', 't'] (⟨[(['o', 'p', 't'], 0)], [(['K'], (0, K))]⟩ : Script.Indexer (List Char) ℝ).varNames = some 0 := rfl
  rw [h]
  dsimp only [filled, Script.Indexer.constNames, Script.Indexer.constValues, Script.Indexer.varNames]
  have h2 : (List.replicate n (optionTree put 0 0 K)).map Script.ccSs = List.replicate n (optionTree put 0 0 K) := by
    rw [List.map_replicate]; cases put <;> rfl
  rw [h2]
  rfl

private theorem option_scripted (put : Bool) (K smooth eps : ℝ) (today : Nat) (dates : List Nat) :
    (⟨[some ['o', 'p', 't']], [['K']], [K], 0, List.replicate dates.length (optionTree put 0 0 K), 0⟩ : Prepared).scripted smooth eps = optionScripted put K smooth eps (times today dates) := by
  rw [Prepared.scripted, optionScripted, show (times today dates).length = dates.length by simp [times]]
  rfl

theorem times_rising (today : Nat) (dates : List Nat) (hne : dates ≠ []) (hp : dates.IsChain (· < ·)) (hpos : ∀ d ∈ dates, today < d) :
    times today dates ≠ [] ∧ (times today dates).IsChain (· < ·) ∧ ∀ t ∈ times today dates, 0 < t := by
  refine ⟨by simpa [times] using hne, ?_, ?_⟩
  · rw [times, List.isChain_map]
    refine hp.imp fun a c hac => ?_
    have : ((a : Int) : ℝ) < ((c : Int) : ℝ) := by exact_mod_cast hac
    push_cast
    push_cast at this
    linarith
  · intro t ht
    obtain ⟨d, hd, rfl⟩ := List.mem_map.1 ht
    have : ((today : Int) : ℝ) < ((d : Int) : ℝ) := by exact_mod_cast hpos d hd
    push_cast
    push_cast at this
    linarith

/-- The rows of the table of options. -/
noncomputable def optionRows (pv : ℝ) (r : Nat → ℝ) : List (Str × Option ℝ) :=
  [("d_div".toList, some (r 3)), ("d_K".toList, some (r 4)), ("d_rate".toList, some (r 2)), ("d_spot".toList, some (r 0)), ("d_vol".toList, some (r 1)), ("PV".toList, some pv)]

private theorem keys_sorted (sgn : Bool) : ["d_div".toList, "d_K".toList, "d_rate".toList, "d_spot".toList, "d_vol".toList, "PV".toList].Pairwise fun a b => ltS sgn a b = true := by
  cases sgn <;> decide +kernel

private theorem labels_distinct (sgn : Bool) : (Results.bsLabels ++ [['K']]).Pairwise fun a b => eqS sgn a b = false := by cases sgn <;> decide +kernel

private theorem keys_eq : Results.bsLabels.map ("d_".toList ++ ·) = ["d_spot".toList, "d_vol".toList, "d_rate".toList, "d_div".toList] ∧ "d_".toList ++ ['K'] = "d_K".toList := by decide +kernel

private theorem sorted_unique (sgn : Bool) (l l' : List (Str × Option ℝ)) (h : l.Pairwise fun a b => ltS sgn a.1 b.1 = true) (h' : l'.Pairwise fun a b => ltS sgn a.1 b.1 = true) (p : l.Perm l') : l = l' := by
  refine List.Perm.eq_of_pairwise (fun x y _ _ hxy hyx => ?_) h h' p
  exfalso
  rcases C15_lt_total sgn x.1 y.1 with h | h | h
  · rw [h.2.2] at hyx; cases hyx
  · rw [h.1] at hxy; cases hxy
  · rw [h.1] at hxy; cases hxy

private theorem rows_sorted (sgn : Bool) (pv : ℝ) (r : Nat → ℝ) : (optionRows pv r).Pairwise fun a b => ltS sgn a.1 b.1 = true := by
  have h := keys_sorted sgn
  have e : (optionRows pv r).map Prod.fst = ["d_div".toList, "d_K".toList, "d_rate".toList, "d_spot".toList, "d_vol".toList, "PV".toList] := by
    simp only [optionRows, List.map_cons, List.map_nil]
  rw [← e] at h
  exact List.pairwise_map.1 h

private theorem rows_perm (pv r0 r1 r2 r3 r4 : ℝ) : ((("PV".toList, some pv) : Str × Option ℝ) :: ((Results.bsLabels ++ [['K']]).zip [r0, r1, r2, r3, r4]).map fun e => ("d_".toList ++ e.1, some e.2)).Perm
    (optionRows pv fun i => [r0, r1, r2, r3, r4].getD i 0) := by
  have h : ((Results.bsLabels ++ [['K']]).zip [r0, r1, r2, r3, r4]).map (fun e => ("d_".toList ++ e.1, some e.2)) =
      [("d_spot".toList, some r0), ("d_vol".toList, some r1), ("d_rate".toList, some r2), ("d_div".toList, some r3), ("d_K".toList, some r4)] := by
    have h1 := keys_eq
    unfold Results.bsLabels at *
    simp only [List.map_cons, List.map_nil, List.cons.injEq] at h1
    simp only [List.cons_append, List.nil_append, List.zip_cons_cons, List.zip_nil_right, List.map_cons, List.map_nil, h1]
  rw [h]
  unfold optionRows
  simp only [List.getD_cons_zero, List.getD_cons_succ]
  generalize "d_spot".toList = a
  generalize "d_vol".toList = b
  generalize "d_rate".toList = c
  generalize "d_div".toList = d
  generalize "d_K".toList = e
  generalize "PV".toList = f
  refine (List.perm_append_singleton (f, some pv) [(a, some r0), (b, some r1), (c, some r2), (d, some r3), (e, some r4)]).symm.trans ?_
  refine List.Perm.append_right [(f, some pv)] (l₁ := [(a, some r0), (b, some r1), (c, some r2), (d, some r3), (e, some r4)]) (l₂ := [(d, some r3), (e, some r4), (c, some r2), (a, some r0), (b, some r1)]) ?_
  refine (List.perm_append_comm (l₁ := [(a, some r0), (b, some r1)]) (l₂ := [(c, some r2), (d, some r3), (e, some r4)])).trans ?_
  refine List.Perm.append_right [(a, some r0), (b, some r1)] (l₁ := [(c, some r2), (d, some r3), (e, some r4)]) (l₂ := [(d, some r3), (e, some r4), (c, some r2)]) ?_
  exact List.perm_append_comm (l₁ := [(c, some r2)]) (l₂ := [(d, some r3), (e, some r4)])

/-- C106, from the text to the table: the script that pays a call or a put at each of its dates is parsed, prepared and simulated, and the table has six rows: the mean over the paths of what
the options pay and, up to the cutoff, the means of its derivatives with respect to the four parameters of the model and the strike. -/
theorem C106_option (sgn : Bool) (lib : Adj.Lib) (put : Bool) (K smooth eps : ℝ) (v : Script.PEnv ℝ) (h1 : v.cvs ['o', 'p', 't'] = none) (h2 : v.cvs ['K'] = some K)
    (h3 : v.toD (.num ['0', '.', '0']) = some 0) (cval : List Char → ℝ) (b : BS ℝ) (today : Nat) (dates : List Nat) (hne : dates ≠ []) (hp : dates.IsChain (· < ·))
    (hpos : ∀ d ∈ dates, today < d) (N threads : Nat) (gen : Gen) (ex : List ((Int × Int) × Nat)) (h : Runs N threads ex) :
    ∃ prog : Script.PStmts ℝ, (∃ M, ∀ n, M ≤ n → Script.pEvent v n (Script.tokens (optionText put)) = .ok prog) ∧
      ∀ ω, ∃ B : Nat → ℝ, ∀ cutoff, 0 ≤ cutoff → ∃ r : Nat → ℝ,
        Report.report sgn lib cutoff eps smooth ['o', 'p', 't'] cval (List.replicate dates.length prog) today dates b N gen threads ex ω =
          some (optionRows (simulated true gen dates.length N threads ex (optionValue put K b (times today dates)) ω) r) ∧
        ∀ i, i < 5 → |r i - simulated true gen dates.length N threads ex (optionSensK put K b (times today dates) i) ω| ≤ cutoff * B i := by
  refine ⟨_, option_parsed put v K h1 h2 h3, fun ω => ?_⟩
  obtain ⟨n1, n2, n3⟩ := times_rising today dates hne hp hpos
  have hq := option_prepared put cval K dates.length (List.length_pos_of_ne_nil hne)
  have hs := option_scripted put K smooth eps today dates
  have hsm := fun i g => option_smooth put K smooth eps b (times today dates) n1 n2 n3 i g
  obtain ⟨B, hB⟩ := C106_table sgn lib (fun k => k = 0) eps smooth ['o', 'p', 't'] cval _ _ hq
    (by
      have := option_own put K smooth eps (times today dates)
      rw [← hs] at this
      exact this) rfl (labels_distinct sgn) b today dates hne hp hpos N threads gen ex h ω (optionValue put K b (times today dates)) (by
      intro pos
      rw [hs]
      exact fuzzy_of_smooth _ b [K] _ n1 n2 n3 _ _ _ (hsm 0 _))
  refine ⟨B, fun cutoff hc => ?_⟩
  obtain ⟨t, risks, t1, t2, t3, t4, t5⟩ := hB cutoff hc
  have hlen : risks.length = 5 := t3
  have hd : ∀ i, pathDeriv (optionScripted put K smooth eps (times today dates)) b [K] (times today dates) i = optionSensK put K b (times today dates) i := by
    intro i
    funext g
    rw [pathDeriv, hsm i g]; rfl
  refine ⟨fun i => risks.getD i 0, ?_, fun i hi => ?_⟩
  · rw [t1]
    congr 1
    obtain ⟨r0, r1, r2, r3, r4, rfl⟩ : ∃ r0 r1 r2 r3 r4, risks = [r0, r1, r2, r3, r4] := by
      match risks, hlen with
      | [r0, r1, r2, r3, r4], _ => exact ⟨r0, r1, r2, r3, r4, rfl⟩
    exact sorted_unique sgn t _ t2 (rows_sorted sgn _ _) (t4.trans (rows_perm _ r0 r1 r2 r3 r4))
  · rw [← hd i, ← hs]
    refine t5 i _ ?_
    show _ = some (risks.getD i 0)
    rw [List.getD_eq_getElem?_getD, List.getElem?_eq_getElem (by omega)]; rfl

private theorem line_at (product : List ℝ) (k : Fin product.length) : datesLine product (k + 1) = product[k] := by
  show (0 :: product).getD (k.1 + 1) 0 = _
  rw [List.getD_eq_getElem?_getD, List.getElem?_cons_succ, List.getElem?_eq_getElem k.2]; rfl

private theorem line_rises (product : List ℝ) (hp : product.IsChain (· < ·)) (hpos : ∀ t ∈ product, 0 < t) (k : Fin product.length) :
    ∀ j, j < k.1 + 1 → datesLine product j ≤ datesLine product (j + 1) := by
  intro j hj
  have := k.2
  have hpw : (0 :: product).Pairwise (· < ·) := List.pairwise_cons.2 ⟨hpos, List.isChain_iff_pairwise.1 hp⟩
  rw [datesLine, datesLine, List.getD_eq_getElem?_getD, List.getD_eq_getElem?_getD, List.getElem?_eq_getElem (by simp; omega), List.getElem?_eq_getElem (by simp; omega)]
  exact (List.pairwise_iff_getElem.1 hpw j (j + 1) (by simp; omega) (by simp; omega) (by omega)).le

theorem option_sens_integrable (put : Bool) (K : ℝ) (b : BS ℝ) (product : List ℝ) (hp : product.IsChain (· < ·)) (hpos : ∀ t ∈ product, 0 < t) (s0 : 0 < b.spot) (v0 : 0 < b.vol) (k0 : 0 < K) (i : Nat) :
    Integrable (fun g => optionSensK put K b product i (numbers g)) (Measure.pi fun _ : Fin product.length => gaussianReal 0 1) := by
  unfold optionSensK
  refine integrable_finsetSum _ fun k _ => ?_
  have h := (pay_mean put (bsDual i b) ⟨K, if i = 4 then 1 else 0⟩ (datesLine product) product.length (k + 1) (by have := k.2; omega) (line_rises product hp hpos k) rfl
    (by rw [line_at]; exact hpos _ (List.getElem_mem _)) (by simpa [bsDual] using s0) (by simpa [bsDual] using v0) k0).1
  rw [line_at] at h
  exact h

theorem option_value_mean (put : Bool) (K : ℝ) (b : BS ℝ) (product : List ℝ) (hp : product.IsChain (· < ·)) (hpos : ∀ t ∈ product, 0 < t) (s0 : 0 < b.spot) 
    (hr : ∀ t ∈ product, Regular (b.spot * Real.exp ((b.rate - b.div) * t)) (b.vol * Real.sqrt t) K) :
    Integrable (fun g => optionValue put K b product (numbers g)) (Measure.pi fun _ : Fin product.length => gaussianReal 0 1) ∧
    ∃ prices : Fin product.length → ℝ,
      (∀ k, blackOpt (b.spot * Real.exp ((b.rate - b.div) * product[k])) (b.vol * Real.sqrt product[k]) K (if put then .put else .call) = some (prices k)) ∧
      gaussMean product.length (optionValue put K b product) = ∑ k : Fin product.length, Real.exp (-b.rate * product[k]) * prices k := by
  have hpay : ∀ s, payout (if put then .put else .call) s K = some (optionPayoff put K s) := by
    intro s; cases put <;> rfl
  have hi : ∀ k : Fin product.length, Integrable (fun g => optionPayoff put K (Real.exp (b.logAt (datesLine product) (numbers g) (k + 1))) / Real.exp (b.rate * product[k]))
      (Measure.pi fun _ : Fin product.length => gaussianReal 0 1) := fun k =>
    (bs_integrable b (datesLine product) product.length (k + 1) (by have := k.2; omega) (line_rises product hp hpos k) s0 (optionPayoff put K)
      (payoff_measurable _ K _ hpay) (lognormal_payoff_integrable _ K _ hpay)).div_const _
  have hx : ∀ k : Fin product.length, ∃ x, blackOpt (b.spot * Real.exp ((b.rate - b.div) * product[k])) (b.vol * Real.sqrt product[k]) K (if put then .put else .call) = some x ∧
      gaussMean product.length (fun gauss => optionPayoff put K (Real.exp (b.logAt (datesLine product) gauss (k + 1))) / Real.exp (b.rate * product[k])) = Real.exp (-b.rate * product[k]) * x := by
    intro k
    have h := C97_bs b (datesLine product) product.length (k + 1) (by have := k.2; omega) (line_rises product hp hpos k) rfl s0 (if put then .put else .call) K (optionPayoff put K) hpay
      (by rw [line_at]; exact hr _ (List.getElem_mem _))
    rw [line_at, Option.map_eq_some_iff] at h
    obtain ⟨x, h1, h2⟩ := h
    exact ⟨x, h1, h2.symm⟩
  choose prices x1 x2 using hx
  unfold optionValue
  refine ⟨integrable_finsetSum _ fun k _ => hi k, prices, x1, ?_⟩
  rw [gaussMean, integral_finsetSum _ fun k _ => hi k]
  exact Finset.sum_congr rfl fun k _ => x2 k

/-- The sum of the discounted Black prices of the options at the dates, if all have one. -/
noncomputable def discountedSum (put : Bool) (b : BS ℝ) (K : ℝ) : List ℝ → Option ℝ
  | [] => some 0
  | t :: ts =>
    match blackOpt (b.spot * Real.exp ((b.rate - b.div) * t)) (b.vol * Real.sqrt t) K (if put then .put else .call), discountedSum put b K ts with
    | some p, some s => some (Real.exp (-b.rate * t) * p + s)
    | _, _ => none

theorem option_discounted (put : Bool) (b : BS ℝ) (K : ℝ) : ∀ (product : List ℝ) (prices : Fin product.length → ℝ),
    (∀ k : Fin product.length, blackOpt (b.spot * Real.exp ((b.rate - b.div) * product[k])) (b.vol * Real.sqrt product[k]) K (if put then .put else .call) = some (prices k)) →
    discountedSum put b K product = some (∑ k : Fin product.length, Real.exp (-b.rate * product[k]) * prices k) := by
  intro product
  induction product with
  | nil => intro prices _; simp [discountedSum]
  | cons t ts ih =>
    intro prices h
    have h0 := h ⟨0, by simp⟩
    have h1 := ih (fun k => prices k.succ) fun k => h k.succ
    rw [discountedSum, show blackOpt (b.spot * Real.exp ((b.rate - b.div) * t)) (b.vol * Real.sqrt t) K (if put then .put else .call) = some (prices ⟨0, by simp⟩) from h0, h1]
    dsimp only
    refine congrArg some ?_
    exact (Fin.sum_univ_succ (n := ts.length) fun k : Fin (ts.length + 1) => Real.exp (-b.rate * (t :: ts)[k]) * prices k).symm

/-- C106, no bias: over the numbers of the stream, the mean of the value of the table of options is the sum of the discounted Black prices, and without the cutoff the mean of each other row is
the derivative of this sum with respect to the spot, the volatility, the rate, the dividend yield or the strike, whatever number of paths, generator, tasks and threads. -/
theorem C106_unbiased (sgn : Bool) (lib : Adj.Lib) (put : Bool) (K smooth eps : ℝ) (v : Script.PEnv ℝ) (h1 : v.cvs ['o', 'p', 't'] = none) (h2 : v.cvs ['K'] = some K)
    (h3 : v.toD (.num ['0', '.', '0']) = some 0) (cval : List Char → ℝ) (b : BS ℝ) (today : Nat) (dates : List Nat) (hne : dates ≠ []) (hp : dates.IsChain (· < ·))
    (hpos : ∀ d ∈ dates, today < d) (N threads : Nat) (gen : Gen) (ex : List ((Int × Int) × Nat)) (h : Runs N threads ex) (s0 : 0 < b.spot) (k0 : 0 < K)
    (v0 : ∀ t ∈ times today dates, epsilon < b.vol * Real.sqrt t) (e0 : ∀ t ∈ times today dates, epsilon < b.spot * Real.exp ((b.rate - b.div) * t) * K) :
    ∃ (prog : Script.PStmts ℝ) (pv : (ℕ → ℝ) → ℝ) (risk : Nat → (ℕ → ℝ) → ℝ) (price : ℝ) (prices : Nat → ℝ → ℝ),
      (∃ M, ∀ n, M ≤ n → Script.pEvent v n (Script.tokens (optionText put)) = .ok prog) ∧
      (∀ ω, Report.report sgn lib 0 eps smooth ['o', 'p', 't'] cval (List.replicate dates.length prog) today dates b N gen threads ex ω = some (optionRows (pv ω) fun i => risk i ω)) ∧
      discountedSum put b K (times today dates) = some price ∧
      (∀ i, i < 5 → ∀ᶠ t in 𝓝 (inputOf b [K] i), discountedSum put (movedTo b i t) (constTo [K] i t 0) (times today dates) = some (prices i t)) ∧
      (Integrable pv noise ∧ ∫ ω, pv ω ∂noise = price) ∧
      ∀ i, i < 5 → Integrable (risk i) noise ∧ HasDerivAt (prices i) (∫ ω, risk i ω ∂noise) (inputOf b [K] i) := by
  obtain ⟨n1, n2, n3⟩ := times_rising today dates hne hp hpos
  have hlen : (times today dates).length = dates.length := by simp [times]
  have hv0 : 0 < b.vol := by
    obtain ⟨t, ht⟩ := List.exists_mem_of_ne_nil _ n1
    by_contra hc
    have h4 := mul_nonpos_of_nonpos_of_nonneg (not_lt.1 hc) (Real.sqrt_nonneg t)
    have h5 : (0 : ℝ) < epsilon := by norm_num [epsilon]
    linarith [v0 t ht]
  obtain ⟨prog, hprog, hrep⟩ := C106_option sgn lib put K smooth eps v h1 h2 h3 cval b today dates hne hp hpos N threads gen ex h
  obtain ⟨hi, prices, hpr, hmean⟩ := option_value_mean put K b (times today dates) n2 n3 s0 fun t ht => Or.inl ⟨k0, (v0 t ht).le, (e0 t ht).le⟩
  have hgreek := fun i (hi : i < 5) => C105_option_mean put K b (times today dates) n2 n3 s0 k0 v0 e0 i hi
  have hall : ∀ i, ∃ prices : ℝ → Fin (times today dates).length → ℝ, i < 5 →
      (∀ᶠ t in 𝓝 (inputOf b [K] i), discountedSum put (movedTo b i t) (constTo [K] i t 0) (times today dates) =
        some (∑ k : Fin (times today dates).length, Real.exp (-(movedTo b i t).rate * (times today dates)[k]) * prices t k)) ∧
      HasDerivAt (fun t => ∑ k : Fin (times today dates).length, Real.exp (-(movedTo b i t).rate * (times today dates)[k]) * prices t k)
        (gaussMean (times today dates).length (optionSensK put K b (times today dates) i)) (inputOf b [K] i) := by
    intro i
    by_cases hi : i < 5
    · obtain ⟨pr, h4, h5⟩ := hgreek i hi
      exact ⟨pr, fun _ => ⟨h4.mono fun t ht => option_discounted put (movedTo b i t) (constTo [K] i t 0) (times today dates) (pr t) ht, h5⟩⟩
    · exact ⟨fun _ _ => 0, fun hc => absurd hc hi⟩
  choose pr hprs using hall
  refine ⟨prog, simulated true gen dates.length N threads ex (optionValue put K b (times today dates)),
    fun i => simulated true gen dates.length N threads ex (optionSensK put K b (times today dates) i), _,
    fun i t => ∑ k : Fin (times today dates).length, Real.exp (-(movedTo b i t).rate * (times today dates)[k]) * pr i t k, hprog, fun ω => ?_,
    option_discounted put b K (times today dates) prices hpr, fun i hi => (hprs i hi).1, ?_, fun i hi => ?_⟩
  · obtain ⟨B, hB⟩ := hrep ω
    obtain ⟨r, r1, r2⟩ := hB 0 le_rfl
    rw [r1]
    have h4 : ∀ i, i < 5 → r i = simulated true gen dates.length N threads ex (optionSensK put K b (times today dates) i) ω := by
      intro i hi
      have := r2 i hi
      rw [zero_mul] at this
      exact sub_eq_zero.1 (abs_eq_zero.1 (le_antisymm this (abs_nonneg _)))
    rw [optionRows, optionRows, h4 0 (by omega), h4 1 (by omega), h4 2 (by omega), h4 3 (by omega), h4 4 (by omega)]
  · rw [← hmean, hlen]
    rw [hlen] at hi
    exact C102_unbiased true gen dates.length N threads ex h _ hi
  · have h4 := option_sens_integrable put K b (times today dates) n2 n3 s0 hv0 k0 i
    rw [hlen] at h4
    obtain ⟨h5, h6⟩ := C102_unbiased true gen dates.length N threads ex h _ h4
    refine ⟨h5, ?_⟩
    rw [h6, show gaussMean dates.length (optionSensK put K b (times today dates) i) = gaussMean (times today dates).length (optionSensK put K b (times today dates) i) by rw [hlen]]
    exact (hprs i hi).2

/-! ### The hypotheses hold -/

private noncomputable def demoMarket : BS ℝ := ⟨100, 0.03, 0.01, 0.2⟩

private def demoEnv : Script.PEnv ℝ := ⟨fun _ => some 0, fun s => if s = ['K'] then some 110 else none, fun _ _ => some none, -1, 0⟩

/-- Two thousand paths on two threads, the second task first. -/
private def demoRun : List ((Int × Int) × Nat) := [((1024, 976), 1), ((0, 1024), 0)]

private theorem demo_runs : Runs 2000 2 demoRun := ⟨by decide, by decide, ⟨[(0, 1024), (1024, 976)], by decide +kernel, List.Perm.swap _ _ _⟩, by decide⟩

private theorem demo_times : ∀ t ∈ times 46000 [46365, 46730], 1 ≤ t := by
  intro t ht
  simp only [times, List.map_cons, List.map_nil, List.mem_cons, List.not_mem_nil, or_false] at ht
  rcases ht with rfl | rfl <;> norm_num

/-- Calls struck at 110 in one year and in two: six rows. -/
example (sgn : Bool) (lib : Adj.Lib) (ω : ℕ → ℝ) : ∃ prog pv r, Report.report sgn lib (2 / 10 ^ 14) (2 / 10 ^ 14) 0.01 ['o', 'p', 't'] (fun _ => 0) [prog, prog] 46000 [46365, 46730] demoMarket 2000 .mrg 2 demoRun ω =
    some (optionRows pv r) := by
  obtain ⟨prog, -, h⟩ := C106_option sgn lib false 110 0.01 (2 / 10 ^ 14) demoEnv rfl rfl rfl (fun _ => 0) demoMarket 46000 [46365, 46730] (by simp) (by simp) (by simp) 2000 2 .mrg demoRun demo_runs
  obtain ⟨B, hB⟩ := h ω
  obtain ⟨r, h1, -⟩ := hB (2 / 10 ^ 14) (by norm_num)
  exact ⟨prog, _, r, h1⟩

/-- The mean of the row of the strike is the derivative of the price with respect to the strike. -/
example (lib : Adj.Lib) : ∃ (risk : (ℕ → ℝ) → ℝ) (price : ℝ → ℝ), (∀ᶠ t in 𝓝 110, discountedSum true demoMarket t (times 46000 [46365, 46730]) = some (price t)) ∧
    (∀ ω, ∃ prog t, Report.report true lib 0 (2 / 10 ^ 14) 0.01 ['o', 'p', 't'] (fun _ => 0) [prog, prog] 46000 [46365, 46730] demoMarket 2000 .irn 2 demoRun ω = some t ∧ t[1]? = some ("d_K".toList, some (risk ω))) ∧
    HasDerivAt price (∫ ω, risk ω ∂noise) 110 := by
  obtain ⟨prog, pv, risk, _, prices, -, h1, -, h2, -, h3⟩ := C106_unbiased true lib true 110 0.01 (2 / 10 ^ 14) demoEnv rfl rfl rfl (fun _ => 0) demoMarket 46000 [46365, 46730] (by simp) (by simp) (by simp)
    2000 2 .irn demoRun demo_runs (show (0 : ℝ) < 100 by norm_num) (by norm_num)
    (by
      intro t ht
      have h2 : (1 : ℝ) ≤ Real.sqrt t := by rw [Real.le_sqrt (by norm_num) (by linarith [demo_times t ht])]; linarith [demo_times t ht]
      exact lt_of_lt_of_le (show epsilon < 0.2 * 1 by norm_num [epsilon]) (mul_le_mul_of_nonneg_left h2 (by norm_num [demoMarket])))
    (by
      intro t ht
      have h1 := Real.one_le_exp (show (0 : ℝ) ≤ (0.03 - 0.01) * t by nlinarith [demo_times t ht])
      show epsilon < 100 * Real.exp ((0.03 - 0.01) * t) * 110
      rw [epsilon]; nlinarith)
  exact ⟨risk 4, prices 4, h2 4 (by omega), fun ω => ⟨prog, _, h1 ω, rfl⟩, (h3 4 (by omega)).2⟩

end Dal
