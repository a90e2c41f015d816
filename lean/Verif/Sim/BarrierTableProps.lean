import Verif.Sim.BarrierProps
import Verif.Sim.TableLemmas

/-! # C115: the table of the barrier example becomes the events of C110

The rows are those of `examples/uoc/uoc.cpp` lines 49–58. -/

namespace Dal
open Dal.Strings Dal.Script.Events Dal.Report

/-- The table: two numbers, the start, the schedule and the maturity. -/
def barrierTable (kin : Bool) (strike barrier sched : Str) (start maturity : Nat) : List Row :=
  [.named strikeName strike, .named barrierName barrier, .dated start (firstText kin), .named sched (watchText kin), .dated maturity (payText kin)]

private theorem watch_plain (kin : Bool) : ∀ s ∈ (watchText kin).tails, Script.Macro.matches? "PeriodBegin".toList s = false ∧ Script.Macro.matches? "PeriodEnd".toList s = false := by
  cases kin <;> decide +kernel

private theorem watch_period {E : Type} (L : Lib E) (hL : L.subst = Script.Macro.subst) (kin : Bool) (s e : Nat) : period L (watchText kin) s e = watchText kin := by
  rw [period, hL, C115_absent "PeriodBegin".toList _ _ (by decide) (not_found fun t ht => (watch_plain kin t ht).1),
    C115_absent "PeriodEnd".toList _ _ (by decide) (not_found fun t ht => (watch_plain kin t ht).2)]

private theorem two_numbers {E : Type} (L : Lib E) (sgn : Bool) {a b p q : Str} (hp : L.isNumber p = true) (hq : L.isNumber q = true) (ca : ':' ∉ a) (cb : ':' ∉ b) (hab : ltS sgn a b = false)
    (hba : ltS sgn b a = true) (rs : List Row) : rows L sgn (.named a p :: .named b q :: rs) {} = rows L sgn rs { consts := [(b, L.toDouble q), (a, L.toDouble p)] } := by
  have r1 : step L sgn {} (.named a p) = some { consts := [(a, L.toDouble p)] } := by simp [step, ca, hp, mapFind, mapInsert]
  have r2 : step L sgn { consts := [(a, L.toDouble p)] } (.named b q) = some { consts := [(b, L.toDouble q), (a, L.toDouble p)] } := by
    simp [step, cb, hq, mapFind, mapInsert, hab, hba]
  rw [rows, r1]
  simp only []
  rw [rows, r2]

private theorem add_joined (m : List (Nat × Str)) (d : Nat) (t u : Str) (h : ∀ x ∈ m, x.1 < d) : addEvent d t (m ++ [(d, u)]) = m ++ [(d, u ++ '\n' :: t)] := by
  induction m with
  | nil => simp [addEvent]
  | cons x m ih =>
    have h1 := h x (by simp)
    rw [List.cons_append, addEvent, if_neg (by omega), if_neg (by omega), ih (fun y hy => h y (by simp [hy])), List.cons_append]

/-- C115: the table becomes the events of C110; `twice` if the schedule ends at maturity, when the texts of the two rows are joined. -/
theorem C115_barrier {E : Type} (L : Lib E) (hL : L.subst = Script.Macro.subst) (sgn kin twice : Bool) (strike barrier sched : Str) (hnum : ∀ t ∈ [strike, barrier], L.isNumber t = true)
    (start maturity : Nat) (hc : ':' ∈ sched) (first : Nat) (dates : List Nat) (hsched : L.sched sched = some (Script.Sched.periods true (first :: (dates ++ if twice then [maturity] else []))))
    (hord : (start :: (dates ++ [maturity])).Pairwise (· < ·)) :
    ∃ s, rows L sgn (barrierTable kin strike barrier sched start maturity) {} = some s ∧ s.macros = [] ∧
      s.events = (start, firstText kin) :: (dates.map (fun d => (d, watchText kin)) ++ [(maturity, lastText kin twice)]) ∧
      mapFind sgn barrierName s.consts = some (L.toDouble barrier) ∧ mapFind sgn strikeName s.consts = some (L.toDouble strike) ∧ mapFind sgn callName s.consts = none ∧
      mapFind sgn ['a', 'l', 'i', 'v', 'e'] s.consts = none ∧ mapFind sgn ['h', 'i', 't'] s.consts = none := by
  obtain ⟨h1, h2⟩ := List.pairwise_cons.1 hord
  obtain ⟨h3, -, h4⟩ := List.pairwise_append.1 h2
  have hrows := two_numbers L sgn (a := strikeName) (b := barrierName) (p := strike) (q := barrier) (hnum _ (by simp)) (hnum _ (by simp)) (by decide) (by decide)
    (by cases sgn <;> decide) (by cases sgn <;> decide)
  have hsub : (dates ++ if twice then [maturity] else []).Sublist (dates ++ [maturity]) := by
    cases twice
    · simp
    · exact List.Sublist.refl _
  have hev := table_add_all (fun s e => period L (watchText kin) s e) (fun _ => watchText kin) (fun s e => watch_period L hL kin s e) (dates ++ if twice then [maturity] else []) first
    [(start, firstText kin)] (h2.sublist hsub) (by
      intro x hx d hdd
      rw [List.mem_singleton.1 hx]
      exact h1 d (hsub.subset hdd))
  have hbefore : ∀ x ∈ [(start, firstText kin)] ++ dates.map fun d => (d, watchText kin), x.1 < maturity := by
    intro x hx
    simp only [List.mem_append, List.mem_singleton, List.mem_map] at hx
    rcases hx with rfl | ⟨d, hdm, rfl⟩
    · exact h1 maturity (by simp)
    · exact h4 d hdm maturity (by simp)
  have hall : rows L sgn (barrierTable kin strike barrier sched start maturity) {} = some ⟨[], [(barrierName, L.toDouble barrier), (strikeName, L.toDouble strike)],
      (start, firstText kin) :: (dates.map (fun d => (d, watchText kin)) ++ [(maturity, lastText kin twice)])⟩ := by
    rw [barrierTable, hrows, rows]
    simp only [step, replaceAll, List.foldl_nil, addEvent]
    rw [rows]
    simp only [step, if_pos hc, hsched, replaceAll, List.foldl_nil]
    rw [hev, rows]
    simp only [step, replaceAll, List.foldl_nil]
    cases twice with
    | false =>
      simp only [Bool.false_eq_true, if_false, List.append_nil]
      rw [table_add_last _ _ _ hbefore, rows, lastText, if_neg (by simp)]
      simp
    | true =>
      simp only [if_true, List.map_append, List.map_cons, List.map_nil, ← List.append_assoc]
      rw [add_joined _ _ _ _ hbefore, rows, lastText, if_pos rfl]
      simp
  refine ⟨_, hall, rfl, rfl, ?_⟩
  generalize L.toDouble barrier = v1
  generalize L.toDouble strike = v2
  refine ⟨?_, ?_, ?_, ?_, ?_⟩ <;> cases sgn <;> rfl

/-- The events of the rows are the program of the texts. -/
theorem barrier_rows_prog (L : Lib (Script.PStmts ℝ)) (hL : L.subst = Script.Macro.subst) (sgn kin twice : Bool) (base : Script.PEnv ℝ)
    (hparse : ∀ consts t e, (∃ N, ∀ m, N ≤ m → Script.pEvent (withConstants base sgn consts) m (Script.tokens t) = .ok e) → L.parse consts t = some [e])
    (h0 : base.toD (.num ['0']) = some 0) (h1 : base.toD (.num ['1']) = some 1) (h0' : base.toD (.num ['0', '.', '0']) = some 0) {w : ℝ} (hw : base.toD (.num ['0', '.', '1']) = some w)
    (strike barrier sched : Str) (hnum : ∀ t ∈ [strike, barrier], L.isNumber t = true)
    (start maturity : Nat) (hc : ':' ∈ sched) (first : Nat) (dates : List Nat) (hsched : L.sched sched = some (Script.Sched.periods true (first :: (dates ++ if twice then [maturity] else []))))
    (hord : (start :: (dates ++ [maturity])).Pairwise (· < ·)) (evalDate : Nat) (he : evalDate ≤ start) :
    ∃ consts p, BarrierEnv (withConstants base sgn consts) (L.toDouble barrier) (L.toDouble strike) w ∧
      parseEvents L sgn evalDate (barrierTable kin strike barrier sched start maturity) = some p ∧ p.past = [] ∧ p.future.map Prod.fst = start :: (dates ++ [maturity]) ∧
      p.future.flatMap Prod.snd = barrierProg kin twice dates.length (L.toDouble barrier) (L.toDouble strike) w base.zero := by
  obtain ⟨s, hr, -, hev, c1, c2, c3, c4, c5⟩ := C115_barrier L hL sgn kin twice strike barrier sched hnum start maturity hc first dates hsched hord
  have hv : BarrierEnv (withConstants base sgn s.consts) (L.toDouble barrier) (L.toDouble strike) w := by
    refine ⟨?_, ?_, ?_, ?_, ?_, h0, h1, h0', hw⟩ <;> simp [withConstants, *]
  have hpar : List.Forall₂ (fun x e => L.parse s.consts x.2 = some e) s.events
      ([startTree (flagName kin) (flagBefore kin)] :: (dates.map (fun _ => [watchTree (flagName kin) barrierName (L.toDouble barrier : ℝ) w base.zero (flagAfter kin) []]) ++
        [[lastTree twice (flagName kin) callName barrierName strikeName (L.toDouble barrier : ℝ) (L.toDouble strike : ℝ) w base.zero (flagAfter kin) []]])) := by
    rw [hev]
    refine List.Forall₂.cons (hparse _ _ _ (start_parsed hv kin)) (List.rel_append ?_ (List.Forall₂.cons (hparse _ _ _ (last_parsed hv kin twice)) List.Forall₂.nil))
    rw [List.forall₂_map_left_iff, List.forall₂_map_right_iff, List.forall₂_same]
    exact fun d hdm => hparse _ _ _ (watch_parsed hv kin)
  obtain ⟨o1, o2⟩ := List.pairwise_cons.1 hord
  have hfut := table_distribute_future L s.consts evalDate s.events _ {} hpar (by
    rw [hev]
    intro x hx
    simp only [List.mem_cons, List.mem_append, List.mem_map, List.not_mem_nil, or_false] at hx
    rcases hx with rfl | ⟨d, hdm, rfl⟩ | rfl
    · exact he
    · exact le_of_lt (lt_of_le_of_lt he (o1 d (by simp [hdm])))
    · exact le_of_lt (lt_of_le_of_lt he (o1 maturity (by simp))))
  have hlen := List.Forall₂.length_eq hpar
  refine ⟨s.consts, _, hv, by rw [parseEvents, hr]; exact hfut, rfl, ?_, ?_⟩
  · simp only [List.nil_append]
    rw [List.map_fst_zip (by rw [List.length_map]; exact hlen.le), hev]
    simp [Function.comp_def]
  · simp only [List.nil_append]
    rw [table_flat_zip _ _ (by rw [List.length_map]; exact hlen), barrierProg, List.flatten_cons, List.flatten_append, table_flat_single, List.map_const']
    rfl

/-- C115: from the table of the example to its value: on every path the product is worth the discounted payoff of the call if the barrier has not (has) been reached after the start.  The
constants come in the order in which the events use them, not in that of the table: `BARRIER` is the first, though `STRIKE` is the first row.  So the first sensitivity behind those of the
model, which `examples/uoc` prints as `dP/dK` (lines 124–135), is that to the barrier. -/
theorem C115_barrier_value (L : Lib (Script.PStmts ℝ)) (hL : L.subst = Script.Macro.subst) (sgn kin twice : Bool) (base : Script.PEnv ℝ)
    (hparse : ∀ consts t e, (∃ N, ∀ m, N ≤ m → Script.pEvent (withConstants base sgn consts) m (Script.tokens t) = .ok e) → L.parse consts t = some [e])
    (h0 : base.toD (.num ['0']) = some 0) (h1 : base.toD (.num ['1']) = some 1) (h0' : base.toD (.num ['0', '.', '0']) = some 0) {w : ℝ} (hw : base.toD (.num ['0', '.', '1']) = some w)
    (strike barrier sched : Str) (hnum : ∀ t ∈ [strike, barrier], L.isNumber t = true)
    (start maturity : Nat) (hc : ':' ∈ sched) (first : Nat) (dates : List Nat) (hsched : L.sched sched = some (Script.Sched.periods true (first :: (dates ++ if twice then [maturity] else []))))
    (hord : (start :: (dates ++ [maturity])).Pairwise (· < ·)) (evalDate : Nat) (he : evalDate ≤ start) (cval : List Char → ℝ) (fuzzy : Bool) :
    ∃ p q, parseEvents L sgn evalDate (barrierTable kin strike barrier sched start maturity) = some p ∧ p.past = [] ∧ p.future.map Prod.fst = start :: (dates ++ [maturity]) ∧
      prepare fuzzy callName cval (p.future.flatMap Prod.snd) = some q ∧ q.consts = [barrierName, strikeName] ∧ q.values = [(L.toDouble barrier : ℝ), (L.toDouble strike : ℝ)] ∧
      ∀ (s0 sT : Script.Sample ℝ) (ws : List (Script.Sample ℝ)), ws.length = dates.length →
        exactOn q (s0 :: (ws ++ [sT])) = Barrier.worth kin (L.toDouble barrier) (L.toDouble strike) (ws.map Script.Sample.spot ++ [sT.spot]) sT.spot sT.numeraire ∧
        (0 < w → ∀ d eps, smoothOn d eps q (s0 :: (ws ++ [sT])) = some (Barrier.smoothWorth kin eps w (L.toDouble barrier) (L.toDouble strike)
          (ws.map Script.Sample.spot ++ (if twice then [sT.spot, sT.spot] else [sT.spot])) sT.spot sT.numeraire)) := by
  obtain ⟨consts, p, hv, h2, h3, h4, h5⟩ := barrier_rows_prog L hL sgn kin twice base hparse h0 h1 h0' hw strike barrier sched hnum start maturity hc first dates hsched hord evalDate he
  have hq : IsBarrier (withConstants base sgn consts) cval kin twice fuzzy dates.length _ :=
    ⟨_, _, _, start_parsed hv kin, watch_parsed hv kin, last_parsed hv kin twice, barrier_prepared fuzzy kin twice cval dates.length _ _ w base.zero⟩
  refine ⟨p, _, h2, h3, h4, by rw [h5]; exact barrier_prepared fuzzy kin twice cval dates.length _ _ w base.zero, rfl, rfl,
    fun s0 sT ws hws => ⟨C110_exact hv hq s0 ws hws sT, fun hwp d eps => C110_smooth hv hq hwp d eps s0 ws hws sT⟩⟩

open Classical in
/-- A library for the example: everything is a number, worth one. -/
noncomputable def Barrier.demoLib : Lib (Script.PStmts ℝ) where
  subst := Script.Macro.subst
  isNumber _ := true
  toDouble _ := 1
  sched _ := some (Script.Sched.periods true [1, 2, 3])
  dateText _ := []
  parse consts t := if h : ∃ e, ∃ N, ∀ m, N ≤ m → Script.pEvent (withConstants Barrier.demoEnv true consts) m (Script.tokens t) = .ok e then some [h.choose] else none

theorem Barrier.demo_parse (consts : List (Str × Rat)) (t : Str) (e : Script.PStmts ℝ)
    (h : ∃ N, ∀ m, N ≤ m → Script.pEvent (withConstants Barrier.demoEnv true consts) m (Script.tokens t) = .ok e) : Barrier.demoLib.parse consts t = some [e] := by
  have hx : ∃ e, ∃ N, ∀ m, N ≤ m → Script.pEvent (withConstants Barrier.demoEnv true consts) m (Script.tokens t) = .ok e := ⟨e, h⟩
  rw [Barrier.demoLib]
  simp only
  rw [dif_pos hx]
  obtain ⟨N, hN⟩ := h
  obtain ⟨N', hN'⟩ := hx.choose_spec
  have := (hN (max N N') (le_max_left _ _)).symm.trans (hN' (max N N') (le_max_right _ _))
  injection this with this
  rw [← this]

/-- The hypotheses can be met: a schedule from the start to maturity. -/
example : ∃ p q, parseEvents Barrier.demoLib true 0 (barrierTable false [] [] ":".toList 1 3) = some p ∧ p.past = [] ∧ p.future.map Prod.fst = [1, 2, 3] ∧
    prepare true callName (fun _ => 0) (p.future.flatMap Prod.snd) = some q := by
  have hv := Barrier.demo_env
  obtain ⟨p, q, h1, h2, h3, h4, -⟩ := C115_barrier_value Barrier.demoLib rfl true false true Barrier.demoEnv Barrier.demo_parse hv.zero hv.one hv.zeroPoint hv.width [] [] ":".toList (fun _ _ => rfl) 1 3 (by decide) 1 [2] rfl (by decide) 0 (Nat.zero_le _) (fun _ => 0) true
  exact ⟨p, q, h1, h2, h3, h4⟩

end Dal
