import Verif.Sim.SeasonedProps
import Verif.Sim.BarrierProps

/-!
# C111: barrier options that have begun

Specification: `Verif/Sim/BarrierSpec.lean`, which speaks of spots only: those that were fixed and those of the path.
-/

namespace Dal
open Dal.Report Dal.Seasoned Dal.Barrier

/-- `r` is the processed product that the texts of a barrier option make, with the first date and `k` dates of the schedule in the past and `n` dates to come before maturity. -/
def IsSeasonedBarrier (v : Script.PEnv ℝ) (cval : List Char → ℝ) (kin twice fuzzy : Bool) (k n : Nat) (r : Ready) : Prop :=
  ∃ start watch last : Script.PStmts ℝ,
    (∃ N, ∀ m, N ≤ m → Script.pEvent v m (Script.tokens (firstText kin)) = .ok start) ∧
    (∃ N, ∀ m, N ≤ m → Script.pEvent v m (Script.tokens (watchText kin)) = .ok watch) ∧
    (∃ N, ∀ m, N ≤ m → Script.pEvent v m (Script.tokens (lastText kin twice)) = .ok last) ∧
    prepareAll fuzzy callName cval (start :: List.replicate k watch) (List.replicate n watch ++ [last]) = some r

/-- The smoothed value of a product that has begun on a path. -/
noncomputable def smoothFrom (d eps : ℝ) (r : Ready) (path : List (Script.Sample ℝ)) : Option ℝ :=
  (Script.fuzzyEvents (fun k => r.product.values.getD k 0) d eps (r.product.events.zip path) ⟨fun k => r.start.getD k 0, fun _ _ => 0, fun _ _ => 0⟩).map fun s => s.σ r.product.payoff

private theorem parsed_unique' {v : Script.PEnv ℝ} {l : List Script.Tok} {a b : Script.PStmts ℝ} (h1 : ∃ N, ∀ m, N ≤ m → Script.pEvent v m l = .ok a)
    (h2 : ∃ N, ∀ m, N ≤ m → Script.pEvent v m l = .ok b) : a = b := by
  obtain ⟨N, h1⟩ := h1
  obtain ⟨M, h2⟩ := h2
  have := (h1 (max N M) (le_max_left _ _)).symm.trans (h2 (max N M) (le_max_right _ _))
  injection this

/-- The flag after the past, as the evaluator sees it. -/
noncomputable def seasonedFlag (kin : Bool) (B : ℝ) (k : Nat) : ℝ := if 0 < k ∧ B ≤ 30 then flagAfter kin else flagBefore kin

private theorem past_flag (kin : Bool) (cv : Nat → ℝ) (B w z : ℝ) (hB : cv 0 = B) : ∀ k, (List.replicate k (watchTree 0 0 B w z (flagAfter kin) [])).foldl
    (fun σ ev => Script.pastExecs realOps cv pastSample ev σ) (Script.upd (fun _ => 0) 0 (flagBefore kin)) = Script.upd (fun _ => 0) 0 (seasonedFlag kin B k) := by
  have hstep : ∀ σ : Nat → ℝ, Script.pastExecs realOps cv pastSample (watchTree 0 0 B w z (flagAfter kin) []) σ = if B ≤ 30 then Script.upd σ 0 (flagAfter kin) else σ := by
    intro σ
    show (if decide ((0 : ℝ) ≤ 30 - cv 0) = true then Script.upd σ 0 (flagAfter kin) else if false = true then σ else σ) = _
    rw [hB]
    by_cases h : B ≤ 30 <;> simp [h]
  intro k
  induction k with
  | zero => simp [seasonedFlag]
  | succ k ih =>
    rw [List.replicate_succ', List.foldl_append, ih, List.foldl_cons, List.foldl_nil, hstep]
    by_cases h : B ≤ 30
    · rw [if_pos h, seasonedFlag, seasonedFlag, if_pos (⟨by omega, h⟩ : 0 < k + 1 ∧ B ≤ 30)]
      funext j
      by_cases hj : j = 0 <;> simp [Script.upd, hj]
    · rw [if_neg h, seasonedFlag, seasonedFlag, if_neg (fun h' => h h'.2), if_neg (fun h' => h h'.2)]

private theorem past_run (kin : Bool) (cv : Nat → ℝ) (B w z : ℝ) (hB : cv 0 = B) (k : Nat) :
    Script.pastEvaluateSt realOps cv pastSample (startTree 0 (flagBefore kin) :: List.replicate k (watchTree 0 0 B w z (flagAfter kin) [])) = some (Script.upd (fun _ => 0) 0 (seasonedFlag kin B k)) := by
  rw [C80_past_partial]
  · congr 1
    exact past_flag kin cv B w z hB k
  · have hpaid : ∀ (k : Nat) (σ : Nat → ℝ), paid realOps cv pastSample (List.replicate k (watchTree 0 0 B w z (flagAfter kin) [])) σ = 0 := by
      intro k
      induction k with
      | zero => intro σ; rfl
      | succ k ih =>
        intro σ
        rw [List.replicate_succ, paid, ih]
        show paidSs realOps cv pastSample (.cons (barrierIf 0 0 B w z (flagAfter kin) []) .nil) σ + 0 = 0
        rw [paidSs, barrierIf, paidS]
        split_ifs <;> rfl
    intro ev hev
    have h0 : paid realOps cv pastSample (startTree 0 (flagBefore kin) :: List.replicate k (watchTree 0 0 B w z (flagAfter kin) [])) (fun _ => realOps.zero) = 0 := by
      rw [paid, hpaid]; rfl
    rw [h0, Nat.zero_add]
    rcases List.mem_cons.1 hev with rfl | hev
    · have : roomSs (startTree 0 (flagBefore kin) : Script.Stmts Nat ℝ) = 1 := rfl
      omega
    · rw [List.eq_of_mem_replicate hev]
      have : roomSs (watchTree 0 0 B w z (flagAfter kin) [] : Script.Stmts Nat ℝ) = 2 := rfl
      omega

private theorem seasoned_prepared (fuzzy kin twice : Bool) (cval : List Char → ℝ) (k n : Nat) (B K w z : ℝ) :
    prepareAll fuzzy callName cval (startTree (flagName kin) (flagBefore kin) :: List.replicate k (watchTree (flagName kin) barrierName B w z (flagAfter kin) []))
      (List.replicate n (watchTree (flagName kin) barrierName B w z (flagAfter kin) []) ++ [lastTree twice (flagName kin) callName barrierName strikeName B K w z (flagAfter kin) []]) =
      some ⟨⟨[some (flagName kin), some callName], [barrierName, strikeName], [B, K], 1,
        List.replicate n (watchTree 0 0 B w z (flagAfter kin) [0]) ++ [lastTree twice 0 1 0 1 B K w z (flagAfter kin) [0]], 1⟩, [seasonedFlag kin B k, 0]⟩ := by
  have hq := barrier_prepared fuzzy kin twice cval (k + n) B K w z
  have hx := barrier_indexed kin twice cval B K w z (k + n)
  have hprog : barrierProg kin twice (k + n) B K w z = (startTree (flagName kin) (flagBefore kin) :: List.replicate k (watchTree (flagName kin) barrierName B w z (flagAfter kin) [])) ++
      (List.replicate n (watchTree (flagName kin) barrierName B w z (flagAfter kin) []) ++ [lastTree twice (flagName kin) callName barrierName strikeName B K w z (flagAfter kin) []]) := by
    rw [barrierProg, List.replicate_add, List.append_assoc]
    rfl
  have hcode : ∀ af, barrierCode kin twice (k + n) B K w z af = (startTree 0 (flagBefore kin) :: List.replicate k (watchTree 0 0 B w z (flagAfter kin) af)) ++
      (List.replicate n (watchTree 0 0 B w z (flagAfter kin) af) ++ [lastTree twice 0 1 0 1 B K w z (flagAfter kin) af]) := by
    intro af
    rw [barrierCode, List.replicate_add, List.append_assoc]
    rfl
  rw [hprog] at hq hx
  rw [prepareAll_eq fuzzy callName cval _ _ _ hq (Script.upd (fun _ => 0) 0 (seasonedFlag kin B k))]
  · congr 2
    dsimp only
    rw [hcode, List.drop_left' (by simp)]
  · rw [hx]
    dsimp only
    rw [hcode, List.take_left' (by simp)]
    exact past_run kin _ B w z rfl k

section
variable {v : Script.PEnv ℝ} {B K w : ℝ} (hv : BarrierEnv v B K w)
include hv

/-- C111: the texts of a barrier option are processed, however many of its dates have passed. -/
theorem C111_barrier_made (cval : List Char → ℝ) (kin twice fuzzy : Bool) (k n : Nat) :
    ∃ r, IsSeasonedBarrier v cval kin twice fuzzy k n r ∧ r.product.consts = [barrierName, strikeName] ∧ r.product.values = [B, K] ∧ r.product.events.length = n + 1 :=
  ⟨_, ⟨_, _, _, start_parsed hv kin, watch_parsed hv kin, last_parsed hv kin twice, seasoned_prepared fuzzy kin twice cval k n B K w v.zero⟩, rfl, rfl, by simp⟩

private theorem seasoned_eq {cval : List Char → ℝ} {kin twice fuzzy : Bool} {k n : Nat} {r : Ready} (h : IsSeasonedBarrier v cval kin twice fuzzy k n r) :
    r = ⟨⟨[some (flagName kin), some callName], [barrierName, strikeName], [B, K], 1,
        List.replicate n (watchTree 0 0 B w v.zero (flagAfter kin) [0]) ++ [lastTree twice 0 1 0 1 B K w v.zero (flagAfter kin) [0]], 1⟩, [seasonedFlag kin B k, 0]⟩ := by
  obtain ⟨a, b, c, h1, h2, h3, h4⟩ := h
  rw [parsed_unique' h1 (start_parsed hv kin), parsed_unique' h2 (watch_parsed hv kin), parsed_unique' h3 (last_parsed hv kin twice)] at h4
  exact Option.some.inj (h4.symm.trans (seasoned_prepared fuzzy kin twice cval k n B K w v.zero))

private theorem touched_past (k : Nat) (l : List ℝ) : Touched B (List.replicate k 30 ++ l) ↔ (0 < k ∧ B ≤ 30) ∨ Touched B l := by
  simp only [Touched, List.mem_append, List.mem_replicate]
  constructor
  · rintro ⟨s, ⟨h1, rfl⟩ | h1, h2⟩
    · exact Or.inl ⟨by omega, h2⟩
    · exact Or.inr ⟨s, h1, h2⟩
  · rintro (⟨h1, h2⟩ | ⟨s, h1, h2⟩)
    · exact ⟨30, Or.inl ⟨by omega, rfl⟩, h2⟩
    · exact ⟨s, Or.inr h1, h2⟩

/-- C111, barrier options exactly: on every path the option is worth what it should be for a history with a spot of 30 on all dates in the past.  The full claim is about the spots that were
fixed; missing: they are not looked at, see `C111_history_violated`. -/
theorem C111_barrier_partial {cval : List Char → ℝ} {kin twice fuzzy : Bool} {k n : Nat} {r : Ready} (h : IsSeasonedBarrier v cval kin twice fuzzy k n r) (ws : List (Script.Sample ℝ))
    (hn : ws.length = n) (sT : Script.Sample ℝ) :
    exactFrom r (ws ++ [sT]) = Barrier.worth kin B K (List.replicate k 30 ++ (ws.map Script.Sample.spot ++ [sT.spot])) sT.spot sT.numeraire := by
  classical
  rw [seasoned_eq hv h, exactFrom]
  subst hn
  dsimp only
  rw [List.zip_append (by simp)]
  rw [Script.evaluate, List.foldl_append]
  have hs : (fun j => [seasonedFlag kin B k, 0].getD j 0) = Script.upd (fun _ => 0) 0 (seasonedFlag kin B k) := by
    funext j
    rcases j with _ | _ | j <;> simp [Script.upd]
  have h1 := exec_watches (fun j => [B, K].getD j 0) B w v.zero (flagAfter kin) rfl ws (Script.upd (fun _ => 0) 0 (seasonedFlag kin B k))
  rw [Script.evaluate] at h1
  rw [hs, h1]
  show Script.execs realOps _ sT (lastTree twice 0 1 0 1 B K w v.zero (flagAfter kin) [0]) _ 1 = _
  rw [exec_last _ twice B K w v.zero _ rfl rfl, Barrier.worth, touched_past hv]
  have h2 : Touched B (ws.map Script.Sample.spot ++ [sT.spot]) ↔ Touched B (ws.map Script.Sample.spot) ∨ B ≤ sT.spot := by
    simp only [Touched, List.mem_append, List.mem_singleton]
    constructor
    · rintro ⟨s, hs | rfl, h⟩
      · exact Or.inl ⟨s, hs, h⟩
      · exact Or.inr h
    · rintro (⟨s, hs, h⟩ | h)
      · exact ⟨s, Or.inl hs, h⟩
      · exact ⟨_, Or.inr rfl, h⟩
  rw [h2, seasonedFlag]
  by_cases h5 : 0 < k ∧ B ≤ 30 <;> by_cases h3 : Touched B (ws.map Script.Sample.spot) <;> by_cases h4 : B ≤ sT.spot <;> cases kin <;>
    simp [h5, h3, h4, Script.upd, flagBefore, flagAfter]

open Classical in
/-- C111, barrier options smoothed: an option that has been knocked in is a call, one that has been knocked out is worth nothing, and any other is smoothed over the dates to come; the past
is not smoothed. -/
theorem C111_barrier_smooth {cval : List Char → ℝ} {kin twice fuzzy : Bool} {k n : Nat} {r : Ready} (h : IsSeasonedBarrier v cval kin twice fuzzy k n r) (hw : 0 < w) (d eps : ℝ)
    (ws : List (Script.Sample ℝ)) (hn : ws.length = n) (sT : Script.Sample ℝ) :
    smoothFrom d eps r (ws ++ [sT]) = some (if Touched B (List.replicate k 30) then (if kin then max 0 (sT.spot - K) / sT.numeraire else 0) else
      smoothWorth kin eps w B K (ws.map Script.Sample.spot ++ (if twice then [sT.spot, sT.spot] else [sT.spot])) sT.spot sT.numeraire) := by
  rw [seasoned_eq hv h, smoothFrom]
  subst hn
  dsimp only
  rw [List.zip_append (by simp)]
  obtain ⟨s1, h1, h2⟩ := fuzzy_watches (fun k => [B, K].getD k 0) d eps B w v.zero (flagAfter kin) rfl hw [(lastTree twice 0 1 0 1 B K w v.zero (flagAfter kin) [0], sT)] ws
    ⟨fun j => [seasonedFlag kin B k, 0].getD j 0, fun _ _ => 0, fun _ _ => 0⟩
  obtain ⟨s', h3, h4⟩ := fuzzy_last (fun k => [B, K].getD k 0) twice d eps B K w v.zero (flagAfter kin) rfl rfl hw sT s1
  have he : Script.fuzzyEvents (fun k => [B, K].getD k 0) d eps ((List.replicate ws.length (watchTree 0 0 B w v.zero (flagAfter kin) [0])).zip ws ++
      [(lastTree twice 0 1 0 1 B K w v.zero (flagAfter kin) [0], sT)]) ⟨fun j => [seasonedFlag kin B k, 0].getD j 0, fun _ _ => 0, fun _ _ => 0⟩ = some s' := by
    rw [h1, Script.fuzzyEvents, h3, Option.bind_some, Script.fuzzyEvents]
  have hgoal : [lastTree twice 0 1 0 1 B K w v.zero (flagAfter kin) [0]].zip [sT] = [(lastTree twice 0 1 0 1 B K w v.zero (flagAfter kin) [0], sT)] := rfl
  rw [hgoal, he, Option.map_some, h4, h2]
  congr 1
  have ha : alive eps w B (watched twice (ws.map Script.Sample.spot) sT.spot) = alive eps w B (ws.map Script.Sample.spot) * alive eps w B (watched twice [] sT.spot) := by
    simp [alive, watched]
  have ht : Touched B (List.replicate k 30) ↔ 0 < k ∧ B ≤ 30 := by
    have := touched_past hv k []
    rw [List.append_nil] at this
    rw [this]
    simp [Touched]
  rw [← watched, smoothWorth, ha, seasonedFlag]
  by_cases h5 : 0 < k ∧ B ≤ 30
  · rw [if_pos (ht.2 h5)]
    cases kin <;> simp [h5, Script.upd, flagBefore, flagAfter]
  · rw [if_neg (fun h => h5 (ht.1 h))]
    cases kin
    · simp [h5, Script.upd, flagBefore, flagAfter]; ring
    · simp [h5, Script.upd, flagBefore, flagAfter]; ring

/-- C111 (violated): the spots that were fixed in the past make no difference.  An option with a barrier above 30 that was knocked out in the past is still valued as a living option, for any
such past; and one whose barrier is at or below 30 is valued as knocked out, even if it has never been near its barrier. -/
theorem C111_history_violated (cval : List Char → ℝ) (twice fuzzy : Bool) (k n : Nat) (hk : 0 < k) (history : List ℝ) (hh : history.length = k) :
    ∃ r, IsSeasonedBarrier v cval false twice fuzzy k n r ∧
      (30 < B → K < B → Touched B history → ∃ path : List (Script.Sample ℝ), path.length = n + 1 ∧ (∀ sp ∈ path, sp.spot < B) ∧ 0 < exactFrom r path ∧
        ∀ spots last num, Barrier.worth false B K (history ++ spots) last num = 0) ∧
      (B ≤ 30 → K < B → ¬ Touched B history → ∃ (ws : List (Script.Sample ℝ)) (sT : Script.Sample ℝ), ws.length = n ∧ exactFrom r (ws ++ [sT]) = 0 ∧
        0 < Barrier.worth false B K (history ++ (ws.map Script.Sample.spot ++ [sT.spot])) sT.spot sT.numeraire) := by
  obtain ⟨r, hr, -⟩ := C111_barrier_made hv cval false twice fuzzy k n
  have hmid : ∀ l : List ℝ, (∀ s ∈ l, s = (B + K) / 2) → K < B → ¬ Touched B l := by
    rintro l hl hK ⟨s, hs, h⟩
    rw [hl s hs] at h
    linarith
  have hall : ∀ s ∈ (List.replicate n (⟨(B + K) / 2, 1⟩ : Script.Sample ℝ)).map Script.Sample.spot ++ [(B + K) / 2], s = (B + K) / 2 := by
    intro s hs
    simp only [List.map_replicate, List.mem_append, List.mem_replicate, List.mem_singleton] at hs
    rcases hs with ⟨_, rfl⟩ | rfl <;> rfl
  refine ⟨r, hr, fun h1 hK ht => ⟨List.replicate n ⟨(B + K) / 2, 1⟩ ++ [⟨(B + K) / 2, 1⟩], by simp, ?_, ?_, ?_⟩, fun h1 hK ht => ⟨List.replicate n ⟨(B + K) / 2, 1⟩, ⟨(B + K) / 2, 1⟩, by simp, ?_, ?_⟩⟩
  · intro sp hsp
    have : sp = ⟨(B + K) / 2, 1⟩ := by
      simp only [List.mem_append, List.mem_replicate, List.mem_singleton] at hsp
      rcases hsp with ⟨_, rfl⟩ | rfl <;> rfl
    rw [this]
    show (B + K) / 2 < B
    linarith
  · have hnt : ¬ Touched B (List.replicate k 30 ++ ((List.replicate n (⟨(B + K) / 2, 1⟩ : Script.Sample ℝ)).map Script.Sample.spot ++ [(B + K) / 2])) := by
      rw [touched_past hv]
      rintro (h | h)
      · linarith [h.2]
      · exact hmid _ hall hK h
    rw [C111_barrier_partial hv hr _ (by simp)]
    dsimp only
    rw [Barrier.worth, if_pos (by simpa using hnt), div_one]
    exact lt_max_of_lt_right (by linarith)
  · intro spots last num
    have : Touched B (history ++ spots) := by
      obtain ⟨s, hs, h⟩ := ht
      exact ⟨s, List.mem_append_left _ hs, h⟩
    rw [Barrier.worth, if_neg (by simpa using this)]
  · have hnt : Touched B (List.replicate k 30 ++ ((List.replicate n (⟨(B + K) / 2, 1⟩ : Script.Sample ℝ)).map Script.Sample.spot ++ [(B + K) / 2])) := by
      rw [touched_past hv]
      exact Or.inl ⟨hk, h1⟩
    rw [C111_barrier_partial hv hr _ (by simp), Barrier.worth, if_neg (by simpa using hnt)]
  · have hnt : ¬ Touched B (history ++ ((List.replicate n (⟨(B + K) / 2, 1⟩ : Script.Sample ℝ)).map Script.Sample.spot ++ [(B + K) / 2])) := by
      rintro ⟨s, hs, h⟩
      rcases List.mem_append.1 hs with hs | hs
      · exact ht ⟨s, hs, h⟩
      · exact hmid _ hall hK ⟨s, hs, h⟩
    dsimp only
    rw [Barrier.worth, if_pos (by simpa using hnt), div_one]
    exact lt_max_of_lt_right (by linarith)

end

/-! ### Examples -/

/-- A barrier at 150: whatever was fixed, the option is alive after two dates in the past. -/
example : ∃ r, IsSeasonedBarrier Barrier.demoEnv (fun _ => 0) false true false 2 1 r ∧ exactFrom r [⟨120, 1⟩, ⟨130, 2⟩] = 15 := by
  obtain ⟨r, hr, -⟩ := C111_barrier_made Barrier.demo_env (fun _ => 0) false true false 2 1
  refine ⟨r, hr, (C111_barrier_partial Barrier.demo_env hr [⟨120, 1⟩] rfl ⟨130, 2⟩).trans ?_⟩
  have ht : ¬ Touched 150 (List.replicate 2 30 ++ ([⟨120, 1⟩].map Script.Sample.spot ++ [130])) := by
    simp [Touched]; norm_num
  rw [Barrier.worth, if_pos (by simpa using ht)]
  norm_num

/-- It was knocked out at 170 a date ago, and this is not noticed. -/
example : ∃ r path, IsSeasonedBarrier Barrier.demoEnv (fun _ => 0) false true true 1 2 r ∧ 0 < exactFrom r path ∧ Barrier.worth false 150 100 ([170] ++ [110, 120, 120]) 120 1 = 0 := by
  obtain ⟨r, hr, h, -⟩ := C111_history_violated Barrier.demo_env (fun _ => 0) true true 1 2 (by norm_num) [170] rfl
  obtain ⟨path, -, -, h2, h3⟩ := h (by norm_num) (by norm_num) ⟨170, by simp, by norm_num⟩
  exact ⟨r, path, hr, h2, h3 _ _ _⟩

example : ∃ r, IsSeasonedBarrier Barrier.demoEnv (fun _ => 0) true false true 3 1 r ∧ smoothFrom 0.01 (2 / 10 ^ 14) r [⟨150, 1⟩, ⟨130, 2⟩] = some (15 / 2) := by
  obtain ⟨r, hr, -⟩ := C111_barrier_made Barrier.demo_env (fun _ => 0) true false true 3 1
  refine ⟨r, hr, (C111_barrier_smooth Barrier.demo_env hr (by norm_num) 0.01 (2 / 10 ^ 14) [⟨150, 1⟩] rfl ⟨130, 2⟩).trans ?_⟩
  have ht : ¬ Touched 150 (List.replicate 3 30) := by
    simp [Touched]; norm_num
  rw [if_neg ht]
  norm_num [smoothWorth, alive, left, degree]

end Dal
