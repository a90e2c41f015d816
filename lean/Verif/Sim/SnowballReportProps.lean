import Verif.Sim.SnowballProps
import Verif.Sim.BarrierPriceProps

/-! # C114: the table of the snowball

The valuation with sensitivities that `examples/snowball/snowball.cpp` asks for, from the texts to the table. -/

namespace Dal
open Dal.Report Dal.Models Dal.TimeLine Dal.TapeRun Dal.Noise Dal.Valued Dal.Strings Dal.Snowball

/-- A date of the note on a Black–Scholes path: `line` is the time line of the model, counted from the evaluation date. -/
noncomputable def lookAt (b : BS ℝ) (line : List ℝ) (today : Nat) (start d : Date.Date) (g : Nat → ℝ) : Look :=
  ⟨spotAt b line ((((d.serial : Int) - today : Int) : ℝ) / 365) g, Real.exp (b.rate * ((((d.serial : Int) - today : Int) : ℝ) / 365)), yearsBetween start d⟩

private theorem snow_labels (sgn : Bool) : (Results.bsLabels ++ [lowName, highName, couponName, strikeName]).Pairwise fun a b => eqS sgn a b = false := by cases sgn <;> decide +kernel

private theorem snow_own (S : Prop) (L H C K w z : ℝ) (ys : List ℝ) (y : ℝ) : ∀ e ∈ snowCode L H C K w z ys y [1] [0, 2], OwnSs S (fun k => k = 2) e := by
  intro e he
  simp only [snowCode, List.mem_cons, List.mem_append, List.mem_map, List.not_mem_nil, or_false] at he
  rcases he with rfl | ⟨d, -, rfl⟩ | rfl
  · exact ⟨fun h => absurd h (by decide), fun h => absurd h (by decide), trivial⟩
  · exact ⟨⟨⟨fun h => absurd h (by decide), trivial⟩, trivial⟩, ⟨⟨trivial, fun h => absurd h (by decide), trivial⟩, trivial⟩, trivial⟩
  · exact ⟨⟨⟨fun h => absurd h (by decide), trivial⟩, trivial⟩, ⟨⟨trivial, fun h => absurd h (by decide), trivial⟩, trivial⟩, trivial, trivial⟩

section
variable {v : Script.PEnv ℝ} {L H C K w : ℝ} (hv : SnowEnv v L H C K w) {start maturity : Date.Date} {dates : List Date.Date}
  (hs : Dcf.Readable start) (hd : ∀ d ∈ dates, Dcf.Readable d) (hm : Dcf.Readable maturity) {cval : List Char → ℝ}

include hv hs hd hm in
/-- The table of a snowball whose first date may be today. -/
theorem snowball_report_from (sgn : Bool) (lib : Adj.Lib) (hw : 0 < w) (smooth eps : ℝ) (b : BS ℝ) (today : Nat)
    (hp : ((start :: (dates ++ [maturity])).map (·.serial)).IsChain (· < ·)) (now : Bool) (rest : List Nat)
    (hrest : (start :: (dates ++ [maturity])).map (·.serial) = serialsFrom now today rest) (hpos : ∀ d ∈ rest, today < d) (hspot : now = true → 0 < b.spot) (N threads : Nat) (gen : Gen) (ex : List ((Int × Int) × Nat)) (hrun : Runs N threads ex) :
    ∃ (first last : Script.PStmts ℝ) (watch : Date.Date → Script.PStmts ℝ) (line : List ℝ) (flags : List Bool) (q : Prepared),
      (∃ N, ∀ m, N ≤ m → Script.pEvent v m (Script.tokens snowFirst) = .ok first) ∧
      (∀ d ∈ dates, ∃ N, ∀ m, N ≤ m → Script.pEvent v m (Script.tokens (snowWatch start d)) = .ok (watch d)) ∧
      (∃ N, ∀ m, N ≤ m → Script.pEvent v m (Script.tokens (snowLast start maturity)) = .ok last) ∧
      bsAllocate (times today ((start :: (dates ++ [maturity])).map (·.serial))) = some (line, flags) ∧
      prepare true callName cval (first :: (dates.map watch ++ [last])) = some q ∧
      ∀ ω, ∃ D : Nat → ℝ, ∀ cutoff, 0 ≤ cutoff → ∃ (t : List (Str × Option ℝ)) (risks : List ℝ),
        Report.report sgn lib cutoff eps smooth callName cval (first :: (dates.map watch ++ [last])) today ((start :: (dates ++ [maturity])).map (·.serial)) b N gen threads ex ω = some t ∧
        t.Pairwise (fun a b => ltS sgn a.1 b.1 = true) ∧ risks.length = 8 ∧
        t.Perm (("PV".toList, some (simulated true gen rest.length N threads ex (fun g =>
            Snowball.smoothWorth eps w ⟨L, H, C, K⟩ (lookAt b line today start maturity g) (dates.map fun d => lookAt b line today start d g) 1) ω)) ::
          (["d_spot".toList, "d_vol".toList, "d_rate".toList, "d_div".toList, "d_KI".toList, "d_KO".toList, "d_COUPON".toList, "d_STRIKE".toList].zip (risks.map some))) ∧
        ∀ (i : Nat) (r : ℝ), risks[i]? = some r →
          |r - simulated true gen rest.length N threads ex
            (pathDeriv (q.scripted smooth eps) b [L, H, C, K] (times today ((start :: (dates ++ [maturity])).map (·.serial))) i) ω| ≤ cutoff * D i := by
  set all := (start :: (dates ++ [maturity])).map (·.serial) with hall
  have hafter : ∀ d ∈ all, today ≤ d := by
    rw [hrest]
    intro d hd
    cases now with
    | false => exact (hpos d hd).le
    | true => exact (List.mem_cons.1 hd).elim (fun h => h.ge) fun h => (hpos d h).le
  have hchain : rest.IsChain (· < ·) := by
    rw [hrest] at hp
    cases now with
    | false => exact hp
    | true => exact List.IsChain.tail hp
  have hne : all ≠ [] := by simp [hall]
  have hnn : ∀ t ∈ times today all, 0 ≤ t := by
    intro t ht
    rw [times, List.mem_map] at ht
    obtain ⟨d, hd, rfl⟩ := ht
    have := hafter d hd
    have : (0 : ℝ) ≤ (((d : Int) - today : Int) : ℝ) := by exact_mod_cast (by omega : (0 : Int) ≤ (d : Int) - today)
    positivity
  have hch : (times today all).IsChain (· < ·) := by
    rw [times, List.isChain_map]
    refine hp.imp fun a c hac => ?_
    have : (((a : Int) - today : Int) : ℝ) < (((c : Int) - today : Int) : ℝ) := by exact_mod_cast (by omega : (a : Int) - today < (c : Int) - today)
    exact div_lt_div_of_pos_right this (by norm_num)
  obtain ⟨line, flags, ha, hpath, -⟩ := bs_paths b (times today all) (by simp [times, hne]) hch hnn
  obtain ⟨q, ⟨first, last, watch, h1, h2, h3, h4⟩, -⟩ := C114_made hv hs hd hm (cval := cval) true
  refine ⟨first, last, watch, line, flags, q, h1, h2, h3, ha, h4, fun ω => ?_⟩
  have hq := snow_is hv hs hd hm ⟨first, last, watch, h1, h2, h3, h4⟩
  subst hq
  obtain ⟨D, hD⟩ := table_from sgn lib (fun k => k = 2) eps smooth callName cval _ _ h4 now (snow_own _ _ _ _ _ _ _ _ _)
    (fun _ e he => snow_own _ _ _ _ _ _ _ _ _ e (List.mem_of_mem_head? he)) rfl (snow_labels sgn) b hspot today rest (by rw [← hrest]; exact hne) hchain hpos N threads gen ex hrun ω
    (fun g => Snowball.smoothWorth eps w ⟨L, H, C, K⟩ (lookAt b line today start maturity g) (dates.map fun d => lookAt b line today start d g) 1) (by
      intro pos
      generalize numbers (window rest.length pos ω) = g
      rw [← hrest, fuzzyPath, hpath, Option.bind_some]
      have hsplit : ((times today all).map fun t => (⟨spotAt b line t g, Real.exp (b.rate * t)⟩ : Script.Sample ℝ)) =
          (⟨(lookAt b line today start start g).spot, (lookAt b line today start start g).numeraire⟩ : Script.Sample ℝ) ::
            ((dates.map fun d => ⟨(lookAt b line today start d g).spot, (lookAt b line today start d g).numeraire⟩) ++
              [⟨(lookAt b line today start maturity g).spot, (lookAt b line today start maturity g).numeraire⟩]) := by
        simp [hall, times, lookAt]
      rw [hsplit]
      obtain ⟨s', g1, g2⟩ := snow_fuzzy (fun k => [L, H, C, K].getD k 0) smooth eps L H C K w v.zero rfl rfl rfl rfl hw
        ⟨(lookAt b line today start start g).spot, (lookAt b line today start start g).numeraire⟩
        ⟨(lookAt b line today start maturity g).spot, (lookAt b line today start maturity g).numeraire⟩ (yearsBetween start maturity) (dates.map (yearsBetween start))
        (dates.map fun d => ⟨(lookAt b line today start d g).spot, (lookAt b line today start d g).numeraire⟩) (by simp)
        ⟨fun k => ([(0 : ℝ), 0, 0]).getD k 0, fun _ _ => 0, fun _ _ => 0⟩ (by funext k; match k with | 0 => rfl | 1 => rfl | 2 => rfl | k + 3 => rfl)
      show (Script.fuzzyEvents _ smooth eps ((snowCode L H C K w v.zero (dates.map (yearsBetween start)) (yearsBetween start maturity) [1] [0, 2]).zip _) _).map _ = _
      refine (congrArg (Option.map fun s : Script.FSt ℝ => s.σ 2) g1).trans ?_
      rw [Option.map_some, g2, List.zipWith_map, List.zipWith_self]
      rfl)
  rw [← hrest] at hD
  refine ⟨D, fun cutoff hc => ?_⟩
  obtain ⟨t, risks, t1, t2, t3, t4, t5⟩ := hD cutoff hc
  have hr8 : risks.length = 8 := t3
  refine ⟨t, risks, t1, t2, hr8, t4.trans (List.Perm.of_eq ?_), t5⟩
  obtain ⟨r0, r1, r2, r3, r4, r5, r6, r7, rfl⟩ : ∃ r0 r1 r2 r3 r4 r5 r6 r7, risks = [r0, r1, r2, r3, r4, r5, r6, r7] := by
    match risks, hr8 with
    | [r0, r1, r2, r3, r4, r5, r6, r7], _ => exact ⟨r0, r1, r2, r3, r4, r5, r6, r7, rfl⟩
  rfl

include hv hs hd hm in
/-- C114, the table: a valuation with sensitivities of the snowball, from its texts, has the mean of the smoothed note over the simulated paths in its row `PV`, and a row for each of the
parameters of the model and for `KI`, `KO`, `COUPON` and `STRIKE`, which is within the cutoff of the tape of the mean of the derivatives of the paths. -/
theorem C114_report (sgn : Bool) (lib : Adj.Lib) (hw : 0 < w) (smooth eps : ℝ) (b : BS ℝ) (today : Nat)
    (hp : ((start :: (dates ++ [maturity])).map (·.serial)).IsChain (· < ·)) (hpos : today < start.serial) (N threads : Nat) (gen : Gen) (ex : List ((Int × Int) × Nat)) (hrun : Runs N threads ex) :
    ∃ (first last : Script.PStmts ℝ) (watch : Date.Date → Script.PStmts ℝ) (line : List ℝ) (flags : List Bool) (q : Prepared),
      (∃ N, ∀ m, N ≤ m → Script.pEvent v m (Script.tokens snowFirst) = .ok first) ∧
      (∀ d ∈ dates, ∃ N, ∀ m, N ≤ m → Script.pEvent v m (Script.tokens (snowWatch start d)) = .ok (watch d)) ∧
      (∃ N, ∀ m, N ≤ m → Script.pEvent v m (Script.tokens (snowLast start maturity)) = .ok last) ∧
      bsAllocate (times today ((start :: (dates ++ [maturity])).map (·.serial))) = some (line, flags) ∧
      prepare true callName cval (first :: (dates.map watch ++ [last])) = some q ∧
      ∀ ω, ∃ D : Nat → ℝ, ∀ cutoff, 0 ≤ cutoff → ∃ (t : List (Str × Option ℝ)) (risks : List ℝ),
        Report.report sgn lib cutoff eps smooth callName cval (first :: (dates.map watch ++ [last])) today ((start :: (dates ++ [maturity])).map (·.serial)) b N gen threads ex ω = some t ∧
        t.Pairwise (fun a b => ltS sgn a.1 b.1 = true) ∧ risks.length = 8 ∧
        t.Perm (("PV".toList, some (simulated true gen (dates.length + 2) N threads ex (fun g =>
            Snowball.smoothWorth eps w ⟨L, H, C, K⟩ (lookAt b line today start maturity g) (dates.map fun d => lookAt b line today start d g) 1) ω)) ::
          (["d_spot".toList, "d_vol".toList, "d_rate".toList, "d_div".toList, "d_KI".toList, "d_KO".toList, "d_COUPON".toList, "d_STRIKE".toList].zip (risks.map some))) ∧
        ∀ (i : Nat) (r : ℝ), risks[i]? = some r →
          |r - simulated true gen (dates.length + 2) N threads ex
            (pathDeriv (q.scripted smooth eps) b [L, H, C, K] (times today ((start :: (dates ++ [maturity])).map (·.serial))) i) ω| ≤ cutoff * D i := by
  have hpw := List.isChain_iff_pairwise.1 hp
  have hafter : ∀ d ∈ (start :: (dates ++ [maturity])).map (·.serial), today < d := by
    intro d hd
    rw [List.map_cons] at hd hpw
    rcases List.mem_cons.1 hd with rfl | hd
    · exact hpos
    · exact hpos.trans (List.rel_of_pairwise_cons hpw hd)
  have h := snowball_report_from hv hs hd hm (cval := cval) sgn lib hw smooth eps b today hp false ((start :: (dates ++ [maturity])).map (·.serial)) rfl hafter (fun h => by cases h) N threads gen ex hrun
  rwa [show ((start :: (dates ++ [maturity])).map (·.serial)).length = dates.length + 2 by simp] at h

end

private def demoRun : List ((Int × Int) × Nat) := [((1024, 976), 1), ((0, 1024), 0)]
private theorem demo_runs : Runs 2000 2 demoRun := ⟨by decide, by decide, ⟨[(0, 1024), (1024, 976)], by decide +kernel, List.Perm.swap _ _ _⟩, by decide⟩

/-- The table of a snowball with one date before maturity. -/
example (sgn : Bool) (lib : Adj.Lib) (ω : ℕ → ℝ) : ∃ first watch last t risks, Report.report sgn lib 0 (2 / 10 ^ 14) 0.01 callName (fun _ => 0) [first, watch, last] 10000
    [(Date.mk' 2023 5 1).serial, (Date.mk' 2023 6 1).serial, (Date.mk' 2025 3 1).serial] (⟨1, 0.03, 0.01, 0.2⟩ : BS ℝ) 2000 .mrg 2 demoRun ω = some t ∧ (risks : List ℝ).length = 8 := by
  have hch : [(Date.mk' 2023 5 1).serial, (Date.mk' 2023 6 1).serial, (Date.mk' 2025 3 1).serial].Pairwise (· < ·) := by decide +kernel
  have h0 : 10000 < (Date.mk' 2023 5 1).serial := by decide +kernel
  obtain ⟨a, c, w, _, _, _, -, -, -, -, -, h⟩ := C114_report Snowball.demo_env (start := Date.mk' 2023 5 1) (maturity := Date.mk' 2025 3 1) (dates := [Date.mk' 2023 6 1])
    (Snowball.demo_dates _ (by simp)) (by intro d hd; exact Snowball.demo_dates d (by simp at hd; simp [hd])) (Snowball.demo_dates _ (by simp)) (cval := fun _ => 0) sgn lib (by norm_num) 0.01
    (2 / 10 ^ 14) (⟨1, 0.03, 0.01, 0.2⟩ : BS ℝ) 10000 (List.isChain_iff_pairwise.2 hch) h0 2000 2 .mrg demoRun demo_runs
  obtain ⟨D, hD⟩ := h ω
  obtain ⟨t, risks, h1, -, h2, -⟩ := hD 0 le_rfl
  exact ⟨a, _, c, t, risks, h1, h2⟩

end Dal
