import Verif.Sim.SnowballLemmas

/-! # C114: the snowball script -/

namespace Dal
open Dal.Report Dal.Seasoned Dal.Snowball

/-! ### One date by names -/

section
variable {ν : Type} [DecidableEq ν] {x y p : ν} (hxy : x ≠ y) (hxp : x ≠ p) (hyp : y ≠ p) (l h c k : ν) (L H C K w z d : ℝ)

open Classical in
include hxy hxp hyp in
private theorem look_run (N S : ℝ) (τ : ν → ℝ) :
    runs (some N) S (snowLook x y p l h c L H C w z d [] []) τ x = (if H < S then 0 else τ x) ∧
    runs (some N) S (snowLook x y p l h c L H C w z d [] []) τ y = (if S < L then 1 else τ y) ∧
    runs (some N) S (snowLook x y p l h c L H C w z d [] []) τ p = τ p + τ x * (if H < S then C * d / N else 0) := by
  by_cases h1 : S < L <;> by_cases h2 : H < S <;>
    simp [snowLook, snowLow, snowHigh, runs, run, holds, value, h1, h2, hxy, hxp, hyp, hxy.symm, hxp.symm, hyp.symm, Function.update_apply] <;> ring

open Classical in
include hxy hxp hyp in
private theorem end_run (N S : ℝ) (τ : ν → ℝ) :
    runs (some N) S (snowEnd x y p l h c k L H C K w z d [] []) τ p =
      (fun τ' : ν → ℝ => τ' p + (τ' x * τ' y * (S - K) + τ' x * (1 - τ' y) * C * d) / N) (runs (some N) S (snowLook x y p l h c L H C w z d [] []) τ) := by
  simp [snowLook, snowEnd, snowPay, runs, run, value]

open Classical in
include hxy hxp hyp in
private theorem looks_run : ∀ (ds : List Look) (τ : ν → ℝ),
    story (ds.map fun e => (snowLook x y p l h c L H C w z e.years [] [], e.spot, some e.numeraire)) τ x = (if ∃ e ∈ ds, H < e.spot then 0 else τ x) ∧
    story (ds.map fun e => (snowLook x y p l h c L H C w z e.years [] [], e.spot, some e.numeraire)) τ y = (if ∃ e ∈ ds, e.spot < L then 1 else τ y) ∧
    story (ds.map fun e => (snowLook x y p l h c L H C w z e.years [] [], e.spot, some e.numeraire)) τ p =
      τ p + τ x * (match ds.find? (fun e => H < e.spot) with | some e => C * e.years / e.numeraire | none => 0)
  | [], τ => by simp [story]
  | e :: ds, τ => by
    obtain ⟨i1, i2, i3⟩ := looks_run ds (runs (some e.numeraire) e.spot (snowLook x y p l h c L H C w z e.years [] []) τ)
    obtain ⟨j1, j2, j3⟩ := look_run hxy hxp hyp l h c L H C w z e.years e.numeraire e.spot τ
    rw [List.map_cons]
    have hs : ∀ rest : List (Happened ν), story ((snowLook x y p l h c L H C w z e.years [] [], e.spot, some e.numeraire) :: rest) τ =
      story rest (runs (some e.numeraire) e.spot (snowLook x y p l h c L H C w z e.years [] []) τ) := fun _ => rfl
    rw [hs, i1, i2, i3, j1, j2, j3, List.find?_cons]
    refine ⟨?_, ?_, ?_⟩
    · by_cases h1 : H < e.spot
      · simp [h1]
      · simp [h1]
    · by_cases h1 : e.spot < L
      · simp [h1]
      · simp [h1]
    · by_cases h1 : H < e.spot
      · simp [h1]
      · simp [h1]

end

private theorem look_read {ν : Type} [DecidableEq ν] {x y p : ν} (hxy : x ≠ y) (hxp : x ≠ p) (hyp : y ≠ p) (l h c k : ν) (L H C K w z : ℝ) (s0 : Script.Sample ℝ) (ds : List Look) (e : Look) :
    story ((snowStart x y, s0.spot, some s0.numeraire) :: ((ds.map fun e => ((snowLook x y p l h c L H C w z e.years [] [] : Script.Stmts ν ℝ), e.spot, some e.numeraire)) ++
      [(snowEnd x y p l h c k L H C K w z e.years [] [], e.spot, some e.numeraire)])) (fun _ => 0) p = Snowball.worth ⟨L, H, C, K⟩ ds e := by
  classical
  set τ : ν → ℝ := runs (some s0.numeraire) s0.spot (snowStart x y) (fun _ => 0) with hτ
  have t1 : τ x = 1 := by simp [hτ, snowStart, runs, run, value, Function.update_apply, hxy]
  have t2 : τ y = 0 := by simp [hτ, snowStart, runs, run, value, Function.update_apply]
  have t3 : τ p = 0 := by simp [hτ, snowStart, runs, run, value, Function.update_apply, hxp.symm, hyp.symm]
  have e1 : ∀ rest : List (Happened ν), story ((snowStart x y, s0.spot, some s0.numeraire) :: rest) (fun _ => 0) = story rest τ := fun _ => rfl
  have e2 : ∀ (a : List (Happened ν)) (b : Happened ν) (σ : ν → ℝ), story (a ++ [b]) σ = runs b.2.2 b.2.1 b.1 (story a σ) := by
    intro a b σ
    rw [story, List.foldl_append]
    rfl
  rw [e1, e2]
  dsimp only
  rw [end_run hxy hxp hyp]
  have e3 : runs (some e.numeraire) e.spot (snowLook x y p l h c L H C w z e.years [] [])
      (story (ds.map fun e => ((snowLook x y p l h c L H C w z e.years [] [] : Script.Stmts ν ℝ), e.spot, some e.numeraire)) τ) =
      story ((ds ++ [e]).map fun e => ((snowLook x y p l h c L H C w z e.years [] [] : Script.Stmts ν ℝ), e.spot, some e.numeraire)) τ := by
    rw [List.map_append, List.map_singleton, e2]
  rw [e3]
  dsimp only
  obtain ⟨i1, i2, i3⟩ := looks_run hxy hxp hyp l h c L H C w z (ds ++ [e]) τ
  rw [i1, i2, i3, t1, t2, t3, Snowball.worth]
  cases hf : (ds ++ [e]).find? fun d => decide (H < d.spot) with
  | some a =>
    have h1 : ∃ d ∈ ds ++ [e], H < d.spot := ⟨a, List.mem_of_find?_eq_some hf, by simpa using List.find?_some hf⟩
    rw [if_pos h1]
    simp
  | none =>
    have h1 : ¬ ∃ d ∈ ds ++ [e], H < d.spot := by
      rintro ⟨d, hd, hh⟩
      exact absurd hh (by simpa using List.find?_eq_none.1 hf d hd)
    rw [if_neg h1]
    by_cases h2 : ∃ d ∈ ds ++ [e], d.spot < L
    · rw [if_pos h2, if_pos h2]; simp
    · rw [if_neg h2, if_neg h2]; simp

/-! ### The script -/

/-- `q` is what the texts are processed to. -/
def IsSnowball (v : Script.PEnv ℝ) (cval : List Char → ℝ) (fuzzy : Bool) (start : Date.Date) (dates : List Date.Date) (maturity : Date.Date) (q : Prepared) : Prop :=
  ∃ (first last : Script.PStmts ℝ) (watch : Date.Date → Script.PStmts ℝ),
    (∃ N, ∀ m, N ≤ m → Script.pEvent v m (Script.tokens snowFirst) = .ok first) ∧
    (∀ d ∈ dates, ∃ N, ∀ m, N ≤ m → Script.pEvent v m (Script.tokens (snowWatch start d)) = .ok (watch d)) ∧
    (∃ N, ∀ m, N ≤ m → Script.pEvent v m (Script.tokens (snowLast start maturity)) = .ok last) ∧
    prepare fuzzy callName cval (first :: (dates.map watch ++ [last])) = some q

/-- The dates of a path. -/
noncomputable def looks (start : Date.Date) (dates : List Date.Date) (ws : List (Script.Sample ℝ)) : List Look :=
  List.zipWith (fun d s => ⟨s.spot, s.numeraire, yearsBetween start d⟩) dates ws

private theorem parsed_one {v : Script.PEnv ℝ} {l : List Script.Tok} {a b : Script.PStmts ℝ} (h1 : ∃ N, ∀ m, N ≤ m → Script.pEvent v m l = .ok a)
    (h2 : ∃ N, ∀ m, N ≤ m → Script.pEvent v m l = .ok b) : a = b := by
  obtain ⟨N, h1⟩ := h1
  obtain ⟨M, h2⟩ := h2
  have := (h1 (max N M) (le_max_left _ _)).symm.trans (h2 (max N M) (le_max_right _ _))
  injection this

section
variable {v : Script.PEnv ℝ} {L H C K w : ℝ} (hv : SnowEnv v L H C K w) {start maturity : Date.Date} {dates : List Date.Date}
  (hs : Dcf.Readable start) (hd : ∀ d ∈ dates, Dcf.Readable d) (hm : Dcf.Readable maturity)
  {cval : List Char → ℝ} (hc : ∀ n c, v.cvs n = some c → cval n = c)

private theorem snow_tame (z : ℝ) (ys : List ℝ) (y : ℝ) : ∀ e ∈ snowProg L H C K w z ys y, Tames e := by
  intro e he
  simp only [snowProg, List.mem_cons, List.mem_append, List.mem_map, List.mem_singleton, List.not_mem_nil, or_false] at he
  rcases he with rfl | ⟨d, -, rfl⟩ | rfl <;> simp [snowStart, snowLook, snowEnd, snowLow, snowHigh, snowPay, Tames, Tame, TameC, TameE]

private theorem snow_names (z : ℝ) (ys : List ℝ) (y : ℝ) : (callName, none) ∈ (snowProg L H C K w z ys y).flatMap (Script.Stmts.names cval) := by
  refine List.mem_flatMap.2 ⟨snowEnd aliveName kiName callName lowName highName couponName strikeName L H C K w z y [] [], by simp [snowProg], ?_⟩
  simp [snowEnd, snowPay, Script.Stmts.names, Script.Stmt.names, Script.Lhs.names]

include hv hc in
private theorem snow_agree (z : ℝ) (ys : List ℝ) (y : ℝ) : Script.Agree cval ((snowProg L H C K w z ys y).flatMap (Script.Stmts.names cval)) := by
  intro n c hn
  have l1 := hc _ _ hv.low
  have l2 := hc _ _ hv.high
  have l3 := hc _ _ hv.coupon
  have l4 := hc _ _ hv.strike
  obtain ⟨e, he, hn⟩ := List.mem_flatMap.1 hn
  simp only [snowProg, List.mem_cons, List.mem_append, List.mem_map, List.mem_singleton, List.not_mem_nil, or_false] at he
  rcases he with rfl | ⟨d, -, rfl⟩ | rfl
  · simp [snowStart, Script.Stmts.names, Script.Stmt.names, Script.Lhs.names, Script.Expr.names] at hn
  · simp [snowLook, snowLow, snowHigh, Script.Stmts.names, Script.Stmt.names, Script.Lhs.names, Script.Expr.names, Script.Cond.names] at hn
    rcases hn with ⟨rfl, rfl⟩ | ⟨rfl, rfl⟩ | ⟨rfl, rfl⟩
    exacts [l1.symm, l2.symm, l3.symm]
  · simp [snowEnd, snowPay, snowLow, snowHigh, Script.Stmts.names, Script.Stmt.names, Script.Lhs.names, Script.Expr.names, Script.Cond.names] at hn
    rcases hn with ⟨rfl, rfl⟩ | ⟨rfl, rfl⟩ | ⟨rfl, rfl⟩ | ⟨rfl, rfl⟩ | ⟨rfl, rfl⟩
    exacts [l1.symm, l2.symm, l3.symm, l4.symm, l3.symm]

include hv hs hd hm in
/-- The trees. -/
theorem snow_progs {fuzzy : Bool} {q : Prepared} (h : IsSnowball v cval fuzzy start dates maturity q) :
    prepare fuzzy callName cval (snowProg L H C K w v.zero (dates.map (yearsBetween start)) (yearsBetween start maturity)) = some q := by
  obtain ⟨first, last, watch, h1, h2, h3, h4⟩ := h
  rw [parsed_one h1 (snow_start_parsed hv), parsed_one h3 (snow_last_parsed hv hs hm)] at h4
  rw [snowProg, List.map_map]
  rw [List.map_congr_left (g := (fun d => snowLook aliveName kiName callName lowName highName couponName L H C w v.zero d [] []) ∘ yearsBetween start)] at h4
  · exact h4
  · intro d hdd
    exact parsed_one (h2 d hdd) (snow_watch_parsed hv hs (hd d hdd))

include hv hs hd hm in
/-- The processed product. -/
theorem snow_is {fuzzy : Bool} {q : Prepared} (h : IsSnowball v cval fuzzy start dates maturity q) :
    q = ⟨[some aliveName, some kiName, some callName], [lowName, highName, couponName, strikeName], [L, H, C, K], 2,
      snowCode L H C K w v.zero (dates.map (yearsBetween start)) (yearsBetween start maturity) [1] [0, 2], 1⟩ := snow_prepared (snow_progs hv hs hd hm h)

include hv hs hd hm in
/-- C114: the texts are parsed and processed, however many dates there are. -/
theorem C114_made (fuzzy : Bool) : ∃ q, IsSnowball v cval fuzzy start dates maturity q ∧ q.events.length = dates.length + 2 := by
  obtain ⟨q, h1, h2⟩ := C113_prepared fuzzy callName cval (snowProg L H C K w v.zero (dates.map (yearsBetween start)) (yearsBetween start maturity)) (snow_tame _ _ _) ⟨_, snow_names _ _ _⟩
  refine ⟨q, ⟨_, _, fun d => snowLook aliveName kiName callName lowName highName couponName L H C w v.zero (yearsBetween start d) [] [], snow_start_parsed hv,
    fun d hdd => snow_watch_parsed hv hs (hd d hdd), snow_last_parsed hv hs hm, ?_⟩, ?_⟩
  · rw [← h1, snowProg, List.map_map]
    rfl
  · rw [h2]
    simp [snowProg]

include hv hs hd hm hc in
/-- C114, exactly: on every path the script is worth what the note is worth. -/
theorem C114_exact {fuzzy : Bool} {q : Prepared} (h : IsSnowball v cval fuzzy start dates maturity q) (s0 : Script.Sample ℝ) (ws : List (Script.Sample ℝ)) (hn : ws.length = dates.length)
    (sT : Script.Sample ℝ) (hpos : ∀ s ∈ s0 :: (ws ++ [sT]), 0 < s.numeraire) :
    exactOn q (s0 :: (ws ++ [sT])) = Snowball.worth ⟨L, H, C, K⟩ (looks start dates ws) ⟨sT.spot, sT.numeraire, yearsBetween start maturity⟩ := by
  obtain ⟨q', h1, -, h3⟩ := C113_value fuzzy callName cval (snowProg L H C K w v.zero (dates.map (yearsBetween start)) (yearsBetween start maturity)) (snow_tame _ _ _) (snow_names _ _ _)
    (snow_agree hv hc _ _ _)
  have hq : q' = q := Option.some.inj (h1.symm.trans (snow_progs hv hs hd hm h))
  subst hq
  rw [exactOn, h3 _ (by simp [snowProg, hn]) hpos, ← look_read (x := aliveName) (y := kiName) (p := callName) (by decide) (by decide) (by decide) lowName highName couponName strikeName
    L H C K w v.zero s0 (looks start dates ws) ⟨sT.spot, sT.numeraire, yearsBetween start maturity⟩, Seasoned.worth]
  congr 1
  simp only [before, after, List.zip_nil_left, List.map_nil, List.nil_append, snowProg, List.zip_cons_cons, List.map_cons, List.map_map]
  rw [List.zip_append (by simp [hn]), List.map_append]
  congr 2
  rw [looks, List.zip_map_left, List.map_map, List.map_zipWith, List.zip, List.map_zipWith]
  rfl

include hv hs hd hm in
/-- C114, smoothed: on every path the script is worth what the smoothed note is worth; each date is smoothed with the width of the text, whatever the default width. -/
theorem C114_smooth {fuzzy : Bool} {q : Prepared} (h : IsSnowball v cval fuzzy start dates maturity q) (hw : 0 < w) (d eps : ℝ) (s0 : Script.Sample ℝ) (ws : List (Script.Sample ℝ))
    (hn : ws.length = dates.length) (sT : Script.Sample ℝ) :
    smoothOn d eps q (s0 :: (ws ++ [sT])) =
      some (Snowball.smoothWorth eps w ⟨L, H, C, K⟩ ⟨sT.spot, sT.numeraire, yearsBetween start maturity⟩ (looks start dates ws) 1) := by
  rw [snow_is hv hs hd hm h, smoothOn]
  dsimp only
  obtain ⟨s', h1, h2⟩ := snow_fuzzy (fun k => [L, H, C, K].getD k 0) d eps L H C K w v.zero rfl rfl rfl rfl hw s0 sT (yearsBetween start maturity) (dates.map (yearsBetween start)) ws
    (by rw [hn, List.length_map]) ⟨fun _ => 0, fun _ _ => 0, fun _ _ => 0⟩ rfl
  rw [h1, Option.map_some, h2, List.zipWith_map_left]
  rfl

end

/-! ### What follows on a path -/

private theorem left_unit {eps w : ℝ} (hw : 0 < w) (x : ℝ) : 0 ≤ Barrier.left eps w x ∧ Barrier.left eps w x ≤ 1 := by
  have hr : 0 ≤ Barrier.degree w x ∧ Barrier.degree w x ≤ 1 := by
    rw [Barrier.degree]
    split_ifs with h1 h2
    · simp
    · simp
    · exact ⟨div_nonneg (by linarith) hw.le, by rw [div_le_one hw]; linarith⟩
  rw [Barrier.left]
  split_ifs
  · simp
  · simp
  · constructor <;> linarith

private theorem left_far {eps w x : ℝ} (he : 0 ≤ eps) (he1 : eps ≤ 1) (hw : 0 < w) (hx : w / 2 < |x|) : Barrier.left eps w x = if 0 < x then 0 else 1 := by
  rcases lt_abs.1 hx with h | h
  · have hd : Barrier.degree w x = 1 := by rw [Barrier.degree, if_neg (by linarith), if_pos h]
    rw [Barrier.left, hd, if_pos (show 0 < x by linarith)]
    split_ifs
    · rfl
    · linarith
    · norm_num
  · have hd : Barrier.degree w x = 0 := by rw [Barrier.degree, if_pos (by linarith)]
    rw [Barrier.left, hd, if_neg (by linarith), if_neg (show ¬ 0 < x by linarith)]
    split_ifs <;> norm_num

private theorem mix {a x y lo hi : ℝ} (h0 : 0 ≤ a) (h1 : a ≤ 1) (hx : lo ≤ x ∧ x ≤ hi) (hy : lo ≤ y ∧ y ≤ hi) : lo ≤ (1 - a) * x + a * y ∧ (1 - a) * x + a * y ≤ hi := by
  constructor
  · nlinarith [mul_nonneg h0 (sub_nonneg.2 hy.1), mul_nonneg (sub_nonneg.2 h1) (sub_nonneg.2 hx.1)]
  · nlinarith [mul_nonneg h0 (sub_nonneg.2 hy.2), mul_nonneg (sub_nonneg.2 h1) (sub_nonneg.2 hx.2)]

/-- The smoothed note is worth an average of what it may pay. -/
theorem Snowball.smooth_average {eps w lo hi : ℝ} (hw : 0 < w) (t : Terms) (last : Look) (hl : lo ≤ t.coupon * last.years / last.numeraire ∧ t.coupon * last.years / last.numeraire ≤ hi)
    (hk : lo ≤ (last.spot - t.strike) / last.numeraire ∧ (last.spot - t.strike) / last.numeraire ≤ hi) : ∀ (ds : List Look) (free : ℝ), 0 ≤ free → free ≤ 1 →
    (∀ d ∈ ds, lo ≤ t.coupon * d.years / d.numeraire ∧ t.coupon * d.years / d.numeraire ≤ hi) → lo ≤ smoothWorth eps w t last ds free ∧ smoothWorth eps w t last ds free ≤ hi := by
  intro ds
  induction ds with
  | nil =>
    intro free f0 f1 _
    have g := left_unit (eps := eps) hw (t.lower - last.spot)
    have g' := left_unit (eps := eps) hw (last.spot - t.upper)
    rw [smoothWorth]
    refine mix g'.1 g'.2 hl (mix (mul_nonneg f0 g.1) (mul_le_one₀ f1 g.1 g.2) hk hl)
  | cons d ds ih =>
    intro free f0 f1 hd
    have g := left_unit (eps := eps) hw (t.lower - d.spot)
    have g' := left_unit (eps := eps) hw (d.spot - t.upper)
    rw [smoothWorth]
    exact mix g'.1 g'.2 (hd d (by simp)) (ih _ (mul_nonneg f0 g.1) (mul_le_one₀ f1 g.1 g.2) fun x hx => hd x (by simp [hx]))

open Classical in
private theorem smooth_far_from {eps w : ℝ} (he : 0 ≤ eps) (he1 : eps ≤ 1) (hw : 0 < w) (t : Terms) (last : Look) : ∀ (ds : List Look) (kn : Prop) (free : ℝ), (kn → free = 0) → (¬ kn → free = 1) →
    (∀ d ∈ ds ++ [last], w / 2 < |d.spot - t.upper| ∧ w / 2 < |t.lower - d.spot|) →
    smoothWorth eps w t last ds free =
      match (ds ++ [last]).find? (fun d => t.upper < d.spot) with
      | some d => t.coupon * d.years / d.numeraire
      | none =>
        if kn ∨ ∃ d ∈ ds ++ [last], d.spot < t.lower then (last.spot - t.strike) / last.numeraire else t.coupon * last.years / last.numeraire := by
  intro ds
  induction ds with
  | nil =>
    intro kn free k0 k1 h
    obtain ⟨h1, h2⟩ := h last (by simp)
    rw [smoothWorth, left_far he he1 hw h1, left_far he he1 hw h2, List.nil_append, List.find?_cons]
    by_cases g1 : t.upper < last.spot <;> by_cases g2 : last.spot < t.lower <;> by_cases g3 : kn <;> simp [g1, g2, g3, k0, k1]
  | cons d ds ih =>
    intro kn free k0 k1 h
    obtain ⟨h1, h2⟩ := h d (by simp)
    rw [smoothWorth, left_far he he1 hw h1, left_far he he1 hw h2, ih (kn ∨ d.spot < t.lower) (free * if 0 < t.lower - d.spot then 0 else 1)
      (by rintro (g | g)
          · rw [k0 g, zero_mul]
          · rw [if_pos (by linarith), mul_zero])
      (by intro g
          rw [not_or] at g
          rw [k1 g.1, if_neg (by linarith [not_lt.1 g.2]), mul_one]) (fun x hx => h x (by simp at hx ⊢; tauto)), List.cons_append, List.find?_cons]
    by_cases g1 : t.upper < d.spot
    · simp [g1]
    · simp [g1, or_assoc]

/-- Away from the levels, smoothing changes nothing. -/
theorem Snowball.smooth_far {eps w : ℝ} (he : 0 ≤ eps) (he1 : eps ≤ 1) (hw : 0 < w) (t : Terms) (last : Look) (ds : List Look)
    (h : ∀ d ∈ ds ++ [last], w / 2 < |d.spot - t.upper| ∧ w / 2 < |t.lower - d.spot|) : smoothWorth eps w t last ds 1 = Snowball.worth t ds last := by
  have := smooth_far_from he he1 hw t last ds False 1 (fun h => h.elim) (fun _ => rfl) h
  rw [this, Snowball.worth]
  simp only [false_or]
  congr!

section
variable {v : Script.PEnv ℝ} {L H C K w : ℝ} (hv : SnowEnv v L H C K w) {start maturity : Date.Date} {dates : List Date.Date}
  (hs : Dcf.Readable start) (hd : ∀ d ∈ dates, Dcf.Readable d) (hm : Dcf.Readable maturity)
  {cval : List Char → ℝ}

include hv hs hd hm in
/-- C114: smoothed, the script is worth no less and no more than it may pay at all: the coupon at one of the dates, or the loss at maturity. -/
theorem C114_average {fuzzy : Bool} {q : Prepared} (h : IsSnowball v cval fuzzy start dates maturity q) (hw : 0 < w) (d eps lo hi : ℝ) (s0 : Script.Sample ℝ) (ws : List (Script.Sample ℝ))
    (hn : ws.length = dates.length) (sT : Script.Sample ℝ)
    (hl : ∀ e ∈ looks start dates ws ++ [⟨sT.spot, sT.numeraire, yearsBetween start maturity⟩], lo ≤ C * e.years / e.numeraire ∧ C * e.years / e.numeraire ≤ hi)
    (hk : lo ≤ (sT.spot - K) / sT.numeraire ∧ (sT.spot - K) / sT.numeraire ≤ hi) :
    ∃ x, smoothOn d eps q (s0 :: (ws ++ [sT])) = some x ∧ lo ≤ x ∧ x ≤ hi :=
  ⟨_, C114_smooth hv hs hd hm h hw d eps s0 ws hn sT, smooth_average hw ⟨L, H, C, K⟩ ⟨sT.spot, sT.numeraire, yearsBetween start maturity⟩ (hl _ (by simp)) hk _ 1 zero_le_one le_rfl
    fun e he => hl e (by simp [he])⟩

include hv hs hd hm in
/-- C114: on a path that never comes within half a width of a level, the smoothed value is the exact one. -/
theorem C114_far (hc : ∀ n c, v.cvs n = some c → cval n = c) {fuzzy : Bool} {q : Prepared} (h : IsSnowball v cval fuzzy start dates maturity q) (hw : 0 < w) (d eps : ℝ)
    (he : 0 ≤ eps) (he1 : eps ≤ 1) (s0 : Script.Sample ℝ) (ws : List (Script.Sample ℝ)) (hn : ws.length = dates.length) (sT : Script.Sample ℝ)
    (hpos : ∀ s ∈ s0 :: (ws ++ [sT]), 0 < s.numeraire) (hf : ∀ s ∈ ws ++ [sT], w / 2 < |s.spot - H| ∧ w / 2 < |s.spot - L|) :
    smoothOn d eps q (s0 :: (ws ++ [sT])) = some (exactOn q (s0 :: (ws ++ [sT]))) := by
  rw [C114_smooth hv hs hd hm h hw d eps s0 ws hn sT, C114_exact hv hs hd hm hc h s0 ws hn sT hpos]
  congr 1
  refine smooth_far he he1 hw ⟨L, H, C, K⟩ _ _ fun e hx => ?_
  rw [abs_sub_comm (Terms.lower _) e.spot]
  rcases List.mem_append.1 hx with hx | hx
  · rw [looks, List.mem_iff_getElem?] at hx
    obtain ⟨i, hi⟩ := hx
    rw [List.getElem?_zipWith] at hi
    cases h1 : dates[i]? with
    | none => rw [h1] at hi; cases hi
    | some a =>
      cases h2 : ws[i]? with
      | none => rw [h1, h2] at hi; cases hi
      | some b =>
        rw [h1, h2] at hi
        rw [← Option.some.inj hi]
        exact hf b (List.mem_append_left _ (List.mem_of_getElem? h2))
  · rw [List.mem_singleton.1 hx]
    exact hf sT (by simp)

end

/-! ### An example -/

/-- The constants of the example, with a spot of one as strike. -/
noncomputable def Snowball.demoEnv : Script.PEnv ℝ where
  toD
    | .num s => if s = ['0'] then some 0 else if s = ['1'] then some 1 else if s = "1.000000".toList then some 1 else if s = "0.001".toList then some 0.001 else none
    | _ => none
  cvs s := if s = lowName then some 0.88 else if s = highName then some 1 else if s = couponName then some 0.069 else if s = strikeName then some 1 else none
  dcf := Dcf.parse fun n s t => (Dcf.fraction true 0 n s t).map (Option.map fun r : Rat => (r : ℝ))
  eps0 := -1
  zero := 0

theorem Snowball.demo_env : SnowEnv Snowball.demoEnv 0.88 1 0.069 1 0.001 where
  alive := by rw [Snowball.demoEnv]; dsimp only; rw [if_neg (by decide), if_neg (by decide), if_neg (by decide), if_neg (by decide)]
  ki := by rw [Snowball.demoEnv]; dsimp only; rw [if_neg (by decide), if_neg (by decide), if_neg (by decide), if_neg (by decide)]
  call := by rw [Snowball.demoEnv]; dsimp only; rw [if_neg (by decide), if_neg (by decide), if_neg (by decide), if_neg (by decide)]
  low := by rw [Snowball.demoEnv]; dsimp only; rw [if_pos rfl]
  high := by rw [Snowball.demoEnv]; dsimp only; rw [if_neg (by decide), if_pos rfl]
  coupon := by rw [Snowball.demoEnv]; dsimp only; rw [if_neg (by decide), if_neg (by decide), if_pos rfl]
  strike := by rw [Snowball.demoEnv]; dsimp only; rw [if_neg (by decide), if_neg (by decide), if_neg (by decide), if_pos rfl]
  zero := by rw [Snowball.demoEnv]; dsimp only; rw [if_pos rfl]
  one := by rw [Snowball.demoEnv]; dsimp only; rw [if_neg (by decide), if_pos rfl]
  onePoint := by rw [Snowball.demoEnv]; dsimp only; rw [if_neg (by decide), if_neg (by decide), if_pos rfl]
  width := by rw [Snowball.demoEnv]; dsimp only; rw [if_neg (by decide), if_neg (by decide), if_neg (by decide), if_pos rfl]
  dcf := ⟨true, 0, rfl⟩

theorem Snowball.demo_dates : ∀ d ∈ [Date.mk' 2023 5 1, Date.mk' 2023 6 1, Date.mk' 2025 3 1], Dcf.Readable d := by
  have hv : ∀ d ∈ [Date.mk' 2023 5 1, Date.mk' 2023 6 1, Date.mk' 2025 3 1], d.Valid ∧ Date.year d < 2034 := by decide +kernel
  exact fun d hd => ⟨(hv d hd).1, Or.inl (Or.inl (hv d hd).2)⟩

/-- Called a month after the start; the spot at maturity does not matter any more. -/
example : ∃ q, IsSnowball Snowball.demoEnv (fun s => (Snowball.demoEnv.cvs s).getD 0) true (Date.mk' 2023 5 1) [Date.mk' 2023 6 1] (Date.mk' 2025 3 1) q ∧
    exactOn q [⟨1, 1⟩, ⟨1.01, 1⟩, ⟨0.5, 1⟩] = 0.069 * (31 / 365) := by
  obtain ⟨q, hq, -⟩ := C114_made Snowball.demo_env (start := Date.mk' 2023 5 1) (maturity := Date.mk' 2025 3 1) (dates := [Date.mk' 2023 6 1]) (demo_dates _ (by simp))
    (by intro d hd; exact demo_dates d (by simp at hd; simp [hd])) (demo_dates _ (by simp)) (cval := fun s => (Snowball.demoEnv.cvs s).getD 0) true
  refine ⟨q, hq, ?_⟩
  have := C114_exact Snowball.demo_env (demo_dates _ (by simp)) (by intro d hd; exact demo_dates d (by simp at hd; simp [hd])) (demo_dates _ (by simp))
    (by intro n c h; rw [h]; rfl) hq ⟨1, 1⟩ [⟨1.01, 1⟩] rfl ⟨0.5, 1⟩ (by intro s hs; simp at hs; rcases hs with rfl | rfl | rfl <;> norm_num)
  refine this.trans ?_
  have hy : (Date.mk' 2023 6 1).serial = (Date.mk' 2023 5 1).serial + 31 := by decide +kernel
  have hy' : yearsBetween (Date.mk' 2023 5 1) (Date.mk' 2023 6 1) = 31 / 365 := by
    rw [yearsBetween]
    have : (((Date.mk' 2023 6 1).serial : ℝ) - (Date.mk' 2023 5 1).serial) = 31 := by rw [hy]; push_cast; ring
    rw [this]
  norm_num [Snowball.worth, looks, hy']

end Dal
