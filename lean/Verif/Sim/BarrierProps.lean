import Verif.Sim.BarrierLemmas

/-!
# C110: barrier options written as scripts

Specification: `Verif/Sim/BarrierSpec.lean`, which speaks of spots only.  The product is made from its texts by the tokenizer, the parser and `PreProcess`.
-/

namespace Dal
open Dal.Report Dal.Models Dal.TimeLine Dal.Numeric Dal.Barrier MeasureTheory ProbabilityTheory

/-- `q` is the processed product that the texts of a barrier option make, with `n` dates between the first and maturity; `twice` if maturity is also a date of the schedule. -/
def IsBarrier (v : Script.PEnv ℝ) (cval : List Char → ℝ) (kin twice fuzzy : Bool) (n : Nat) (q : Prepared) : Prop :=
  ∃ start watch last : Script.PStmts ℝ,
    (∃ N, ∀ m, N ≤ m → Script.pEvent v m (Script.tokens (firstText kin)) = .ok start) ∧
    (∃ N, ∀ m, N ≤ m → Script.pEvent v m (Script.tokens (watchText kin)) = .ok watch) ∧
    (∃ N, ∀ m, N ≤ m → Script.pEvent v m (Script.tokens (lastText kin twice)) = .ok last) ∧
    prepare fuzzy callName cval (start :: (List.replicate n watch ++ [last])) = some q

/-- The exact value of a product on a path. -/
noncomputable def exactOn (q : Prepared) (path : List (Script.Sample ℝ)) : ℝ :=
  Script.evaluate realOps (fun k => q.values.getD k 0) (q.events.zip path) (fun _ => 0) q.payoff

/-- The smoothed value of a product on a path, with the default width `d`. -/
noncomputable def smoothOn (d eps : ℝ) (q : Prepared) (path : List (Script.Sample ℝ)) : Option ℝ :=
  (Script.fuzzyEvents (fun k => q.values.getD k 0) d eps (q.events.zip path) ⟨fun _ => 0, fun _ _ => 0, fun _ _ => 0⟩).map fun s => s.σ q.payoff

private theorem parsed_unique {v : Script.PEnv ℝ} {l : List Script.Tok} {a b : Script.PStmts ℝ} (h1 : ∃ N, ∀ m, N ≤ m → Script.pEvent v m l = .ok a)
    (h2 : ∃ N, ∀ m, N ≤ m → Script.pEvent v m l = .ok b) : a = b := by
  obtain ⟨N, h1⟩ := h1
  obtain ⟨M, h2⟩ := h2
  have := (h1 (max N M) (le_max_left _ _)).symm.trans (h2 (max N M) (le_max_right _ _))
  injection this

section
variable {v : Script.PEnv ℝ} {B K w : ℝ} (hv : BarrierEnv v B K w)
include hv

theorem Barrier.made_eq {cval : List Char → ℝ} {kin twice fuzzy : Bool} {n : Nat} {q : Prepared} (h : IsBarrier v cval kin twice fuzzy n q) :
    q = ⟨[some (flagName kin), some callName], [barrierName, strikeName], [B, K], 1, barrierCode kin twice n B K w v.zero [0], 1⟩ := by
  obtain ⟨a, b, c, h1, h2, h3, h4⟩ := h
  rw [parsed_unique h1 (start_parsed hv kin), parsed_unique h2 (watch_parsed hv kin), parsed_unique h3 (last_parsed hv kin twice)] at h4
  have h5 := barrier_prepared fuzzy kin twice cval n B K w v.zero
  rw [barrierProg, h4] at h5
  exact Option.some.inj h5

/-- C110: the texts are parsed and processed, for either kind of evaluation, with the constants in the order in which they are met. -/
theorem C110_made (cval : List Char → ℝ) (kin twice fuzzy : Bool) (n : Nat) :
    ∃ q, IsBarrier v cval kin twice fuzzy n q ∧ q.consts = [barrierName, strikeName] ∧ q.values = [B, K] ∧ q.events.length = n + 2 :=
  ⟨_, ⟨_, _, _, start_parsed hv kin, watch_parsed hv kin, last_parsed hv kin twice, barrier_prepared fuzzy kin twice cval n B K w v.zero⟩, rfl, rfl, by simp [barrierCode]⟩

/-- C110, exactly: on every path the product is worth the discounted payoff of the call, if the barrier has not (has) been reached on a date after the first, and nothing otherwise.
Whether the barrier is tested once or twice at maturity makes no difference. -/
theorem C110_exact {cval : List Char → ℝ} {kin twice fuzzy : Bool} {n : Nat} {q : Prepared} (h : IsBarrier v cval kin twice fuzzy n q) (s0 : Script.Sample ℝ) (ws : List (Script.Sample ℝ))
    (hn : ws.length = n) (sT : Script.Sample ℝ) :
    exactOn q (s0 :: (ws ++ [sT])) = worth kin B K (ws.map Script.Sample.spot ++ [sT.spot]) sT.spot sT.numeraire := by
  rw [Barrier.made_eq hv h]
  subst hn
  exact exec_code kin twice _ B K w v.zero rfl rfl s0 ws sT

/-- C110, smoothed: the value is the part that the dates leave (or have knocked in) times the discounted payoff of the call; a date counts as often as it is tested. -/
theorem C110_smooth {cval : List Char → ℝ} {kin twice fuzzy : Bool} {n : Nat} {q : Prepared} (h : IsBarrier v cval kin twice fuzzy n q) (hw : 0 < w) (d eps : ℝ)
    (s0 : Script.Sample ℝ) (ws : List (Script.Sample ℝ)) (hn : ws.length = n) (sT : Script.Sample ℝ) :
    smoothOn d eps q (s0 :: (ws ++ [sT])) =
      some (smoothWorth kin eps w B K (ws.map Script.Sample.spot ++ (if twice then [sT.spot, sT.spot] else [sT.spot])) sT.spot sT.numeraire) := by
  rw [Barrier.made_eq hv h]
  subst hn
  obtain ⟨s', h1, h2⟩ := fuzzy_code kin twice (fun k => [B, K].getD k 0) d eps B K w v.zero rfl rfl hw s0 ws sT ⟨fun _ => 0, fun _ _ => 0, fun _ _ => 0⟩ rfl
  rw [smoothOn]
  dsimp only
  rw [h1, Option.map_some, h2]
  rfl

end

/-! ### What follows on a path -/

theorem Barrier.worth_parity (B K : ℝ) (spots : List ℝ) (last num : ℝ) : worth true B K spots last num + worth false B K spots last num = max 0 (last - K) / num := by
  rw [worth, worth]
  by_cases h : Touched B spots <;> simp [h]

theorem Barrier.smooth_parity (eps w B K : ℝ) (spots : List ℝ) (last num : ℝ) :
    smoothWorth true eps w B K spots last num + smoothWorth false eps w B K spots last num = max 0 (last - K) / num := by
  rw [smoothWorth, smoothWorth]
  simp only [if_true, Bool.false_eq_true, if_false]
  ring

private theorem degree_low {w x : ℝ} (h : x < -(w / 2)) : degree w x = 0 := by rw [degree, if_pos h]

private theorem degree_high {w x : ℝ} (hw : 0 < w) (h : w / 2 ≤ x) : degree w x = 1 := by
  rw [degree, if_neg (by linarith)]
  split_ifs with h1
  · rfl
  · rw [le_antisymm (not_lt.1 h1) h]; field_simp; norm_num

private theorem degree_range {w : ℝ} (hw : 0 < w) (x : ℝ) : 0 ≤ degree w x ∧ degree w x ≤ 1 := by
  rw [degree]
  split_ifs with h1 h2
  · simp
  · simp
  · exact ⟨div_nonneg (by linarith) hw.le, by rw [div_le_one hw]; linarith⟩

private theorem left_range {eps w : ℝ} (hw : 0 < w) (x : ℝ) : 0 ≤ left eps w x ∧ left eps w x ≤ 1 := by
  have := degree_range hw x
  rw [left]
  split_ifs
  · simp
  · simp
  · constructor <;> linarith

private theorem left_low {eps w x : ℝ} (he : 0 ≤ eps) (he1 : eps ≤ 1) (h : x < -(w / 2)) : left eps w x = 1 := by
  rw [left, degree_low h, if_neg (by linarith)]
  split_ifs <;> simp

private theorem left_high {eps w x : ℝ} (he : 0 ≤ eps) (he1 : eps ≤ 1) (hw : 0 < w) (h : w / 2 ≤ x) : left eps w x = 0 := by
  rw [left, degree_high hw h]
  split_ifs with h1 h2
  · rfl
  · linarith
  · simp

private theorem alive_range {eps w : ℝ} (B : ℝ) (hw : 0 < w) : ∀ spots : List ℝ, 0 ≤ alive eps w B spots ∧ alive eps w B spots ≤ 1 := by
  intro spots
  induction spots with
  | nil => simp [alive]
  | cons s l ih =>
    have h1 := left_range (eps := eps) hw (s - B)
    rw [alive, List.map_cons, List.prod_cons]
    exact ⟨mul_nonneg h1.1 ih.1, mul_le_one₀ h1.2 ih.1 ih.2⟩

private theorem alive_low {eps w B : ℝ} (he : 0 ≤ eps) (he1 : eps ≤ 1) : ∀ spots : List ℝ, ¬ Touched (B - w / 2) spots → alive eps w B spots = 1 := by
  intro spots h
  refine List.prod_eq_one fun x hx => ?_
  obtain ⟨s, hs, rfl⟩ := List.mem_map.1 hx
  have : ¬ B - w / 2 ≤ s := fun h' => h ⟨s, hs, h'⟩
  exact left_low he he1 (by linarith)

private theorem alive_high {eps w B : ℝ} (he : 0 ≤ eps) (he1 : eps ≤ 1) (hw : 0 < w) : ∀ spots : List ℝ, Touched (B + w / 2) spots → alive eps w B spots = 0 := by
  rintro spots ⟨s, hs, h⟩
  exact List.prod_eq_zero (List.mem_map.2 ⟨s, hs, left_high he he1 hw (by linarith)⟩)

theorem Barrier.smooth_between {eps w : ℝ} (he : 0 ≤ eps) (he1 : eps ≤ 1) (hw : 0 < w) (B K : ℝ) (spots : List ℝ) (last num : ℝ) (hn : 0 < num) :
    worth false (B - w / 2) K spots last num ≤ smoothWorth false eps w B K spots last num ∧ smoothWorth false eps w B K spots last num ≤ worth false (B + w / 2) K spots last num ∧
    worth true (B + w / 2) K spots last num ≤ smoothWorth true eps w B K spots last num ∧ smoothWorth true eps w B K spots last num ≤ worth true (B - w / 2) K spots last num := by
  have hp : 0 ≤ max 0 (last - K) / num := div_nonneg (le_max_left _ _) hn.le
  have hr := alive_range (eps := eps) B hw spots
  have hlow : worth false (B - w / 2) K spots last num ≤ smoothWorth false eps w B K spots last num := by
    rw [worth, smoothWorth]
    by_cases h : Touched (B - w / 2) spots
    · simpa [h] using mul_nonneg hr.1 hp
    · simp [h, alive_low he he1 spots h]
  have hhigh : smoothWorth false eps w B K spots last num ≤ worth false (B + w / 2) K spots last num := by
    rw [worth, smoothWorth]
    by_cases h : Touched (B + w / 2) spots
    · simp [h, alive_high he he1 hw spots h]
    · simpa [h] using mul_le_of_le_one_left hp hr.2
  have p1 := worth_parity (B - w / 2) K spots last num
  have p2 := worth_parity (B + w / 2) K spots last num
  have p3 := smooth_parity eps w B K spots last num
  exact ⟨hlow, hhigh, by linarith, by linarith⟩

section
variable {v : Script.PEnv ℝ} {B K w : ℝ} (hv : BarrierEnv v B K w)
include hv

/-- C110: the option that is knocked in and the option that is knocked out are together worth the call, on every path, exactly and smoothed. -/
theorem C110_parity {cval : List Char → ℝ} {twice fuzzy : Bool} {n : Nat} {qi qo : Prepared} (hi : IsBarrier v cval true twice fuzzy n qi) (ho : IsBarrier v cval false twice fuzzy n qo)
    (hw : 0 < w) (d eps : ℝ) (s0 : Script.Sample ℝ) (ws : List (Script.Sample ℝ)) (hn : ws.length = n) (sT : Script.Sample ℝ) :
    exactOn qi (s0 :: (ws ++ [sT])) + exactOn qo (s0 :: (ws ++ [sT])) = max 0 (sT.spot - K) / sT.numeraire ∧
    ∃ x y, smoothOn d eps qi (s0 :: (ws ++ [sT])) = some x ∧ smoothOn d eps qo (s0 :: (ws ++ [sT])) = some y ∧ x + y = max 0 (sT.spot - K) / sT.numeraire := by
  refine ⟨?_, _, _, C110_smooth hv hi hw d eps s0 ws hn sT, C110_smooth hv ho hw d eps s0 ws hn sT, smooth_parity _ _ _ _ _ _ _⟩
  rw [C110_exact hv hi s0 ws hn sT, C110_exact hv ho s0 ws hn sT, worth_parity]

/-- C110: the smoothed value lies between the exact values with the barrier half a width lower and half a width higher; so it is the exact value on every path that does not come within
half a width of the barrier. -/
theorem C110_between {cval : List Char → ℝ} {kin twice fuzzy : Bool} {n : Nat} {q : Prepared} (h : IsBarrier v cval kin twice fuzzy n q) (hw : 0 < w) (d eps : ℝ) (he : 0 ≤ eps) (he1 : eps ≤ 1)
    (s0 : Script.Sample ℝ) (ws : List (Script.Sample ℝ)) (hn : ws.length = n) (sT : Script.Sample ℝ) (hnum : 0 < sT.numeraire) :
    ∃ x, smoothOn d eps q (s0 :: (ws ++ [sT])) = some x ∧
      worth kin (if kin then B + w / 2 else B - w / 2) K (ws.map Script.Sample.spot ++ [sT.spot]) sT.spot sT.numeraire ≤ x ∧
      x ≤ worth kin (if kin then B - w / 2 else B + w / 2) K (ws.map Script.Sample.spot ++ [sT.spot]) sT.spot sT.numeraire ∧
      ((∀ s ∈ ws ++ [sT], w / 2 < |s.spot - B|) → x = exactOn q (s0 :: (ws ++ [sT]))) := by
  obtain ⟨g1, g2, g3, g4⟩ := smooth_between he he1 hw B K (watched twice (ws.map Script.Sample.spot) sT.spot) sT.spot sT.numeraire hnum
  have hw' : ∀ k A, worth k A K (watched twice (ws.map Script.Sample.spot) sT.spot) sT.spot sT.numeraire = worth k A K (ws.map Script.Sample.spot ++ [sT.spot]) sT.spot sT.numeraire := by
    intro k A
    rw [worth, worth, touched_watched]
  simp only [hw'] at g1 g2 g3 g4
  have hx := C110_smooth hv h hw d eps s0 ws hn sT
  refine ⟨_, hx, ?_, ?_, fun hf => ?_⟩
  · cases kin
    · exact g1
    · exact g3
  · cases kin
    · exact g2
    · exact g4
  · have hm : ∀ s, s ∈ ws.map Script.Sample.spot ++ [sT.spot] → w / 2 < |s - B| := by
      intro s hs
      rw [List.mem_append, List.mem_map, List.mem_singleton] at hs
      rcases hs with ⟨u, hu, rfl⟩ | rfl
      · exact hf u (List.mem_append_left _ hu)
      · exact hf sT (by simp)
    have ht : ∀ A, B - w / 2 ≤ A → A ≤ B + w / 2 → (Touched A (ws.map Script.Sample.spot ++ [sT.spot]) ↔ Touched B (ws.map Script.Sample.spot ++ [sT.spot])) := by
      intro A h1 h2
      constructor
      · rintro ⟨s, hs, h3⟩
        refine ⟨s, hs, ?_⟩
        rcases lt_abs.1 (hm s hs) with h4 | h4 <;> linarith
      · rintro ⟨s, hs, h3⟩
        refine ⟨s, hs, ?_⟩
        rcases lt_abs.1 (hm s hs) with h4 | h4 <;> linarith
    rw [C110_exact hv h s0 ws hn sT]
    have e1 : ∀ k, worth k (B - w / 2) K (ws.map Script.Sample.spot ++ [sT.spot]) sT.spot sT.numeraire = worth k B K (ws.map Script.Sample.spot ++ [sT.spot]) sT.spot sT.numeraire := by
      intro k; rw [worth, worth, ht _ le_rfl (by linarith)]
    have e2 : ∀ k, worth k (B + w / 2) K (ws.map Script.Sample.spot ++ [sT.spot]) sT.spot sT.numeraire = worth k B K (ws.map Script.Sample.spot ++ [sT.spot]) sT.spot sT.numeraire := by
      intro k; rw [worth, worth, ht _ (by linarith) le_rfl]
    rw [e1] at g1 g4
    rw [e2] at g2 g3
    cases kin
    · exact le_antisymm g2 g1
    · exact le_antisymm g4 g3

/-- C110: a call that is knocked out at or below its strike is worth nothing, on every path. -/
theorem C110_worthless {cval : List Char → ℝ} {twice fuzzy : Bool} {n : Nat} {q : Prepared} (h : IsBarrier v cval false twice fuzzy n q) (hBK : B ≤ K) (s0 : Script.Sample ℝ)
    (ws : List (Script.Sample ℝ)) (hn : ws.length = n) (sT : Script.Sample ℝ) : exactOn q (s0 :: (ws ++ [sT])) = 0 := by
  rw [C110_exact hv h s0 ws hn sT, worth]
  split_ifs with ht
  · have : ¬ B ≤ sT.spot := fun hle => absurd (ht.2 ⟨_, by simp, hle⟩) (by simp)
    rw [max_eq_left (by linarith), zero_div]
  · rfl

/-- C110 (violated): smoothed, it does matter whether maturity is also a date of the schedule.  An option at the barrier at maturity is half alive if the barrier is tested once, and a
quarter alive if the texts of the schedule and of maturity are joined. -/
theorem C110_twice_violated (cval : List Char → ℝ) (n : Nat) (hw : 0 < w) (hK : K < B) (d eps : ℝ) (he : 0 ≤ eps) (he1 : eps ≤ 1 / 4) :
    ∃ (q q' : Prepared) (path : List (Script.Sample ℝ)), IsBarrier v cval false false true n q ∧ IsBarrier v cval false true true n q' ∧
      exactOn q path = exactOn q' path ∧ smoothOn d eps q path = some ((B - K) / 2) ∧ smoothOn d eps q' path = some ((B - K) / 4) ∧ (B - K) / 2 ≠ (B - K) / 4 := by
  obtain ⟨q, hq, -⟩ := C110_made hv cval false false true n
  obtain ⟨q', hq', -⟩ := C110_made hv cval false true true n
  have hl : alive eps w B (List.replicate n (B - w)) = 1 := by
    rw [alive, List.map_replicate, List.prod_replicate, show B - w - B = -w by ring, left_low he (by linarith) (by linarith), one_pow]
  have hm : left eps w 0 = 1 / 2 := by
    have hd : degree w 0 = 1 / 2 := by
      rw [degree, if_neg (by linarith), if_neg (by linarith)]; field_simp; norm_num
    rw [left, hd, if_neg (by linarith), if_neg (by linarith)]; norm_num
  have hp : max 0 (B - K) = B - K := max_eq_right (by linarith)
  refine ⟨q, q', ⟨B - w, 1⟩ :: (List.replicate n ⟨B - w, 1⟩ ++ [⟨B, 1⟩]), hq, hq', ?_, ?_, ?_, fun h => ?_⟩
  · rw [C110_exact hv hq _ _ (by simp), C110_exact hv hq' _ _ (by simp)]
  · rw [C110_smooth hv hq hw d eps _ _ (by simp)]
    have e : alive eps w B (List.replicate n (B - w) ++ [B]) = 1 / 2 := by
      have : alive eps w B (List.replicate n (B - w) ++ [B]) = alive eps w B (List.replicate n (B - w)) * left eps w (B - B) := by simp [alive]
      rw [this, hl, sub_self, hm, one_mul]
    simp only [List.map_replicate, smoothWorth, Bool.false_eq_true, if_false, e, hp]
    congr 1; ring
  · rw [C110_smooth hv hq' hw d eps _ _ (by simp)]
    have e : alive eps w B (List.replicate n (B - w) ++ [B, B]) = 1 / 4 := by
      have : alive eps w B (List.replicate n (B - w) ++ [B, B]) = alive eps w B (List.replicate n (B - w)) * (left eps w (B - B) * left eps w (B - B)) := by simp [alive]
      rw [this, hl, sub_self, hm, one_mul]; norm_num
    simp only [List.map_replicate, smoothWorth, Bool.false_eq_true, if_false, if_true, e, hp]
    congr 1; ring
  · linarith

end

/-! ### Examples -/

/-- A barrier at 150 and a strike at 100, with the width 0.1 of the texts. -/
noncomputable def Barrier.demoEnv : Script.PEnv ℝ :=
  ⟨fun t => match t with | .num ['0'] => some 0 | .num ['1'] => some 1 | .num ['0', '.', '0'] => some 0 | .num ['0', '.', '1'] => some 0.1 | _ => none,
    fun s => if s = barrierName then some 150 else if s = strikeName then some 100 else none, fun _ _ => some none, -1, 0⟩

theorem Barrier.demo_env : BarrierEnv Barrier.demoEnv 150 100 0.1 := ⟨rfl, rfl, rfl, rfl, rfl, rfl, rfl, rfl, rfl⟩

/-- Not knocked out at 120, 140 and 130. -/
example : ∃ q, IsBarrier Barrier.demoEnv (fun _ => 0) false true false 2 q ∧ exactOn q [⟨100, 1⟩, ⟨120, 1⟩, ⟨140, 1⟩, ⟨130, 2⟩] = 15 := by
  obtain ⟨q, hq, -⟩ := C110_made Barrier.demo_env (fun _ => 0) false true false 2
  refine ⟨q, hq, ?_⟩
  have := C110_exact Barrier.demo_env hq ⟨100, 1⟩ [⟨120, 1⟩, ⟨140, 1⟩] rfl ⟨130, 2⟩
  refine this.trans ?_
  have ht : ¬ Touched 150 ([⟨120, 1⟩, ⟨140, 1⟩].map Script.Sample.spot ++ [130]) := by
    simp [Touched]; norm_num
  rw [worth, if_pos (by simpa using ht)]
  norm_num

/-- Knocked out at 160, knocked in there too. -/
example : ∃ qo qi, IsBarrier Barrier.demoEnv (fun _ => 0) false true false 1 qo ∧ IsBarrier Barrier.demoEnv (fun _ => 0) true true false 1 qi ∧
    exactOn qo [⟨100, 1⟩, ⟨160, 1⟩, ⟨130, 2⟩] = 0 ∧ exactOn qi [⟨100, 1⟩, ⟨160, 1⟩, ⟨130, 2⟩] = 15 := by
  obtain ⟨qo, ho, -⟩ := C110_made Barrier.demo_env (fun _ => 0) false true false 1
  obtain ⟨qi, hi, -⟩ := C110_made Barrier.demo_env (fun _ => 0) true true false 1
  have ht : Touched 150 ([⟨160, 1⟩].map Script.Sample.spot ++ [130]) := ⟨160, by simp, by norm_num⟩
  refine ⟨qo, qi, ho, hi, (C110_exact Barrier.demo_env ho ⟨100, 1⟩ [⟨160, 1⟩] rfl ⟨130, 2⟩).trans ?_, (C110_exact Barrier.demo_env hi ⟨100, 1⟩ [⟨160, 1⟩] rfl ⟨130, 2⟩).trans ?_⟩
  · rw [worth, if_neg (by simpa using ht)]
  · rw [worth, if_pos (by simpa using ht)]; norm_num

/-- Smoothed, with the barrier met in the middle of its band. -/
example : ∃ q, IsBarrier Barrier.demoEnv (fun _ => 0) false false true 1 q ∧ smoothOn 0.01 (2 / 10 ^ 14) q [⟨100, 1⟩, ⟨150, 1⟩, ⟨130, 2⟩] = some (15 / 2) := by
  obtain ⟨q, hq, -⟩ := C110_made Barrier.demo_env (fun _ => 0) false false true 1
  refine ⟨q, hq, (C110_smooth Barrier.demo_env hq (by norm_num) 0.01 (2 / 10 ^ 14) ⟨100, 1⟩ [⟨150, 1⟩] rfl ⟨130, 2⟩).trans ?_⟩
  norm_num [smoothWorth, alive, left, degree]

/-- The two halves of a call. -/
example (qo qi : Prepared) (ho : IsBarrier Barrier.demoEnv (fun _ => 0) false false true 1 qo) (hi : IsBarrier Barrier.demoEnv (fun _ => 0) true false true 1 qi) :
    exactOn qi [⟨100, 1⟩, ⟨160, 1⟩, ⟨130, 2⟩] + exactOn qo [⟨100, 1⟩, ⟨160, 1⟩, ⟨130, 2⟩] = max 0 (130 - 100) / 2 :=
  (C110_parity Barrier.demo_env hi ho (by norm_num) 0.01 (2 / 10 ^ 14) ⟨100, 1⟩ [⟨160, 1⟩] rfl ⟨130, 2⟩).1

example : ∃ q x, IsBarrier Barrier.demoEnv (fun _ => 0) false true true 1 q ∧ smoothOn 0.01 (2 / 10 ^ 14) q [⟨100, 1⟩, ⟨140, 1⟩, ⟨130, 2⟩] = some x ∧ x = exactOn q [⟨100, 1⟩, ⟨140, 1⟩, ⟨130, 2⟩] := by
  obtain ⟨q, hq, -⟩ := C110_made Barrier.demo_env (fun _ => 0) false true true 1
  obtain ⟨x, h1, -, -, h2⟩ := C110_between Barrier.demo_env hq (by norm_num) 0.01 (2 / 10 ^ 14) (by norm_num) (by norm_num) ⟨100, 1⟩ [⟨140, 1⟩] rfl ⟨130, 2⟩ (by norm_num)
  refine ⟨q, x, hq, h1, h2 fun s hs => ?_⟩
  rcases List.mem_cons.1 hs with rfl | hs
  · norm_num [abs_of_neg]
  · rw [List.mem_singleton.1 hs]; norm_num [abs_of_neg]

end Dal
