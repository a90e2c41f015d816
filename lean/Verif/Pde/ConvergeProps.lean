import Verif.Pde.ConvergeLemmas
import Verif.Pde.MesherProps

/-!
# C107: prices on the grid converge to Black's

Specification: Black's formula as the library prices with it (`Numeric/OptionModel.lean`), discounted; the edges are held at the discounted mean of the payoff.
-/

namespace Dal
open Dal.Fd Dal.Numeric Real Set

private theorem payout_parts {type : OptionType} {K : ℝ} {p : ℝ → ℝ} (hp : ∀ s, payout type s K = some (p s)) :
    ∃ al be c d : ℝ, (∀ s, p s = al * max 0 (s - K) + be * (s - K)) ∧ Continuous p ∧ 0 ≤ c ∧ 0 ≤ d ∧ ∀ s, |p s| ≤ c * |s| + d := by
  have key : ∀ al be : ℝ, (∀ s, p s = al * max 0 (s - K) + be * (s - K)) →
      ∃ al be c d : ℝ, (∀ s, p s = al * max 0 (s - K) + be * (s - K)) ∧ Continuous p ∧ 0 ≤ c ∧ 0 ≤ d ∧ ∀ s, |p s| ≤ c * |s| + d := by
    intro al be h
    refine ⟨al, be, |al| + |be|, (|al| + |be|) * |K|, h, ?_, by positivity, by positivity, fun s => ?_⟩
    · rw [show p = fun s => al * max 0 (s - K) + be * (s - K) from funext h]
      fun_prop
    · rw [h s]
      have h1 : |max 0 (s - K)| ≤ |s - K| := by
        rw [abs_of_nonneg (le_max_left _ _)]
        exact max_le (abs_nonneg _) (le_abs_self _)
      have h2 : |s - K| ≤ |s| + |K| := abs_sub _ _
      calc _ ≤ |al * max 0 (s - K)| + |be * (s - K)| := abs_add_le _ _
        _ = |al| * |max 0 (s - K)| + |be| * |s - K| := by rw [abs_mul, abs_mul]
        _ ≤ |al| * (|s| + |K|) + |be| * (|s| + |K|) := add_le_add (mul_le_mul_of_nonneg_left (h1.trans h2) (abs_nonneg _)) (mul_le_mul_of_nonneg_left h2 (abs_nonneg _))
        _ = _ := by ring
  cases type with
  | notSet => exact absurd (hp 0) (by simp [payout])
  | call => exact key 1 0 fun s => by have := Option.some.inj (hp s); rw [← this]; ring
  | put =>
    refine key 1 (-1) fun s => ?_
    have := Option.some.inj (hp s)
    rw [← this]
    rcases le_total s K with h | h
    · rw [max_eq_right (by linarith), max_eq_left (by linarith)]; ring
    · rw [max_eq_left (by linarith), max_eq_right (by linarith)]; ring
  | straddle =>
    refine key 2 (-1) fun s => ?_
    have := Option.some.inj (hp s)
    rw [← this]
    rcases le_total s K with h | h
    · rw [max_eq_left (by linarith), abs_of_nonpos (by linarith)]; ring
    · rw [max_eq_right (by linarith), abs_of_nonneg (by linarith)]; ring

private theorem drift_bound {m v lo y z δ : ℝ} (hlo : 0 < lo) (hy : lo ≤ y) (z0 : 0 ≤ z) (hz : z ≤ δ) (hδ : δ ≤ v * v * lo / (|m| + 1)) :
    m * y * z ≤ v * v * y * y ∧ -(m * y * z) ≤ v * v * y * y := by
  have q2 : z * (|m| + 1) ≤ v * v * lo := (le_div_iff₀ (by positivity)).1 (hz.trans hδ)
  have q1 : |m| * z ≤ v * v * y := by
    have := mul_le_mul_of_nonneg_left hy (mul_self_nonneg v)
    linarith
  have y0 : 0 ≤ y := hlo.le.trans hy
  have q3 := mul_le_mul_of_nonneg_right q1 y0
  have q4 : |m * y * z| = |m| * z * y := by rw [abs_mul, abs_mul, abs_of_nonneg y0, abs_of_nonneg z0]; ring
  have q5 := abs_le'.1 q4.le
  exact ⟨q5.1.trans q3, q5.2.trans q3⟩

private theorem error_small {T B Va Mt M3 M4 δ dt e : ℝ} (hT : 0 ≤ T) (nB : 0 ≤ B) (nV : 0 ≤ Va) (dt0 : 0 ≤ dt) (hdt : dt ≤ δ) (d0 : 0 ≤ δ) (d1 : δ ≤ 1)
    (de : δ ≤ e / (T * (|Mt| / 2 + (B * (|M3| / 6) + 1 / 2 * Va * (|M3| / 3 + |M4| / 12))) + 1)) : T * (Mt / 2 * dt + spaceError B Va M3 M4 δ δ) ≤ e := by
  have g1 : Mt / 2 * dt ≤ |Mt| / 2 * δ := mul_le_mul (by linarith [le_abs_self Mt]) hdt dt0 (by positivity)
  have g2 : δ ^ 2 ≤ δ := by nlinarith
  have m3 := le_abs_self M3
  have m4 := le_abs_self M4
  have n3 := abs_nonneg M3
  have n4 := abs_nonneg M4
  have g3 : M3 / 6 * δ ^ 2 ≤ |M3| / 6 * δ := mul_le_mul (by linarith) g2 (sq_nonneg _) (by linarith)
  have g4 : M4 / 12 * δ ^ 2 ≤ |M4| / 12 * δ := mul_le_mul (by linarith) g2 (sq_nonneg _) (by linarith)
  have g5 : M3 / 3 * δ ≤ |M3| / 3 * δ := mul_le_mul_of_nonneg_right (by linarith) d0
  have g6 : spaceError B Va M3 M4 δ δ ≤ (B * (|M3| / 6) + 1 / 2 * Va * (|M3| / 3 + |M4| / 12)) * δ := by
    rw [spaceError]
    have k1 := mul_le_mul_of_nonneg_left g3 nB
    have k2 := mul_le_mul_of_nonneg_left (add_le_add g5 g4) (show 0 ≤ 1 / 2 * Va by positivity)
    calc _ ≤ _ := add_le_add k1 k2
      _ = _ := by ring
  have g7 := mul_le_mul_of_nonneg_left (add_le_add g1 g6) hT
  have g8 := (le_div_iff₀ (by positivity)).1 de
  have g9 : T * (|Mt| / 2 * δ + (B * (|M3| / 6) + 1 / 2 * Va * (|M3| / 3 + |M4| / 12)) * δ) =
      δ * (T * (|Mt| / 2 + (B * (|M3| / 6) + 1 / 2 * Va * (|M3| / 3 + |M4| / 12))) + 1) - δ := by ring
  linarith

/-- C107: calls, puts and straddles. On any grid between two positive spots whose spacings are fine enough and with steps short enough, whatever theta as long as the explicit part is within
its limit (none for a fully implicit scheme), the values rolled back from the payoff are within `η + ε` of the discounted prices of Black's formula, when the edges are held within `η` of the
discounted means. -/
theorem C107_black {eps : ℝ} (heps : 0 < eps) (heps1 : eps ≤ 1) {type : OptionType} {K : ℝ} {p : ℝ → ℝ} (hp : ∀ s, payout type s K = some (p s)) {rate div vol T lo hi : ℝ} (hr : 0 ≤ rate)
    (hv : 0 < vol) (hK : 0 < K) (hT : 0 < T) (hlo : 0 < lo) (he : epsilon ≤ vol * √T) (hk : epsilon ≤ lo * exp ((rate - div) * T) * K) {ε : ℝ} (hε : 0 < ε) :
    ∃ δ, 0 < δ ∧ ∀ (x : Mesh ℝ) (N : ℕ) (theta : ℝ) (edge : Nat → ℝ × ℝ) (η : ℝ), Grid x → 2 < x.n → x.loc 0 = lo → x.loc (x.n - 1) = hi → (∀ i, i + 1 < x.n → x.loc (i + 1) - x.loc i ≤ δ) →
      1 ≤ N → T / N ≤ δ → 0 ≤ theta → theta ≤ 1 →
      (∀ i, 1 ≤ i → i + 1 < x.n → T / N * (1 - theta) * (vol * vol * x.loc i * x.loc i + (rate - div) * x.loc i * ((x.loc i - x.loc (i - 1)) - (x.loc (i + 1) - x.loc i)) +
        rate * ((x.loc i - x.loc (i - 1)) * (x.loc (i + 1) - x.loc i))) ≤ (x.loc i - x.loc (i - 1)) * (x.loc (i + 1) - x.loc i)) →
      0 ≤ η → (∀ k : ℕ, 1 ≤ k → k ≤ N →
        |(edge k).1 - exp (-rate * (k * (T / N))) * lognormalMean p (lo * exp ((rate - div) * (k * (T / N)))) (vol * √(k * (T / N)))| ≤ η ∧
        |(edge k).2 - exp (-rate * (k * (T / N))) * lognormalMean p (hi * exp ((rate - div) * (k * (T / N)))) (vol * √(k * (T / N)))| ≤ η) →
      ∃ res, european eps x rate div vol (T / N) theta p edge N = some res ∧ res.size = x.n ∧
        ∀ i, i < x.n → ∃ b, blackOpt (x.loc i * exp ((rate - div) * T)) (vol * √T) K type = some b ∧ |res.v i - exp (-rate * T) * b| ≤ η + ε := by
  obtain ⟨al, be, c, d, hpp, hcont, hc, hd, hgrow⟩ := payout_parts hp
  have hcpt : IsCompact (Icc 0 (T + 1) ×ˢ Icc lo hi : Set (ℝ × ℝ)) := isCompact_Icc.prod isCompact_Icc
  obtain ⟨w, hw, huc⟩ := Metric.uniformContinuousOn_iff.1 (hcpt.uniformContinuousOn_of_continuous (mean_continuous hcont hgrow hc hd rate div vol (T + 1) lo hi)) (ε / 4) (by linarith)
  have near : ∀ t t' y : ℝ, t ∈ Icc 0 (T + 1) → t' ∈ Icc 0 (T + 1) → y ∈ Icc lo hi → |t - t'| < w → |meanValue p rate div vol t y - meanValue p rate div vol t' y| ≤ ε / 4 := by
    intro t t' y ht ht' hy h
    have := huc (t, y) ⟨ht, hy⟩ (t', y) ⟨ht', hy⟩ (by rw [Prod.dist_eq, dist_self, Real.dist_eq]; exact max_lt h hw)
    rw [Real.dist_eq] at this
    exact this.le
  set s := min (w / 4) 1 with hs
  have s0 : 0 < s := lt_min (by linarith) one_pos
  have s1 : s ≤ 1 := min_le_right _ _
  have sw : s ≤ w / 4 := min_le_left _ _
  have hin : ∀ t ∈ Icc 0 T, ∀ y ∈ Icc lo hi, (t + s, y) ∈ after := fun t ht y hy => ⟨by show 0 < t + s; linarith [ht.1], lt_of_lt_of_le hlo hy.1⟩
  obtain ⟨Mt, M3, M4, hreg⟩ := smooth_regular after_open (opt_smooth al be rate div K hv) hin
  set B := |rate - div| * |hi| with hB
  set Va := vol * vol * |hi| * |hi| with hVa
  have nB : 0 ≤ B := by positivity
  have nV : 0 ≤ Va := by positivity
  set C := T * (|Mt| / 2 + (B * (|M3| / 6) + 1 / 2 * Va * (|M3| / 3 + |M4| / 12))) with hC
  have nC : 0 ≤ C := by positivity
  refine ⟨min (min (w / 4) 1) (min (vol * vol * lo / (|rate - div| + 1)) (ε / 4 / (C + 1))), by positivity, ?_⟩
  intro x N theta edge η hg hn h0 hl hsp hN hdt th0 th1 hlim hη hedge
  set δ := min (min (w / 4) 1) (min (vol * vol * lo / (|rate - div| + 1)) (ε / 4 / (C + 1))) with hδ
  have dw : δ ≤ w / 4 := (min_le_left _ _).trans (min_le_left _ _)
  have d1 : δ ≤ 1 := (min_le_left _ _).trans (min_le_right _ _)
  have dv : δ ≤ vol * vol * lo / (|rate - div| + 1) := (min_le_right _ _).trans (min_le_left _ _)
  have de : δ ≤ ε / 4 / (C + 1) := (min_le_right _ _).trans (min_le_right _ _)
  have dpos : 0 < δ := by positivity
  have hN0 : (0 : ℝ) < N := Nat.cast_pos.2 hN
  have dt0 : 0 < T / N := div_pos hT hN0
  have hNT : (N : ℝ) * (T / N) = T := by field_simp
  have step1 : ∀ i, 1 ≤ i → i + 1 < x.n → 0 < x.loc i - x.loc (i - 1) ∧ x.loc i - x.loc (i - 1) ≤ δ ∧ 0 < x.loc (i + 1) - x.loc i ∧ x.loc (i + 1) - x.loc i ≤ δ := by
    intro i i1 i2
    have a1 := hg.incr (i - 1) (by omega)
    have a2 := hsp (i - 1) (by omega)
    rw [Nat.sub_add_cancel i1] at a1 a2
    exact ⟨by linarith, a2, by linarith [hg.incr i i2], hsp i i2⟩
  have cov : Covers x lo hi δ δ := ⟨hg, hn, h0, hl, hsp, fun i i1 i2 => by
    obtain ⟨b1, b2, b3, b4⟩ := step1 i i1 i2
    rw [abs_le]
    constructor <;> linarith⟩
  have hbt := covers_between cov
  have hlohi : lo ≤ hi := by have := hbt 0 (by omega); exact this.1.trans this.2
  have hhi : |hi| = hi := abs_of_pos (hlo.trans_le hlohi)
  have stable : Stable x (fun _ => rate) (fun i => (rate - div) * x.loc i) (fun i => vol * vol * x.loc i * x.loc i) (T / N) theta := by
    refine ⟨fun _ => hr, fun i i1 i2 => ?_, fun i i1 i2 => ?_, dt0.le, th0, th1, hlim⟩
    · obtain ⟨b1, b2, b3, b4⟩ := step1 i i1 i2
      exact (drift_bound hlo (hbt i (by omega)).1 b3.le b4 dv).1
    · obtain ⟨b1, b2, b3, b4⟩ := step1 i i1 i2
      exact (drift_bound hlo (hbt i (by omega)).1 b1.le b2 dv).2
  have same : ∀ t ∈ Icc 0 T, ∀ y ∈ Icc lo hi, optValue al be rate div vol K (t + s) y = meanValue p rate div vol (t + s) y :=
    fun t ht y hy => (mean_opt hpp hv hK (by linarith [ht.1]) (hlo.trans_le hy.1)).symm
  have times : ∀ k : ℕ, k ≤ N → (k : ℝ) * (T / N) ∈ Icc 0 T := fun k hk => ⟨by positivity, by
    have := mul_le_mul_of_nonneg_right (Nat.cast_le (α := ℝ).2 hk) dt0.le
    rwa [hNT] at this⟩
  have edges : ∀ k : ℕ, k ≤ N → |(if k = 0 then p (x.loc 0) else (edge k).1) - meanValue p rate div vol (k * (T / N)) lo| ≤ η ∧
      |(if k = 0 then p (x.loc (x.n - 1)) else (edge k).2) - meanValue p rate div vol (k * (T / N)) hi| ≤ η := by
    intro k hk
    rcases Nat.eq_zero_or_pos k with rfl | hk0
    · simp only [if_pos, Nat.cast_zero, zero_mul, mean_today, h0, hl, sub_self, abs_zero]
      exact ⟨hη, hη⟩
    · rw [if_neg (by omega), if_neg (by omega)]
      exact hedge k hk0 hk
  have tri : ∀ (a : ℝ) (t t' y : ℝ), |a - meanValue p rate div vol t y| ≤ η → t ∈ Icc 0 T → t' ∈ Icc 0 T → y ∈ Icc lo hi → |t - t'| ≤ w / 4 →
      |a - optValue al be rate div vol K (t' + s) y| ≤ η + ε / 4 := by
    intro a t t' y h1 ht ht' hy h2
    rw [same t' ht' y hy]
    have h3 := near t (t' + s) y ⟨ht.1, by linarith [ht.2]⟩ ⟨by linarith [ht'.1], by linarith [ht'.2]⟩ hy (by
      have h4 := abs_le.1 h2
      rw [abs_lt]; constructor <;> linarith)
    exact (abs_sub_le _ _ _).trans (add_le_add h1 h3)
  have mlo : lo ∈ Icc lo hi := ⟨le_rfl, hlohi⟩
  have mhi : hi ∈ Icc lo hi := ⟨hlohi, le_rfl⟩
  obtain ⟨S, S', res, e1, e2, e3, e4⟩ := C107_smooth heps heps1 hreg cov ⟨x.n, fun _ => rate⟩ ⟨x.n, fun i => (rate - div) * x.loc i⟩ ⟨x.n, fun i => vol * vol * x.loc i * x.loc i⟩
    ⟨Nat.sub_le _ _, Nat.sub_le _ _, Nat.sub_le _ _⟩ stable (B := B) (V := Va)
    (fun i i1 i2 => by
      have q := hbt i (by omega)
      show |(rate - div) * x.loc i| ≤ B
      rw [abs_mul, hB, hhi, abs_of_pos (hlo.trans_le q.1)]
      exact mul_le_mul_of_nonneg_left q.2 (abs_nonneg _))
    (fun i i1 i2 => by
      have q := hbt i (by omega)
      have q1 := hlo.trans_le q.1
      show |vol * vol * x.loc i * x.loc i| ≤ Va
      rw [abs_of_pos (by positivity), hVa, hhi]
      have q2 := mul_le_mul q.2 q.2 q1.le (hlo.le.trans hlohi)
      have := mul_le_mul_of_nonneg_left q2 (show 0 ≤ vol * vol by positivity)
      rwa [← mul_assoc, ← mul_assoc] at this)
    (fun t ht i i1 i2 => opt_pde al be hv hK (by linarith [ht.1]) (hlo.trans_le (hbt i (by omega)).1)) N hNT.le edge (res := ⟨x.n, fun i => p (x.loc i)⟩) rfl (E := η + ε / 4)
    (fun i hi' => by
      refine tri _ 0 0 _ ?_ ⟨le_rfl, hT.le⟩ ⟨le_rfl, hT.le⟩ (hbt i hi') (by rw [sub_self, abs_zero]; linarith)
      rw [mean_today, sub_self, abs_zero]; exact hη)
    (fun k hk hk1 => by
      have q := edges k hk
      rw [if_neg (by omega), if_neg (by omega)] at q
      exact ⟨tri _ _ _ _ q.1 (times k hk) (times k hk) mlo (by rw [sub_self, abs_zero]; linarith), tri _ _ _ _ q.2 (times k hk) (times k hk) mhi (by rw [sub_self, abs_zero]; linarith)⟩)
    (fun k hk => by
      have q := edges k hk.le
      have q1 := times (k + 1) hk
      push_cast at q1
      have q2 : |(k : ℝ) * (T / N) - (k + 1) * (T / N)| ≤ w / 4 := by
        rw [show (k : ℝ) * (T / N) - (k + 1) * (T / N) = -(T / N) by ring, abs_neg, abs_of_pos dt0]
        exact hdt.trans dw
      exact ⟨tri _ _ _ _ q.1 (times k hk.le) q1 mlo q2, tri _ _ _ _ q.2 (times k hk.le) q1 mhi q2⟩)
  refine ⟨res, ?_, e3, fun i hi' => ⟨_, C97_black type _ _ K p hp (mul_pos (hlo.trans_le (hbt i hi').1) (exp_pos _)) hK he (hk.trans ?_), ?_⟩⟩
  · rw [european, e1, Option.bind_some, e2]; rfl
  · exact mul_le_mul_of_nonneg_right (mul_le_mul_of_nonneg_right (hbt i hi').1 (exp_pos _).le) hK.le
  · have f1 := e4 i hi'
    rw [hNT] at f1
    have f2 : |res.v i - optValue al be rate div vol K (T + s) (x.loc i)| ≤ η + ε / 4 + T * (Mt / 2 * (T / N) + spaceError B Va M3 M4 δ δ) := f1
    rw [same T ⟨hT.le, le_rfl⟩ _ (hbt i hi')] at f2
    have f3 := near (T + s) T (x.loc i) ⟨by linarith, by linarith⟩ ⟨hT.le, by linarith⟩ (hbt i hi') (by rw [add_sub_cancel_left, abs_of_pos s0]; linarith)
    have f4 : T * (Mt / 2 * (T / N) + spaceError B Va M3 M4 δ δ) ≤ ε / 4 := error_small hT.le nB nV dt0.le hdt dpos.le d1 de
    have f5 : |res.v i - meanValue p rate div vol T (x.loc i)| ≤ η + ε := by
      refine (abs_sub_le _ (meanValue p rate div vol (T + s) (x.loc i)) _).trans ?_
      linarith
    exact f5

/-- A straddle by Crank–Nicolson between fifty and two hundred, the edges exact: any precision is reached on some uniform grid. -/
example {ε : ℝ} (hε : 0 < ε) : ∃ (x : Mesh ℝ) (N : ℕ) (edge : Nat → ℝ × ℝ) (res : Sized ℝ), x.loc 0 = 50 ∧ x.loc (x.n - 1) = 200 ∧
    european (1 / 10 ^ 14) x (5 / 100) 0 (1 / 5) (1 / N) (1 / 2) (fun s => |s - 100|) edge N = some res ∧
    ∀ i, i < x.n → ∃ b, blackOpt (x.loc i * exp ((5 / 100 - 0) * 1)) (1 / 5 * √1) 100 .straddle = some b ∧ |res.v i - exp (-(5 / 100) * 1) * b| ≤ 0 + ε := by
  have e1 : (1 : ℝ) ≤ exp ((5 / 100 - 0) * 1) := one_le_exp (by norm_num)
  have e2 : epsilon ≤ 1 / 5 := by norm_num [epsilon]
  obtain ⟨δ, hδ, H⟩ := C107_black (eps := 1 / 10 ^ 14) (by norm_num) (by norm_num) (type := .straddle) (K := 100) (p := fun s => |s - 100|) (fun s => rfl) (rate := 5 / 100) (div := 0) (vol := 1 / 5)
    (T := 1) (lo := 50) (hi := 200) (by norm_num) (by norm_num) (by norm_num) (by norm_num) (by norm_num) (by rw [sqrt_one, mul_one]; exact e2) (by linarith) hε
  obtain ⟨m, hm⟩ := exists_nat_ge (150 / δ)
  obtain ⟨x, -, xn, xg, x0, x1, xs⟩ := C60_uniform_grid (0 : ℝ) 50 200 (m + 3) (by norm_num) (by omega)
  have hstep : (200 - 50 : ℝ) / (((m + 3 : ℕ) : ℝ) - 1) = 150 / (m + 2) := by push_cast; congr 1 <;> ring
  rw [hstep] at xs
  have hpos : (0 : ℝ) < m + 2 := by positivity
  have hsmall : 150 / ((m : ℝ) + 2) ≤ δ := by
    rw [div_le_iff₀ hpos]
    have := (div_le_iff₀ hδ).1 hm
    nlinarith
  have d0 : 0 < 150 / ((m : ℝ) + 2) := by positivity
  generalize 150 / ((m : ℝ) + 2) = d at xs hsmall d0
  obtain ⟨N, hN⟩ := exists_nat_ge (1 / δ + 1 + 2000 / (d * d))
  have p1 : 0 < 1 / δ := by positivity
  have p2 : 0 < 2000 / (d * d) := by positivity
  have hN0 : (0 : ℝ) < N := by linarith
  have N1 : 1 ≤ N := Nat.cast_pos.1 hN0
  have hdt : 1 / (N : ℝ) ≤ δ := by
    rw [div_le_iff₀ hN0]
    have := (div_le_iff₀ hδ).1 (show 1 / δ ≤ N by linarith)
    linarith
  have hlim : 1 / (N : ℝ) * 1000 ≤ d * d / 2 := by
    rw [div_mul_eq_mul_div, div_le_iff₀ hN0]
    have := (div_le_iff₀ (mul_pos d0 d0)).1 (show 2000 / (d * d) ≤ N by linarith)
    linarith
  have hone : 1 / (N : ℝ) ≤ 1 := by
    rw [div_le_iff₀ hN0]; linarith
  have cov : Covers x 50 200 d 0 := ⟨xg, by omega, x0, by rw [xn]; exact x1, fun i hi => (xs i (by omega)).le, fun i i1 i2 => by
    have a := xs (i - 1) (by omega)
    rw [Nat.sub_add_cancel i1] at a
    rw [a, xs i (by omega), sub_self, abs_zero]⟩
  obtain ⟨res, r1, -, r3⟩ := H x N (1 / 2) (fun k => (exp (-(5 / 100) * (k * (1 / N))) * lognormalMean (fun s => |s - 100|) (50 * exp ((5 / 100 - 0) * (k * (1 / N)))) (1 / 5 * √(k * (1 / N))),
      exp (-(5 / 100) * (k * (1 / N))) * lognormalMean (fun s => |s - 100|) (200 * exp ((5 / 100 - 0) * (k * (1 / N)))) (1 / 5 * √(k * (1 / N))))) 0 xg (by omega) x0 cov.last
    (fun i hi => (xs i (by omega)).le.trans hsmall) N1 hdt (by norm_num) (by norm_num) (fun i i1 i2 => by
      have a := xs (i - 1) (by omega)
      rw [Nat.sub_add_cancel i1] at a
      rw [a, xs i (by omega), sub_self, mul_zero, add_zero]
      have q := covers_between cov i (by omega)
      have q1 := q.2
      have q0 := q.1
      have q2 : x.loc i * x.loc i ≤ 40000 := by nlinarith
      have n0 : 0 ≤ 1 / (N : ℝ) := by positivity
      have q3 := mul_le_mul_of_nonneg_left q2 n0
      have q4 := mul_le_mul_of_nonneg_right hone (mul_self_nonneg d)
      nlinarith) le_rfl (fun k _ _ => by simp)
  exact ⟨x, N, _, res, x0, cov.last, r1, r3⟩

end Dal
