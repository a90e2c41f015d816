import Verif.Pde.ConvergeProps
import Verif.Pde.MesherProps

/-!
# C107: a call on the uniform grid, with the edges of the example program

Specification: Black's formula, discounted; the distance of the edges from the true values is bounded explicitly.
-/

namespace Dal
open Dal.Fd Dal.Numeric Real Set MeasureTheory ProbabilityTheory

/-- A call is worth at most its forward. -/
private theorem call_mean_le {f w K : ℝ} (hf : 0 ≤ f) (hK : 0 ≤ K) : |lognormalMean (fun s => max 0 (s - K)) f w| ≤ f := by
  rw [lognormalMean, abs_of_nonneg (integral_nonneg fun g => le_max_left _ _)]
  calc _ ≤ ∫ g, f * exp (w * g - w * w / 2) ∂gaussianReal 0 1 :=
        integral_mono (lognormal_call_integrable f w K) (lognormal_integrable f w) fun g => max_le (mul_nonneg hf (exp_pos _).le) (by linarith)
    _ = f := lognormal_mean f w

/-- The call and the forward contract differ by a put, small for a large forward. -/
private theorem put_mean_le {f w K : ℝ} (hf : 0 < f) (hK : 0 ≤ K) : |f - K - lognormalMean (fun s => max 0 (s - K)) f w| ≤ K * K / f * exp (w * w) := by
  have hi := lognormal_integrable f w
  have hc := lognormal_call_integrable f w K
  have e : f - K - lognormalMean (fun s => max 0 (s - K)) f w = -∫ g, (max 0 (f * exp (w * g - w * w / 2) - K) - (f * exp (w * g - w * w / 2) - K)) ∂gaussianReal 0 1 := by
    have h1 : ∫ g, (f * exp (w * g - w * w / 2) - K) ∂gaussianReal 0 1 = f - K := by
      rw [integral_sub hi (integrable_const K), lognormal_mean, integral_const]; simp
    rw [integral_sub hc (show Integrable (fun g => f * exp (w * g - w * w / 2) - K) _ from hi.sub (integrable_const K)), h1, lognormalMean]
    ring
  rw [e, abs_neg, abs_of_nonneg (integral_nonneg fun g => sub_nonneg.2 (le_max_right _ _))]
  have hj := (lognormal_integrable f (-w)).const_mul (K * K / (f * f) * exp (w * w))
  calc _ ≤ ∫ g, K * K / (f * f) * exp (w * w) * (f * exp (-w * g - -w * -w / 2)) ∂gaussianReal 0 1 := by
        refine integral_mono (hc.sub (hi.sub (integrable_const K))) hj fun g => ?_
        show max 0 (f * exp (w * g - w * w / 2) - K) - (f * exp (w * g - w * w / 2) - K) ≤ K * K / (f * f) * exp (w * w) * (f * exp (-w * g - -w * -w / 2))
        have q : K * K / (f * f) * exp (w * w) * (f * exp (-w * g - -w * -w / 2)) = K * K / (f * exp (w * g - w * w / 2)) := by
          have q1 : exp (-w * g - -w * -w / 2) * exp (w * w) = (exp (w * g - w * w / 2))⁻¹ := by rw [← exp_add, ← exp_neg]; congr 1; ring
          rw [show K * K / (f * f) * exp (w * w) * (f * exp (-w * g - -w * -w / 2)) = K * K / (f * f) * f * (exp (-w * g - -w * -w / 2) * exp (w * w)) by ring, q1]
          field_simp
        rw [q]
        have hs : 0 < f * exp (w * g - w * w / 2) := mul_pos hf (exp_pos _)
        rw [le_div_iff₀ hs]
        rcases le_total (f * exp (w * g - w * w / 2)) K with h | h
        · rw [max_eq_left (by linarith)]; nlinarith
        · rw [max_eq_right (by linarith)]; nlinarith
    _ = K * K / f * exp (w * w) := by
        rw [integral_const_mul, lognormal_mean]
        field_simp

/-- C107: the example program, fully implicit, from a positive spot. Whatever the precision, with enough points and steps every value on the uniform grid is within it of the discounted Black
price, but for what the edges miss: at most the lowest spot on one side, and a multiple of the inverse of the highest on the other. -/
theorem C107_call {eps : ℝ} (heps : 0 < eps) (heps1 : eps ≤ 1) {rate div vol K T lo hi : ℝ} (hr : 0 ≤ rate) (hv : 0 < vol) (hK : 0 < K) (hT : 0 < T) (hlo : 0 < lo) (hhi : lo < hi)
    (he : epsilon ≤ vol * √T) (hk : epsilon ≤ lo * exp ((rate - div) * T) * K) {ε : ℝ} (hε : 0 < ε) :
    ∃ n0 N0 : ℕ, ∀ n N : ℕ, n0 ≤ n → N0 ≤ N → ∀ null, ∃ x res, uniform null lo hi n = some x ∧
      european eps x rate div vol (T / N) 1 (fun s => max 0 (s - K)) (fun k => (0, hi * exp (-div * (k * (T / N))) - exp (-rate * (k * (T / N))) * K)) N = some res ∧ res.size = n ∧
      ∀ i, i < n → ∃ b, blackOpt (x.loc i * exp ((rate - div) * T)) (vol * √T) K .call = some b ∧
        |res.v i - exp (-rate * T) * b| ≤ max (lo * exp (|div| * T)) (K * K / hi * exp ((|div| + vol * vol) * T)) + ε := by
  obtain ⟨δ, hδ, H⟩ := C107_black heps heps1 (type := .call) (p := fun s => max 0 (s - K)) (fun s => rfl) (hi := hi) hr hv hK hT hlo he hk hε
  obtain ⟨n0, hn0⟩ := exists_nat_ge ((hi - lo) / δ + 1)
  obtain ⟨N0, hN0⟩ := exists_nat_ge (T / δ)
  refine ⟨max n0 3, max N0 1, fun n N hn hN null => ?_⟩
  have n3 : 3 ≤ n := (le_max_right _ _).trans hn
  have N1 : 1 ≤ N := (le_max_right _ _).trans hN
  have hNp : (0 : ℝ) < N := Nat.cast_pos.2 N1
  have hnr : (hi - lo) / δ + 1 ≤ n := hn0.trans (Nat.cast_le.2 ((le_max_left _ _).trans hn))
  have hNr : T / δ ≤ N := hN0.trans (Nat.cast_le.2 ((le_max_left _ _).trans hN))
  have hn1 : (0 : ℝ) < n - 1 := by
    have : (3 : ℝ) ≤ n := by exact_mod_cast n3
    linarith
  obtain ⟨x, ex, xn, xg, x0, x1, xs⟩ := C60_uniform_grid null lo hi n hhi (by omega)
  have hdt : T / N ≤ δ := by rw [div_le_iff₀ hNp]; rw [div_le_iff₀ hδ] at hNr; linarith
  obtain ⟨res, r1, r2, r3⟩ := H x N 1 (fun k => (0, hi * exp (-div * (k * (T / N))) - exp (-rate * (k * (T / N))) * K)) (max (lo * exp (|div| * T)) (K * K / hi * exp ((|div| + vol * vol) * T))) xg
    (by omega) x0 (by rw [xn]; exact x1) (fun i hi' => by
      rw [xs i (by omega), div_le_iff₀ hn1]
      have := (div_le_iff₀ hδ).1 (show (hi - lo) / δ ≤ n - 1 by linarith)
      linarith) N1 hdt zero_le_one le_rfl (fun i i1 i2 => by
      rw [sub_self, mul_zero, zero_mul]
      have a1 := xg.incr (i - 1) (by omega)
      rw [Nat.sub_add_cancel i1] at a1
      exact mul_nonneg (by linarith) (by linarith [xg.incr i i2])) (le_max_of_le_left (by positivity)) (fun k k1 kN => by
      have t0 : 0 ≤ (k : ℝ) * (T / N) := by positivity
      have t1 : (k : ℝ) * (T / N) ≤ T := by
        have := mul_le_mul_of_nonneg_right (Nat.cast_le (α := ℝ).2 kN) (div_pos hT hNp).le
        rwa [mul_div_cancel₀ _ hNp.ne'] at this
      generalize (k : ℝ) * (T / N) = t at t0 t1
      have hd : -div * t ≤ |div| * T := (mul_le_mul_of_nonneg_right (neg_le_abs div) t0).trans (mul_le_mul_of_nonneg_left t1 (abs_nonneg _))
      have hp := hlo.trans hhi
      constructor
      · refine le_max_of_le_left ?_
        rw [zero_sub, abs_neg, abs_mul, abs_of_pos (exp_pos _)]
        calc _ ≤ exp (-rate * t) * (lo * exp ((rate - div) * t)) := mul_le_mul_of_nonneg_left (call_mean_le (mul_nonneg hlo.le (exp_pos _).le) hK.le) (exp_pos _).le
          _ = lo * exp (-div * t) := by rw [mul_left_comm, ← exp_add]; congr 2; ring
          _ ≤ _ := mul_le_mul_of_nonneg_left (exp_le_exp.2 hd) hlo.le
      · refine le_max_of_le_right ?_
        have q := put_mean_le (w := vol * √t) (mul_pos hp (exp_pos ((rate - div) * t))) hK.le
        have q1 : hi * exp (-div * t) - exp (-rate * t) * K - exp (-rate * t) * lognormalMean (fun s => max 0 (s - K)) (hi * exp ((rate - div) * t)) (vol * √t) =
            exp (-rate * t) * (hi * exp ((rate - div) * t) - K - lognormalMean (fun s => max 0 (s - K)) (hi * exp ((rate - div) * t)) (vol * √t)) := by
          have : exp (-div * t) = exp (-rate * t) * exp ((rate - div) * t) := by rw [← exp_add]; congr 1; ring
          rw [this]; ring
        rw [q1, abs_mul, abs_of_pos (exp_pos _)]
        have q2 : vol * √t * (vol * √t) = vol * vol * t := by
          rw [mul_mul_mul_comm, mul_self_sqrt t0]
        rw [q2] at q
        calc _ ≤ exp (-rate * t) * (K * K / (hi * exp ((rate - div) * t)) * exp (vol * vol * t)) := mul_le_mul_of_nonneg_left q (exp_pos _).le
          _ = K * K / hi * exp (-rate * t + (-((rate - div) * t) + vol * vol * t)) := by
            rw [exp_add, exp_add, exp_neg]
            field_simp
          _ ≤ _ := by
            refine mul_le_mul_of_nonneg_left (exp_le_exp.2 ?_) (by positivity)
            have b1 : div * t ≤ |div| * T := (mul_le_mul_of_nonneg_right (le_abs_self div) t0).trans (mul_le_mul_of_nonneg_left t1 (abs_nonneg _))
            have b2 := mul_le_mul_of_nonneg_left t1 (mul_self_nonneg vol)
            have b3 := mul_nonneg hr t0
            nlinarith)
  exact ⟨x, res, ex, r1, r2.trans xn, fun i hi' => r3 i (by omega)⟩

/-- The market of the example program, between the spots one and a million: prices within a dollar and a quarter. -/
example : ∃ n0 N0 : ℕ, ∀ n N : ℕ, n0 ≤ n → N0 ≤ N → ∃ x res, uniform (0 : ℝ) 1 1000000 n = some x ∧
    european (1 / 10 ^ 14 : ℝ) x (5 / 100) (3 / 100) (15 / 100) (1 / N) 1 (fun s => max 0 (s - 120)) (fun k => (0, 1000000 * exp (-(3 / 100) * (k * (1 / N))) - exp (-(5 / 100) * (k * (1 / N))) * 120)) N =
      some res ∧ ∀ i, i < n → ∃ b, blackOpt (x.loc i * exp ((5 / 100 - 3 / 100) * 1)) (15 / 100 * √1) 120 .call = some b ∧ |res.v i - exp (-(5 / 100) * 1) * b| ≤ 5 / 4 := by
  have hexp : exp (3 / 100) ≤ 11 / 10 := by
    have h := exp_bound_div_one_sub_of_interval (show (0 : ℝ) ≤ 3 / 100 by norm_num) (by norm_num)
    exact h.trans (by norm_num)
  have hexp2 : exp ((3 / 100 + 15 / 100 * (15 / 100)) * 1) ≤ 11 / 10 := by
    have h := exp_bound_div_one_sub_of_interval (show (0 : ℝ) ≤ (3 / 100 + 15 / 100 * (15 / 100)) * 1 by norm_num) (by norm_num)
    exact h.trans (by norm_num)
  obtain ⟨n0, N0, H⟩ := C107_call (eps := 1 / 10 ^ 14) (by norm_num) (by norm_num) (rate := 5 / 100) (div := 3 / 100) (vol := 15 / 100) (K := 120) (T := 1) (lo := 1) (hi := 1000000) (by norm_num)
    (by norm_num) (by norm_num) (by norm_num) (by norm_num) (by norm_num) (by rw [sqrt_one]; norm_num [epsilon]) (by
      have : (1 : ℝ) ≤ exp ((5 / 100 - 3 / 100) * 1) := one_le_exp (by norm_num)
      have h2 : epsilon ≤ 1 := by norm_num [epsilon]
      linarith) (ε := 1 / 10) (by norm_num)
  refine ⟨n0, N0, fun n N hn hN => ?_⟩
  obtain ⟨x, res, e1, e2, -, e3⟩ := H n N hn hN 0
  refine ⟨x, res, e1, e2, fun i hi => ?_⟩
  obtain ⟨b, b1, b2⟩ := e3 i hi
  refine ⟨b, b1, b2.trans ?_⟩
  rw [abs_of_pos (show (0 : ℝ) < 3 / 100 by norm_num)]
  have h1 : max (1 * exp (3 / 100 * 1)) (120 * 120 / 1000000 * exp ((3 / 100 + 15 / 100 * (15 / 100)) * 1)) ≤ 11 / 10 := by
    refine max_le (by rw [one_mul, mul_one]; exact hexp) ?_
    linarith
  linarith

end Dal
