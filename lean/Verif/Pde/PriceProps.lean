import Verif.Pde.CallProps
import Verif.Interp.CubicProps

/-!
# C107: the price that the finite-difference example prints

Specification: Black's formula at the spot, which need not be on the grid.
-/

namespace Dal
open Dal.Fd Dal.Numeric Real Set MeasureTheory ProbabilityTheory

/-- A call moves by no more than its forward. -/
private theorem call_lipschitz (f g w K : ℝ) : |lognormalMean (fun s => max 0 (s - K)) f w - lognormalMean (fun s => max 0 (s - K)) g w| ≤ |f - g| := by
  rw [lognormalMean, lognormalMean, ← integral_sub (lognormal_call_integrable f w K) (lognormal_call_integrable g w K)]
  refine (abs_integral_le_integral_abs).trans ?_
  calc _ ≤ ∫ z, |f - g| * exp (w * z - w * w / 2) ∂gaussianReal 0 1 := by
        refine integral_mono ((lognormal_call_integrable f w K).sub (lognormal_call_integrable g w K)).abs (lognormal_integrable |f - g| w) fun z => ?_
        show |max 0 (f * exp (w * z - w * w / 2) - K) - max 0 (g * exp (w * z - w * w / 2) - K)| ≤ |f - g| * exp (w * z - w * w / 2)
        rw [max_comm 0, max_comm 0]
        refine (abs_max_sub_max_le_abs _ _ _).trans (le_of_eq ?_)
        rw [sub_sub_sub_cancel_right, ← sub_mul, abs_mul, abs_of_pos (exp_pos _)]
    _ = |f - g| := lognormal_mean _ w

/-- Some cell of a grid holds a point between its ends. -/
private theorem cell_of (x : Nat → ℝ) (z : ℝ) : ∀ n, 1 ≤ n → x 0 ≤ z → z ≤ x n → ∃ k, k + 1 ≤ n ∧ x k ≤ z ∧ z ≤ x (k + 1) := by
  intro n
  induction n with
  | zero => intro h; omega
  | succ n ih =>
    intro _ h0 h1
    by_cases h : x n ≤ z
    · exact ⟨n, le_rfl, h, h1⟩
    · by_cases hn : n = 0
      · subst hn; exact absurd h0 h
      · obtain ⟨k, a, b, c⟩ := ih (by omega) h0 (not_le.1 h).le
        exact ⟨k, by omega, b, c⟩

/-- C107: the example program, fully implicit, from a positive lowest spot, with the spline that reads off the price. Whatever the precision, with enough points and steps the price printed for any spot
between the ends of the grid is within it of the discounted Black price, but for five times what the edges miss. -/
theorem C107_price {eps : ℝ} (heps : 0 < eps) (heps1 : eps ≤ 1) {rate div vol K T lo hi : ℝ} (hr : 0 ≤ rate) (hv : 0 < vol) (hK : 0 < K) (hT : 0 < T) (hlo : 0 < lo) (hhi : lo < hi)
    (he : epsilon ≤ vol * √T) (hk : epsilon ≤ lo * exp ((rate - div) * T) * K) {ε : ℝ} (hε : 0 < ε) :
    ∃ n0 N0 : ℕ, ∀ n N : ℕ, n0 ≤ n → N0 ≤ N → ∀ null, ∃ x, uniform null lo hi n = some x ∧ ∀ spot, lo ≤ spot → spot ≤ hi → ∃ price b,
      fdPrice eps x rate div vol (T / N) 1 (fun s => max 0 (s - K)) (fun k => (0, hi * exp (-div * (k * (T / N))) - exp (-rate * (k * (T / N))) * K)) N spot = some price ∧
      blackOpt (spot * exp ((rate - div) * T)) (vol * √T) K .call = some b ∧
      |price - exp (-rate * T) * b| ≤ 5 * max (lo * exp (|div| * T)) (K * K / hi * exp ((|div| + vol * vol) * T)) + ε := by
  obtain ⟨n1, N1, H⟩ := C107_call heps heps1 hr hv hK hT hlo hhi he hk (show 0 < ε / 10 by linarith)
  generalize max (lo * exp (|div| * T)) (K * K / hi * exp ((|div| + vol * vol) * T)) = E at H ⊢
  have hD : 0 < exp (-div * T) := exp_pos _
  obtain ⟨n2, hn2⟩ := exists_nat_ge ((hi - lo) * exp (-div * T) / (ε / 6) + 1)
  refine ⟨max n1 (max n2 3), N1, fun n N hn hN null => ?_⟩
  have n3 : 3 ≤ n := (le_max_right _ _).trans ((le_max_right _ _).trans hn)
  have hn1 : (0 : ℝ) < n - 1 := by
    have : (3 : ℝ) ≤ n := by exact_mod_cast n3
    linarith
  obtain ⟨x, res, ex, er, rs, rb⟩ := H n N ((le_max_left _ _).trans hn) hN null
  obtain ⟨x', ex', xn, xg, x0, x1, xs⟩ := C60_uniform_grid null lo hi n hhi (by omega)
  obtain rfl : x = x' := Option.some.inj (ex.symm.trans ex')
  refine ⟨x, ex, fun spot s0 s1 => ?_⟩
  have hd : 0 < (hi - lo) / ((n : ℝ) - 1) := div_pos (by linarith) hn1
  -- the true price as a function of the spot
  have hfd : ∀ s, lo ≤ s → blackOpt (s * exp ((rate - div) * T)) (vol * √T) K .call = some (lognormalMean (fun s => max 0 (s - K)) (s * exp ((rate - div) * T)) (vol * √T)) := fun s hs =>
    C97_black .call _ _ K (fun s => max 0 (s - K)) (fun s => rfl) (mul_pos (hlo.trans_le hs) (exp_pos _)) hK he
      (hk.trans (mul_le_mul_of_nonneg_right (mul_le_mul_of_nonneg_right hs (exp_pos _).le) hK.le))
  obtain ⟨u, hu⟩ : ∃ u : ℝ → ℝ, u = fun s => exp (-rate * T) * lognormalMean (fun s => max 0 (s - K)) (s * exp ((rate - div) * T)) (vol * √T) := ⟨_, rfl⟩
  have hlip : ∀ a b, |u a - u b| ≤ |a - b| * exp (-div * T) := by
    intro a b
    rw [hu]
    dsimp only
    rw [← mul_sub, abs_mul, abs_of_pos (exp_pos _)]
    refine (mul_le_mul_of_nonneg_left (call_lipschitz _ _ _ _) (exp_pos _).le).trans (le_of_eq ?_)
    rw [← sub_mul, abs_mul, abs_of_pos (exp_pos _), mul_left_comm, ← exp_add]
    congr 2
    ring
  have hge : ∀ i, i < n → lo ≤ x.loc i := by
    intro i
    induction i with
    | zero => intro _; rw [x0]
    | succ i ih => intro hi'; linarith [ih (by omega), xs i hi']
  have herr : ∀ i, i < n → |res.v i - u (x.loc i)| ≤ E + ε / 10 := by
    intro i hi'
    obtain ⟨b, b1, b2⟩ := rb i hi'
    rw [hfd _ (hge i hi')] at b1
    rw [hu]
    dsimp only
    rw [Option.some.inj b1]
    exact b2
  have hsmall : (hi - lo) / ((n : ℝ) - 1) * exp (-div * T) ≤ ε / 6 := by
    have h1 : (hi - lo) * exp (-div * T) / (ε / 6) ≤ n - 1 := by
      have := hn2.trans (Nat.cast_le.2 ((le_max_left _ _).trans ((le_max_right _ _).trans hn)))
      linarith
    rw [div_le_iff₀ (by linarith)] at h1
    rw [div_mul_eq_mul_div, div_le_iff₀ hn1]
    linarith
  have hstep : ∀ a b, |a - b| ≤ (hi - lo) / ((n : ℝ) - 1) → |u a - u b| ≤ ε / 6 := fun a b h => (hlip a b).trans ((mul_le_mul_of_nonneg_right h hD.le).trans hsmall)
  have hW : ∀ k, k + 1 < n → |res.v (k + 1) - res.v k| ≤ 2 * E + ε / 5 + ε / 6 := by
    intro k hk'
    have a1 := abs_le.1 (herr k (by omega))
    have a2 := abs_le.1 (herr (k + 1) hk')
    have a3 := abs_le.1 (hstep (x.loc (k + 1)) (x.loc k) (by rw [xs k hk', abs_of_pos hd]))
    rw [abs_le]
    constructor <;> linarith [a1.1, a1.2, a2.1, a2.2, a3.1, a3.2]
  have hsome := (C49_accepted x.n res.size x.loc res.v ⟨2, 0⟩ ⟨2, 0⟩).2 ⟨by omega, by rw [xn, rs], fun i hi' => by linarith [xs i (by omega)], Or.inr (Or.inl rfl), Or.inr (Or.inl rfl)⟩
  obtain ⟨c, hc⟩ := Option.isSome_iff_exists.1 hsome
  refine ⟨c.eval spot, _, ?_, hfd spot s0, ?_⟩
  · rw [fdPrice, er, Option.bind_some, hc, Option.map_some]
  · obtain ⟨k, k1, k2, k3⟩ := cell_of x.loc spot (n - 1) (by omega) (by rw [x0]; exact s0) (by rw [x1]; exact s1)
    have hk1 : k + 1 < n := by omega
    have q1 := abs_le.1 (C49_natural hc hd (fun k hk => xs k (by omega)) (fun k hk => hW k (by omega)) k (by omega) spot k2 k3)
    have q2 := abs_le.1 (herr k (by omega))
    have q3 := abs_le.1 (hstep (x.loc k) spot (by rw [abs_sub_comm, abs_of_nonneg (by linarith)]; linarith [xs k hk1]))
    have eu : exp (-rate * T) * lognormalMean (fun s => max 0 (s - K)) (spot * exp ((rate - div) * T)) (vol * √T) = u spot := by rw [hu]
    rw [eu, abs_le]
    constructor <;> linarith [q1.1, q1.2, q2.1, q2.2, q3.1, q3.2]

/-! ### The hypotheses hold -/

/-- The numbers of the example, with a lowest spot of one cent. -/
example : (0 : ℝ) ≤ 0.05 ∧ (0 : ℝ) < 0.15 ∧ (0.01 : ℝ) < 500 ∧ epsilon ≤ (0.15 : ℝ) * √3 ∧ epsilon ≤ (0.01 : ℝ) * exp ((0.05 - 0.03) * 3) * 120 := by
  have h1 : (1 : ℝ) ≤ √3 := Real.one_le_sqrt.2 (by norm_num)
  have h2 : (1 : ℝ) ≤ exp ((0.05 - 0.03) * 3) := Real.one_le_exp (by norm_num)
  refine ⟨by norm_num, by norm_num, by norm_num, ?_, ?_⟩
  · rw [epsilon]; norm_num; linarith
  · rw [epsilon]; norm_num; linarith

end Dal
