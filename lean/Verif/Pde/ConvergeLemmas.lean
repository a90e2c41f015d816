import Verif.Pde.BlackLemmas
import Verif.Pde.RollProps

/-! # Smooth functions of two numbers have what the error bound needs; the value of an option up to today -/

namespace Dal.Fd
open Dal Dal.Numeric Real Set MeasureTheory ProbabilityTheory
open scoped ContDiff

noncomputable def dX (U : ℝ × ℝ → ℝ) (p : ℝ × ℝ) : ℝ := fderiv ℝ U p (0, 1)
noncomputable def dT (U : ℝ × ℝ → ℝ) (p : ℝ × ℝ) : ℝ := fderiv ℝ U p (1, 0)

variable {S : Set (ℝ × ℝ)} {U : ℝ × ℝ → ℝ}

theorem dX_smooth (hS : IsOpen S) (hU : ContDiffOn ℝ ∞ U S) : ContDiffOn ℝ ∞ (dX U) S := (hU.fderiv_of_isOpen hS (m := ∞) le_rfl).clm_apply contDiffOn_const
theorem dT_smooth (hS : IsOpen S) (hU : ContDiffOn ℝ ∞ U S) : ContDiffOn ℝ ∞ (dT U) S := (hU.fderiv_of_isOpen hS (m := ∞) le_rfl).clm_apply contDiffOn_const

theorem smooth_fderiv (hS : IsOpen S) (hU : ContDiffOn ℝ ∞ U S) {p : ℝ × ℝ} (hp : p ∈ S) : HasFDerivAt U (fderiv ℝ U p) p :=
  ((hU.contDiffAt (hS.mem_nhds hp)).differentiableAt (by simp)).hasFDerivAt

theorem dX_section (hS : IsOpen S) (hU : ContDiffOn ℝ ∞ U S) {t x : ℝ} (hp : (t, x) ∈ S) : HasDerivAt (fun y => U (t, y)) (dX U (t, x)) x :=
  (smooth_fderiv hS hU hp).comp_hasDerivAt x ((hasDerivAt_const x t).prodMk (hasDerivAt_id' x))

theorem dT_section (hS : IsOpen S) (hU : ContDiffOn ℝ ∞ U S) {t x s : ℝ} (hp : (t + s, x) ∈ S) : HasDerivAt (fun z => U (z + s, x)) (dT U (t + s, x)) t :=
  HasFDerivAt.comp_hasDerivAt (f := fun z => (z + s, x)) t (smooth_fderiv hS hU hp) (((hasDerivAt_id' t).add_const s).prodMk (hasDerivAt_const t x))

theorem smooth_bound (hU : ContDiffOn ℝ ∞ U S) {s T lo hi : ℝ} (hin : ∀ t ∈ Icc 0 T, ∀ x ∈ Icc lo hi, (t + s, x) ∈ S) :
    ∃ M, ∀ t ∈ Icc 0 T, ∀ x ∈ Icc lo hi, |U (t + s, x)| ≤ M := by
  have hc : IsCompact ((Icc 0 T) ×ˢ (Icc lo hi) : Set (ℝ × ℝ)) := isCompact_Icc.prod isCompact_Icc
  have hf : ContinuousOn (fun p : ℝ × ℝ => U (p.1 + s, p.2)) ((Icc 0 T) ×ˢ (Icc lo hi)) :=
    hU.continuousOn.comp (by fun_prop) fun p hp => hin p.1 hp.1 p.2 hp.2
  obtain ⟨M, hM⟩ := hc.exists_bound_of_continuousOn hf
  exact ⟨M, fun t ht x hx => hM (t, x) ⟨ht, hx⟩⟩

/-- What the error bound needs. -/
theorem smooth_regular (hS : IsOpen S) (hU : ContDiffOn ℝ ∞ U S) {s T lo hi : ℝ} (hin : ∀ t ∈ Icc 0 T, ∀ x ∈ Icc lo hi, (t + s, x) ∈ S) :
    ∃ Mt M3 M4, SmoothIn T lo hi (fun t x => U (t + s, x)) (fun t x => dX U (t + s, x)) (fun t x => dX (dX U) (t + s, x)) (fun t x => dX (dX (dX U)) (t + s, x))
      (fun t x => dX (dX (dX (dX U))) (t + s, x)) (fun t x => dT U (t + s, x)) (fun t x => dT (dT U) (t + s, x)) Mt M3 M4 := by
  have s1 := dX_smooth hS hU
  have s2 := dX_smooth hS s1
  have s3 := dX_smooth hS s2
  have s4 := dX_smooth hS s3
  have r1 := dT_smooth hS hU
  have r2 := dT_smooth hS r1
  obtain ⟨Mt, b1⟩ := smooth_bound r2 hin
  obtain ⟨M3, b2⟩ := smooth_bound s3 hin
  obtain ⟨M4, b3⟩ := smooth_bound s4 hin
  exact ⟨Mt, M3, M4, fun t ht x hx => dX_section hS hU (hin t ht x hx), fun t ht x hx => dX_section hS s1 (hin t ht x hx), fun t ht x hx => dX_section hS s2 (hin t ht x hx),
    fun t ht x hx => dX_section hS s3 (hin t ht x hx), fun t ht x hx => dT_section hS hU (hin t ht x hx), fun t ht x hx => dT_section hS r1 (hin t ht x hx), b1, b2, b3⟩

/-! ### The value of an option -/

/-- A multiple of the call and of the forward contract: calls, puts and straddles. -/
noncomputable def optValue (al be r q v K t x : ℝ) : ℝ := al * callValue r q v K t x + be * (x * exp (-q * t) - K * exp (-r * t))

theorem opt_smooth (al be r q : ℝ) {v : ℝ} (K : ℝ) (hv : 0 < v) : ContDiffOn ℝ ∞ (fun p : ℝ × ℝ => optValue al be r q v K p.1 p.2) after := by
  unfold optValue
  have h : ContDiffOn ℝ ∞ (fun p : ℝ × ℝ => p.2 * exp (-q * p.1) - K * exp (-r * p.1)) after := by
    apply ContDiff.contDiffOn
    fun_prop
  exact (contDiffOn_const.mul (call_smooth r q K hv)).add (contDiffOn_const.mul h)

/-- The pricing equation for the option. -/
theorem opt_pde (al be : ℝ) {r q v K t x : ℝ} (hv : 0 < v) (hK : 0 < K) (ht : 0 < t) (hx : 0 < x) :
    dT (fun p => optValue al be r q v K p.1 p.2) (t, x) = (r - q) * x * dX (fun p => optValue al be r q v K p.1 p.2) (t, x) +
      1 / 2 * (v * v * x * x) * dX (dX fun p => optValue al be r q v K p.1 p.2) (t, x) - r * optValue al be r q v K t x := by
  have hU := opt_smooth al be r q K hv
  have hx1 : ∀ y, 0 < y → dX (fun p => optValue al be r q v K p.1 p.2) (t, y) = al * (exp (-q * t) * ncdf (dLow r q v K t y + v * √t)) + be * exp (-q * t) := by
    intro y hy
    have h1 := dX_section after_open hU (show (t, y) ∈ after from ⟨ht, hy⟩)
    have h2 : HasDerivAt (fun y => optValue al be r q v K t y) (al * (exp (-q * t) * ncdf (dLow r q v K t y + v * √t)) + be * exp (-q * t)) y := by
      unfold optValue
      have h3 := (((hasDerivAt_id' y).mul_const (exp (-q * t))).sub_const (K * exp (-r * t))).const_mul be
      rw [one_mul] at h3
      exact ((call_dx hv hK ht hy).const_mul al).add h3
    exact h1.unique h2
  have hx2 : dX (dX fun p => optValue al be r q v K p.1 p.2) (t, x) = al * (exp (-q * t) * (density (dLow r q v K t x + v * √t) * (1 / x / (v * √t)))) := by
    have h1 := dX_section after_open (dX_smooth after_open hU) (show (t, x) ∈ after from ⟨ht, hx⟩)
    have h2 := ((call_dxx (r := r) (q := q) (v := v) (K := K) (t := t) hx).const_mul al).add_const (be * exp (-q * t))
    refine h1.unique (h2.congr_of_eventuallyEq ?_)
    filter_upwards [lt_mem_nhds hx] with y hy
    exact hx1 y hy
  have hdt : dT (fun p => optValue al be r q v K p.1 p.2) (t, x) = al * (-q * (x * exp (-q * t) * ncdf (dLow r q v K t x + v * √t)) + r * (K * exp (-r * t) * ncdf (dLow r q v K t x)) +
      x * exp (-q * t) * density (dLow r q v K t x + v * √t) * (v * (1 / (2 * √t)))) + be * (x * (exp (-q * t) * (-q * 1)) - K * (exp (-r * t) * (-r * 1))) := by
    have h1 := dT_section (s := 0) (t := t) (x := x) after_open hU (by rw [add_zero]; exact ⟨ht, hx⟩)
    simp only [add_zero] at h1
    have e1 : HasDerivAt (fun t => exp (-q * t)) (exp (-q * t) * (-q * 1)) t := ((hasDerivAt_id' t).const_mul (-q)).exp
    have e2 : HasDerivAt (fun t => exp (-r * t)) (exp (-r * t) * (-r * 1)) t := ((hasDerivAt_id' t).const_mul (-r)).exp
    refine h1.unique ?_
    unfold optValue
    exact ((call_dt hv hK ht hx).const_mul al).add (((e1.const_mul x).sub (e2.const_mul K)).const_mul be)
  rw [hdt, hx1 x hx, hx2, call_pde hv ht hx]
  unfold optValue
  ring

/-- The discounted mean of the payoff, up to today. -/
noncomputable def meanValue (p : ℝ → ℝ) (r q v t x : ℝ) : ℝ := exp (-r * t) * lognormalMean p (x * exp ((r - q) * t)) (v * √t)

theorem mean_today (p : ℝ → ℝ) (r q v x : ℝ) : meanValue p r q v 0 x = p x := by
  simp [meanValue, lognormalMean]

theorem mean_opt {p : ℝ → ℝ} {al be r q v K t x : ℝ} (hp : ∀ s, p s = al * max 0 (s - K) + be * (s - K)) (hv : 0 < v) (hK : 0 < K) (ht : 0 < t) (hx : 0 < x) :
    meanValue p r q v t x = optValue al be r q v K t x := by
  have hf : 0 < x * exp ((r - q) * t) := mul_pos hx (exp_pos _)
  have hs : 0 < v * √t := mul_pos hv (sqrt_pos.2 ht)
  have h1 : lognormalMean p (x * exp ((r - q) * t)) (v * √t) = al * (x * exp ((r - q) * t) * ncdf (dLow r q v K t x + v * √t) - K * ncdf (dLow r q v K t x)) + be * (x * exp ((r - q) * t) - K) := by
    have hi := lognormal_integrable (x * exp ((r - q) * t)) (v * √t)
    have hc := lognormal_call_integrable (x * exp ((r - q) * t)) (v * √t) K
    rw [lognormalMean]
    simp only [hp]
    rw [integral_add (hc.const_mul al) (show Integrable (fun g => be * (x * exp ((r - q) * t) * exp (v * √t * g - v * √t * (v * √t) / 2) - K)) _ from (hi.sub (integrable_const K)).const_mul be),
      integral_const_mul, integral_const_mul, integral_sub hi (integrable_const K), lognormal_mean, call_mean hf hK hs, dLow_eq hK hx, integral_const]
    simp
  rw [meanValue, h1, optValue, callValue]
  have e : exp (-q * t) = exp (-r * t) * exp ((r - q) * t) := by rw [← exp_add]; congr 1; ring
  rw [e]
  ring

/-- Continuous up to today. -/
theorem mean_continuous {p : ℝ → ℝ} {c d : ℝ} (hp : Continuous p) (hb : ∀ s, |p s| ≤ c * |s| + d) (hc : 0 ≤ c) (hd : 0 ≤ d) (r q v T lo hi : ℝ) :
    ContinuousOn (fun z : ℝ × ℝ => meanValue p r q v z.1 z.2) (Icc 0 T ×ˢ Icc lo hi) := by
  unfold meanValue lognormalMean
  refine ContinuousOn.mul (by fun_prop) ?_
  set A := max |lo| |hi| * exp (|r - q| * T) with hA
  set w := |v| * √T with hw
  have hint : Integrable (fun g : ℝ => c * (A * (exp (w * g) + exp (-w * g))) + d) (gaussianReal 0 1) :=
    ((((integrable_exp_mul_gaussianReal w).add (integrable_exp_mul_gaussianReal (-w))).const_mul A).const_mul c).add (integrable_const d)
  refine continuousOn_of_dominated (bound := fun g : ℝ => c * (A * (exp (w * g) + exp (-w * g))) + d) (fun z _ => ?_) (fun z hz => Filter.Eventually.of_forall fun g => ?_) hint
    (Filter.Eventually.of_forall fun g => ?_)
  · exact (hp.comp (by fun_prop)).aestronglyMeasurable
  · obtain ⟨⟨t0, t1⟩, x0, x1⟩ := hz
    refine (hb _).trans ?_
    have k1 : |z.2 * exp ((r - q) * z.1) * exp (v * √z.1 * g - v * √z.1 * (v * √z.1) / 2)| ≤ A * (exp (w * g) + exp (-w * g)) := by
      rw [abs_mul, abs_mul, abs_of_pos (exp_pos _), abs_of_pos (exp_pos _), hA]
      have m1 : |z.2| ≤ max |lo| |hi| := abs_le_max_abs_abs x0 x1
      have m2 : exp ((r - q) * z.1) ≤ exp (|r - q| * T) :=
        exp_le_exp.2 ((mul_le_mul_of_nonneg_right (le_abs_self _) t0).trans (mul_le_mul_of_nonneg_left t1 (abs_nonneg _)))
      have m3 : exp (v * √z.1 * g - v * √z.1 * (v * √z.1) / 2) ≤ exp (w * g) + exp (-w * g) := by
        have q1 : v * √z.1 * g - v * √z.1 * (v * √z.1) / 2 ≤ |v * √z.1 * g| := by
          have := mul_self_nonneg (v * √z.1)
          linarith [le_abs_self (v * √z.1 * g)]
        have q2 : |v * √z.1 * g| ≤ w * |g| := by
          rw [abs_mul, abs_mul, abs_of_nonneg (sqrt_nonneg _), hw]
          exact mul_le_mul_of_nonneg_right (mul_le_mul_of_nonneg_left (sqrt_le_sqrt t1) (abs_nonneg _)) (abs_nonneg _)
        have q3 : exp (w * |g|) ≤ exp (w * g) + exp (-w * g) := by
          rcases abs_cases g with ⟨h, _⟩ | ⟨h, _⟩
          · rw [h]; linarith [exp_pos (-w * g)]
          · rw [h, show w * -g = -w * g by ring]; linarith [exp_pos (w * g)]
        exact (exp_le_exp.2 (q1.trans q2)).trans q3
      exact mul_le_mul (mul_le_mul m1 m2 (exp_pos _).le ((abs_nonneg _).trans m1)) m3 (exp_pos _).le (mul_nonneg ((abs_nonneg _).trans m1) (exp_pos _).le)
    have := mul_le_mul_of_nonneg_left k1 hc
    linarith
  · exact (hp.comp (by fun_prop)).continuousOn

end Dal.Fd
