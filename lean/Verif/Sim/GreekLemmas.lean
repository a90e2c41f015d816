import Verif.Sim.PriceProps
import Verif.Numeric.ImpliedLemmas
import Mathlib.Probability.Moments.IntegrableExpMul

/-! # Means of the derivatives of payoffs -/

namespace Dal.Numeric
open Real Filter MeasureTheory ProbabilityTheory Topology Dal.Implied

/-- The spot is a log-normal number. -/
noncomputable def spotAt (f v g : ℝ) : ℝ := f * exp (v * g - v * v / 2)

theorem spotAt_integrable (f v : ℝ) : Integrable (fun g => spotAt f v g) (gaussianReal 0 1) := by
  have h := integrable_exp (f * exp (-(v * v / 2))) v 0 1
  refine h.congr (Eventually.of_forall fun g => ?_)
  show f * exp (-(v * v / 2)) * exp (v * g) = f * exp (v * g - v * v / 2)
  rw [mul_assoc, ← exp_add]
  congr 2
  ring

theorem spotAt_linear_integrable (f v : ℝ) : Integrable (fun g => spotAt f v g * g) (gaussianReal 0 1) := by
  have h := integrable_pow_mul_exp_of_mem_interior_integrableExpSet (X := id) (μ := gaussianReal 0 1) (v := v) (by rw [integrableExpSet_id_gaussianReal]; simp) 1
  refine (h.const_mul (f * exp (-(v * v / 2)))).congr (Eventually.of_forall fun g => ?_)
  show f * exp (-(v * v / 2)) * (g ^ 1 * exp (v * g)) = f * exp (v * g - v * v / 2) * g
  rw [show v * g - v * v / 2 = -(v * v / 2) + v * g by ring, exp_add]
  ring

theorem spotAt_measurable (f v : ℝ) : Measurable fun g => spotAt f v g := by unfold spotAt; fun_prop

theorem region_measurable (k f v : ℝ) : MeasurableSet {g | k < spotAt f v g} := measurableSet_lt measurable_const (spotAt_measurable f v)

theorem region_iff {f k v : ℝ} (hf : 0 < f) (hk : 0 < k) (hv : 0 < v) (g : ℝ) : k < spotAt f v g ↔ -dMinus f v k < g := by
  rw [← exercise_iff hf hk hv g, sub_pos]; rfl

private theorem shifted (v g : ℝ) : HasDerivAt (fun s => ncdf (s - v)) (density (g - v)) g := by
  have := (ncdf_deriv (g - v)).comp g ((hasDerivAt_id g).sub_const v)
  rw [mul_one] at this
  exact this

private theorem shifted_density (v g : ℝ) : HasDerivAt (fun s => density (s - v)) (-(g - v) * density (g - v)) g := by
  have := (density_deriv (g - v)).comp g ((hasDerivAt_id g).sub_const v)
  rw [mul_one] at this
  exact this

theorem mean_one {f k v : ℝ} (hf : 0 < f) (hk : 0 < k) (hv : 0 < v) :
    ∫ g, (if k < spotAt f v g then (1 : ℝ) else 0) ∂gaussianReal 0 1 = ncdf (dMinus f v k) := by
  rw [mean_exercised (-dMinus f v k) 1 _ (fun _ => 1) ncdf (fun _ _ => zero_le_one) (fun g => ?_) (fun g => ?_) ncdf_atTop]
  · rw [ncdf_neg]; ring
  · simp only [region_iff hf hk hv]
  · rw [mul_one]; exact ncdf_deriv g

theorem mean_spot {f k v : ℝ} (hf : 0 < f) (hk : 0 < k) (hv : 0 < v) :
    ∫ g, (if k < spotAt f v g then spotAt f v g else 0) ∂gaussianReal 0 1 = f * ncdf (dMinus f v k + v) := by
  rw [mean_exercised (-dMinus f v k) (f * 1) _ (fun g => spotAt f v g) (fun g => f * ncdf (g - v)) (fun g _ => (mul_pos hf (exp_pos _)).le) (fun g => ?_) (fun g => ?_)
    ((ncdf_atTop.comp (tendsto_atTop_add_const_right _ (-v) tendsto_id)).const_mul f)]
  · rw [show -dMinus f v k - v = -(dMinus f v k + v) by ring, ncdf_neg]; ring
  · simp only [region_iff hf hk hv]
  · refine ((shifted v g).const_mul f).congr_deriv ?_
    rw [density_shift, spotAt]; ring

theorem mean_spot_linear {f k v : ℝ} (hf : 0 < f) (hk : 0 < k) (hv : 0 < v) :
    ∫ g, (if k < spotAt f v g then spotAt f v g * (g + dMinus f v k) else 0) ∂gaussianReal 0 1 =
      f * ((v + dMinus f v k) * ncdf (dMinus f v k + v) + density (dMinus f v k + v)) := by
  have hd : Tendsto (fun g => density (g - v)) atTop (𝓝 0) := density_atTop.comp (tendsto_atTop_add_const_right _ (-v) tendsto_id)
  rw [mean_exercised (-dMinus f v k) (f * ((v + dMinus f v k) * 1 - 0)) _ (fun g => spotAt f v g * (g + dMinus f v k))
    (fun g => f * ((v + dMinus f v k) * ncdf (g - v) - density (g - v)))
    (fun g hg => mul_nonneg (mul_pos hf (exp_pos _)).le (by linarith)) (fun g => ?_) (fun g => ?_)
    ((((ncdf_atTop.comp (tendsto_atTop_add_const_right _ (-v) tendsto_id)).const_mul _).sub hd).const_mul f)]
  · rw [show -dMinus f v k - v = -(dMinus f v k + v) by ring, ncdf_neg, density_even]; ring
  · simp only [region_iff hf hk hv]
  · refine ((((shifted v g).const_mul (v + dMinus f v k)).sub (shifted_density v g)).const_mul f).congr_deriv ?_
    rw [density_shift, spotAt]; ring

theorem region_integrable {p : ℝ → ℝ} (k f v : ℝ) (h : Integrable p (gaussianReal 0 1)) : Integrable (fun g => if k < spotAt f v g then p g else 0) (gaussianReal 0 1) := by
  have := h.indicator (region_measurable k f v)
  refine this.congr (Eventually.of_forall fun g => ?_)
  simp only [Set.indicator, Set.mem_setOf_eq]

theorem linear_integrable (f v a b c : ℝ) : Integrable (fun g => spotAt f v g * (a + b * g) - c) (gaussianReal 0 1) := by
  refine (((spotAt_integrable f v).const_mul a).add ((spotAt_linear_integrable f v).const_mul b)).sub (integrable_const c) |>.congr (Eventually.of_forall fun g => ?_)
  show a * spotAt f v g + b * (spotAt f v g * g) - c = _
  ring

/-- What an exercised payoff contributes to a derivative. -/
theorem mean_call_side {f k v : ℝ} (hf : 0 < f) (hk : 0 < k) (hv : 0 < v) (a b c : ℝ) :
    ∫ g, (if k < spotAt f v g then spotAt f v g * (a + b * g) - c else 0) ∂gaussianReal 0 1 =
      f * ((a + b * v) * ncdf (dMinus f v k + v) + b * density (dMinus f v k + v)) - c * ncdf (dMinus f v k) := by
  have h1 : ∀ g, (if k < spotAt f v g then spotAt f v g * (a + b * g) - c else 0) =
      (a - b * dMinus f v k) * (if k < spotAt f v g then spotAt f v g else 0) + b * (if k < spotAt f v g then spotAt f v g * (g + dMinus f v k) else 0) -
        c * (if k < spotAt f v g then (1 : ℝ) else 0) := by
    intro g
    split_ifs
    · ring
    · ring
  have i1 := (region_integrable k f v (spotAt_integrable f v)).const_mul (a - b * dMinus f v k)
  have i2 : Integrable (fun g => spotAt f v g * (g + dMinus f v k)) (gaussianReal 0 1) := by
    refine ((spotAt_linear_integrable f v).add ((spotAt_integrable f v).const_mul (dMinus f v k))).congr (Eventually.of_forall fun g => ?_)
    show spotAt f v g * g + dMinus f v k * spotAt f v g = _
    ring
  have i2 := (region_integrable k f v i2).const_mul b
  have i3 := (region_integrable k f v (integrable_const (μ := gaussianReal 0 1) (1 : ℝ))).const_mul c
  simp only [h1]
  have i12 : Integrable (fun g => (a - b * dMinus f v k) * (if k < spotAt f v g then spotAt f v g else 0) +
      b * (if k < spotAt f v g then spotAt f v g * (g + dMinus f v k) else 0)) (gaussianReal 0 1) := i1.add i2
  rw [integral_sub i12 i3, integral_add i1 i2, integral_const_mul, integral_const_mul, integral_const_mul, mean_one hf hk hv, mean_spot hf hk hv,
    mean_spot_linear hf hk hv]
  ring

theorem density_integrable {q : ℝ → ℝ} (h : Integrable q (gaussianReal 0 1)) : Integrable fun g => density g * q g := by
  rw [gaussianReal_of_var_ne_zero _ one_ne_zero, integrable_withDensity_iff_integrable_smul' (measurable_gaussianPDF 0 1) (Eventually.of_forall fun _ => gaussianPDF_lt_top)] at h
  refine h.congr (Eventually.of_forall fun g => ?_)
  show (gaussianPDF 0 1 g).toReal • q g = density g * q g
  rw [toReal_gaussianPDF, pdf_eq, smul_eq_mul]

theorem density_atBot : Tendsto density atBot (𝓝 0) := (density_atTop.comp tendsto_neg_atBot_atTop).congr fun g => density_even g

theorem mean_all (f v a b c : ℝ) : ∫ g, (spotAt f v g * (a + b * g) - c) ∂gaussianReal 0 1 = f * (a + b * v) - c := by
  rw [mean_eq]
  have hT : Tendsto (fun g : ℝ => g - v) atTop atTop := tendsto_atTop_add_const_right _ (-v) tendsto_id
  have hB : Tendsto (fun g : ℝ => g - v) atBot atBot := tendsto_atBot_add_const_right _ (-v) tendsto_id
  rw [integral_of_hasDerivAt_of_tendsto (f := fun g => f * ((a + b * v) * ncdf (g - v) - b * density (g - v)) - c * ncdf g) (fun g => ?_)
    (density_integrable (linear_integrable f v a b c))
    (((((ncdf_atBot.comp hB).const_mul (a + b * v)).sub ((density_atBot.comp hB).const_mul b)).const_mul f).sub (ncdf_atBot.const_mul c))
    (((((ncdf_atTop.comp hT).const_mul (a + b * v)).sub ((density_atTop.comp hT).const_mul b)).const_mul f).sub (ncdf_atTop.const_mul c))]
  · ring
  · refine (((((shifted v g).const_mul (a + b * v)).sub ((shifted_density v g).const_mul b)).const_mul f).sub ((ncdf_deriv g).const_mul c)).congr_deriv ?_
    rw [density_shift, spotAt]; ring

/-- What an exercised put contributes to a derivative. -/
theorem mean_put_side {f k v : ℝ} (hf : 0 < f) (hk : 0 < k) (hv : 0 < v) (a b c : ℝ) :
    ∫ g, (if k < spotAt f v g then 0 else c - spotAt f v g * (a + b * g)) ∂gaussianReal 0 1 =
      c * (1 - ncdf (dMinus f v k)) - f * ((a + b * v) * (1 - ncdf (dMinus f v k + v)) - b * density (dMinus f v k + v)) := by
  have h1 : ∀ g, (if k < spotAt f v g then 0 else c - spotAt f v g * (a + b * g)) =
      (if k < spotAt f v g then spotAt f v g * (a + b * g) - c else 0) - (spotAt f v g * (a + b * g) - c) := by
    intro g
    split_ifs <;> ring
  simp only [h1]
  rw [integral_sub (region_integrable k f v (linear_integrable f v a b c)) (linear_integrable f v a b c), mean_call_side hf hk hv, mean_all]
  ring

/-- The derivative of the price of a call when forward, strike and deviation move together. -/
theorem call_moves {F K v : ℝ → ℝ} {F' K' v' u : ℝ} (hF : HasDerivAt F F' u) (hK : HasDerivAt K K' u) (hv : HasDerivAt v v' u) (f0 : 0 < F u) (k0 : 0 < K u) (v0 : 0 < v u) :
    HasDerivAt (fun t => callF (F t) (K t) (v t))
      (F' * ncdf (dMinus (F u) (v u) (K u) + v u) - K' * ncdf (dMinus (F u) (v u) (K u)) + F u * density (dMinus (F u) (v u) (K u) + v u) * v') u := by
  obtain ⟨m, hm⟩ : ∃ m, HasDerivAt (fun t => dMinus (F t) (v t) (K t)) m u := by
    unfold dMinus
    exact ⟨_, ((((hF.div hK k0.ne').log (div_pos f0 k0).ne').div hv v0.ne').sub (hv.const_mul (1 / 2)))⟩
  have h1 := (ncdf_deriv (dMinus (F u) (v u) (K u))).comp u hm
  have h2 := (ncdf_deriv (dMinus (F u) (v u) (K u) + v u)).comp u (hm.add hv)
  refine ((hF.mul h2).sub (hK.mul h1)).congr_deriv ?_
  have hk := black_key f0 k0 v0
  simp only [Function.comp]
  linear_combination (m) * hk

end Dal.Numeric
