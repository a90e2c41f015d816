import Verif.Numeric.NormalLemmas
import Mathlib.Probability.Distributions.Gaussian.Real
import Mathlib.MeasureTheory.Group.IntegralConvolution
import Mathlib.MeasureTheory.Integral.IntegralEqImproper

/-! # Means of payoffs under the normal distribution -/

namespace Dal.Numeric
open Real Filter MeasureTheory ProbabilityTheory Topology

theorem pdf_eq (x : ℝ) : gaussianPDFReal 0 1 x = density x := by
  unfold gaussianPDFReal density
  rw [NNReal.coe_one, mul_one, mul_one, sub_zero, div_eq_mul_inv, mul_comm]
  congr 2
  ring

theorem mean_eq (h : ℝ → ℝ) : ∫ g, h g ∂gaussianReal 0 1 = ∫ g, density g * h g := by
  rw [integral_gaussianReal_eq_integral_smul one_ne_zero]
  simp only [pdf_eq, smul_eq_mul]

theorem density_shift (g v : ℝ) : density (g - v) = density g * exp (v * g - v * v / 2) := by
  unfold density
  rw [div_mul_eq_mul_div, ← exp_add]
  congr 2
  ring

theorem density_deriv (g : ℝ) : HasDerivAt density (-g * density g) g := by
  unfold density
  have h1 : HasDerivAt (fun z : ℝ => -(1 / 2) * z * z) (-g) g := by
    have := (((hasDerivAt_id g).const_mul (-(1 / 2) : ℝ)).mul (hasDerivAt_id g))
    refine this.congr_deriv ?_
    simp
    ring
  refine (h1.exp.div_const _).congr_deriv ?_
  ring

theorem density_even (g : ℝ) : density (-g) = density g := by
  unfold density
  congr 2
  ring

theorem density_atTop : Tendsto density atTop (𝓝 0) := by
  have h1 : Tendsto (fun z : ℝ => -(1 / 2) * z * z) atTop atBot := by
    have : Tendsto (fun z : ℝ => z * z) atTop atTop := tendsto_id.atTop_mul_atTop₀ tendsto_id
    have := this.const_mul_atTop_of_neg (by norm_num : (-(1 / 2) : ℝ) < 0)
    refine this.congr fun z => by ring
  have := (tendsto_exp_atBot.comp h1).div_const (√(2 * π))
  rw [zero_div] at this
  exact this

/-- A payoff that is the derivative of `H` where it is exercised. -/
theorem mean_exercised (a l : ℝ) (p q H : ℝ → ℝ) (hp : ∀ g, a < g → 0 ≤ q g) (heq : ∀ g, p g = if a < g then q g else 0) (hder : ∀ g, HasDerivAt H (density g * q g) g)
    (hl : Tendsto H atTop (𝓝 l)) : ∫ g, p g ∂gaussianReal 0 1 = l - H a := by
  rw [mean_eq]
  have h1 := integral_Ioi_of_hasDerivAt_of_nonneg' (fun g (_ : g ∈ Set.Ici a) => hder g) (fun g hg => mul_nonneg (density_pos g).le (hp g hg)) hl
  rw [← h1, ← setIntegral_eq_integral_of_forall_compl_eq_zero (s := Set.Ioi a)]
  · refine setIntegral_congr_fun measurableSet_Ioi fun g hg => ?_
    show density g * p g = density g * q g
    rw [heq, if_pos (by exact hg)]
  · intro g hg
    rw [heq, if_neg (by exact hg), mul_zero]

theorem exercise_iff {f k v : ℝ} (hf : 0 < f) (hk : 0 < k) (hv : 0 < v) (g : ℝ) : 0 < f * exp (v * g - v * v / 2) - k ↔ -dMinus f v k < g := by
  rw [sub_pos, mul_comm, ← div_lt_iff₀ hf, ← log_lt_iff_lt_exp (div_pos hk hf)]
  have : log (k / f) = -log (f / k) := by rw [← log_inv, inv_div]
  rw [this]
  unfold dMinus
  constructor
  · intro h
    have h2 : -(log (f / k) / v) < g - v / 2 := by
      rw [neg_div', div_lt_iff₀ hv]; linarith
    linarith
  · intro h
    have h2 : -(log (f / k) / v) < g - v / 2 := by linarith
    rw [neg_div', div_lt_iff₀ hv] at h2
    linarith

theorem call_mean {f k v : ℝ} (hf : 0 < f) (hk : 0 < k) (hv : 0 < v) :
    ∫ g, max 0 (f * exp (v * g - v * v / 2) - k) ∂gaussianReal 0 1 = f * ncdf (dMinus f v k + v) - k * ncdf (dMinus f v k) := by
  rw [mean_exercised (-dMinus f v k) (f * 1 - k * 1) _ (fun g => f * exp (v * g - v * v / 2) - k) (fun g => f * ncdf (g - v) - k * ncdf g)
    (fun g hg => ((exercise_iff hf hk hv g).2 hg).le) (fun g => ?_) (fun g => ?_) ?_]
  · have h1 : -dMinus f v k - v = -(dMinus f v k + v) := by ring
    simp only [h1, ncdf_neg]
    ring
  · exact ((ncdf_atTop.comp (tendsto_atTop_add_const_right _ (-v) tendsto_id)).const_mul f).sub (ncdf_atTop.const_mul k)
  · split_ifs with h
    · exact max_eq_right ((exercise_iff hf hk hv g).2 h).le
    · exact max_eq_left (not_lt.1 fun hc => h ((exercise_iff hf hk hv g).1 hc))
  · have h1 : HasDerivAt (fun s => ncdf (s - v)) (density (g - v)) g := by
      have := (ncdf_deriv (g - v)).comp g ((hasDerivAt_id g).sub_const v)
      rw [mul_one] at this
      exact this
    refine ((h1.const_mul f).sub ((ncdf_deriv g).const_mul k)).congr_deriv ?_
    rw [density_shift]; ring

theorem bachelier_mean {f k v : ℝ} (hv : 0 < v) :
    ∫ g, max 0 (f + v * g - k) ∂gaussianReal 0 1 = (f - k) * ncdf ((f - k) / v) + v * density ((f - k) / v) := by
  have hex : ∀ g, 0 < f + v * g - k ↔ -((f - k) / v) < g := by
    intro g
    rw [neg_div', div_lt_iff₀ hv]
    constructor <;> intro h <;> linarith
  rw [mean_exercised (-((f - k) / v)) ((f - k) * 1 - v * 0) _ (fun g => f + v * g - k) (fun g => (f - k) * ncdf g - v * density g)
    (fun g hg => ((hex g).2 hg).le) (fun g => ?_) (fun g => ?_) ?_]
  · simp only [ncdf_neg, density_even]
    ring
  · exact (ncdf_atTop.const_mul (f - k)).sub (density_atTop.const_mul v)
  · split_ifs with h
    · exact max_eq_right ((hex g).2 h).le
    · exact max_eq_left (not_lt.1 fun hc => h ((hex g).1 hc))
  · refine (((ncdf_deriv g).const_mul (f - k)).sub ((density_deriv g).const_mul v)).congr_deriv ?_
    ring

theorem integrable_exp (a b : ℝ) (m : ℝ) (w : NNReal) : Integrable (fun g => a * exp (b * g)) (gaussianReal m w) := (integrable_exp_mul_gaussianReal b).const_mul a

end Dal.Numeric
