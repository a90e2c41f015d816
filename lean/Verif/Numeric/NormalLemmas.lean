import Verif.Numeric.OptionModel
import Mathlib.Analysis.SpecialFunctions.Gaussian.GaussianIntegral
import Mathlib.MeasureTheory.Integral.IntervalIntegral.FundThmCalculus
import Mathlib.Analysis.Calculus.Deriv.MeanValue
import Mathlib.MeasureTheory.Integral.IntegralEqImproper
import Mathlib.Tactic.FieldSimp
import Mathlib.Tactic.Linarith
import Mathlib.Tactic.Ring

/-! Facts about the normal distribution function of `OptionModel`. -/

namespace Dal.Numeric

open Real Filter Topology MeasureTheory

theorem erfc_neg (x : ℝ) : erfc (-x) = 2 - erfc x := by
  unfold erfc
  have h := intervalIntegral.integral_comp_neg (a := 0) (b := x) (fun t : ℝ => exp (-1 * t ^ 2))
  rw [neg_zero] at h
  rw [intervalIntegral.integral_symm (-x) 0, ← h]
  have : (∫ t in (0 : ℝ)..x, exp (-1 * (-t) ^ 2)) = ∫ t in (0 : ℝ)..x, exp (-1 * t ^ 2) := by
    congr 1; funext t; rw [neg_sq]
  rw [this]
  ring

/-- The distribution function is symmetric. -/
theorem ncdf_neg (x : ℝ) : ncdf (-x) = 1 - ncdf x := by
  unfold ncdf
  rw [neg_neg, show x / √2 = -(-x / √2) by ring, erfc_neg]
  ring

/-- The normal density. -/
noncomputable def density (z : ℝ) : ℝ := exp (-(1 / 2) * z * z) / √(2 * π)

theorem density_pos (z : ℝ) : 0 < density z := by
  unfold density
  have : 0 < √(2 * π) := Real.sqrt_pos.2 (by positivity)
  positivity

theorem erfc_deriv (x : ℝ) : HasDerivAt erfc (-(2 / √π * exp (-1 * x ^ 2))) x := by
  unfold erfc
  have hc : Continuous fun t : ℝ => exp (-1 * t ^ 2) := by fun_prop
  have h := intervalIntegral.integral_hasDerivAt_right (hc.intervalIntegrable 0 x) hc.aestronglyMeasurable.stronglyMeasurableAtFilter
    (hc.continuousAt (x := x))
  have h2 := (h.const_mul (2 / √π)).const_sub 1
  exact h2

theorem ncdf_deriv (x : ℝ) : HasDerivAt ncdf (density x) x := by
  have hin : HasDerivAt (fun z : ℝ => -z / √2) (-1 / √2) x := ((hasDerivAt_id x).neg).div_const (√2)
  have h := ((erfc_deriv (-x / √2)).comp x hin).const_mul (1 / 2)
  refine h.congr_deriv ?_
  unfold density
  have h2 : √(2 * π) = √2 * √π := Real.sqrt_mul (by norm_num) π
  have hs : √2 * √2 = 2 := Real.mul_self_sqrt (by norm_num)
  have e : (-1 : ℝ) * (-x / √2) ^ 2 = -(1 / 2) * x * x := by
    have : (-x / √2) ^ 2 = x ^ 2 / (√2 * √2) := by rw [div_pow, neg_sq, sq (√2)]
    rw [this, hs]; ring
  rw [e, h2]
  have p1 : √2 ≠ 0 := by positivity
  have p2 : √π ≠ 0 := (Real.sqrt_pos.2 Real.pi_pos).ne'
  field_simp

theorem erfc_tendsto : Tendsto erfc atTop (𝓝 0) := by
  have hi : IntegrableOn (fun t : ℝ => exp (-1 * t ^ 2)) (Set.Ioi 0) volume := (integrable_exp_neg_mul_sq (by norm_num : (0 : ℝ) < 1)).integrableOn
  have h := intervalIntegral_tendsto_integral_Ioi 0 hi tendsto_id
  rw [integral_gaussian_Ioi, div_one] at h
  have h2 := (h.const_mul (2 / √π)).const_sub 1
  have p2 : √π ≠ 0 := (Real.sqrt_pos.2 Real.pi_pos).ne'
  have e : (1 : ℝ) - 2 / √π * (√π / 2) = 0 := by field_simp; ring
  rw [e] at h2
  exact h2

theorem ncdf_atBot : Tendsto ncdf atBot (𝓝 0) := by
  have h1 : Tendsto (fun z : ℝ => -z / √2) atBot atTop := by
    have : Tendsto (fun z : ℝ => -z) atBot atTop := tendsto_neg_atBot_atTop
    exact this.atTop_div_const (by positivity)
  have := (erfc_tendsto.comp h1).const_mul (1 / 2)
  rw [mul_zero] at this
  exact this

theorem ncdf_atTop : Tendsto ncdf atTop (𝓝 1) := by
  have h : Tendsto (fun z => 1 - ncdf (-z)) atTop (𝓝 (1 - 0)) := (ncdf_atBot.comp tendsto_neg_atTop_atBot).const_sub 1
  rw [sub_zero] at h
  refine h.congr fun z => ?_
  rw [ncdf_neg]; ring

theorem ncdf_mono : Monotone ncdf :=
  monotone_of_deriv_nonneg (fun x => (ncdf_deriv x).differentiableAt) fun x => by rw [(ncdf_deriv x).deriv]; exact (density_pos x).le

theorem ncdf_nonneg (x : ℝ) : 0 ≤ ncdf x := ncdf_mono.le_of_tendsto ncdf_atBot x

theorem ncdf_le_one (x : ℝ) : ncdf x ≤ 1 := ncdf_mono.ge_of_tendsto ncdf_atTop x

end Dal.Numeric
