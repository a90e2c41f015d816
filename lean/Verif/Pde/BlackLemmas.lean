import Verif.Numeric.MeanProps
import Verif.Numeric.OptionProps
import Mathlib.Analysis.Calculus.ContDiff.Deriv
import Mathlib.Analysis.SpecialFunctions.ExpDeriv
import Mathlib.Analysis.SpecialFunctions.Log.Deriv
import Mathlib.Analysis.SpecialFunctions.Sqrt

/-! # Black prices as functions of time and spot: smooth after today, continuous up to today, solutions of the pricing equation -/

namespace Dal.Fd
open Dal Dal.Numeric Real Set MeasureTheory ProbabilityTheory
open scoped ContDiff

theorem ncdf_smooth : ContDiff ℝ ∞ ncdf := by
  rw [contDiff_infty_iff_deriv]
  refine ⟨fun x => (ncdf_deriv x).differentiableAt, ?_⟩
  rw [show deriv ncdf = density from funext fun x => (ncdf_deriv x).deriv]
  unfold density
  fun_prop

/-- The lower argument of the formula. -/
noncomputable def dLow (r q v K t x : ℝ) : ℝ := (log x - log K + (r - q) * t) / (v * √t) - 1 / 2 * (v * √t)

theorem dLow_eq {r q v K t x : ℝ} (hK : 0 < K) (hx : 0 < x) : dMinus (x * exp ((r - q) * t)) (v * √t) K = dLow r q v K t x := by
  rw [dMinus, dLow, log_div (mul_pos hx (exp_pos _)).ne' hK.ne', log_mul hx.ne' (exp_pos _).ne', log_exp]
  congr 2
  ring

/-- The discounted price of a call. -/
noncomputable def callValue (r q v K t x : ℝ) : ℝ := x * exp (-q * t) * ncdf (dLow r q v K t x + v * √t) - K * exp (-r * t) * ncdf (dLow r q v K t x)

/-- Today and the forward: open set of the smooth region. -/
def after : Set (ℝ × ℝ) := {p | 0 < p.1 ∧ 0 < p.2}

theorem after_open : IsOpen after := (isOpen_lt continuous_const continuous_fst).inter (isOpen_lt continuous_const continuous_snd)

theorem call_smooth (r q : ℝ) {v : ℝ} (K : ℝ) (hv : 0 < v) : ContDiffOn ℝ ∞ (fun p : ℝ × ℝ => callValue r q v K p.1 p.2) after := by
  intro p hp
  refine ContDiffAt.contDiffWithinAt ?_
  have h1 : ContDiffAt ℝ ∞ (fun p : ℝ × ℝ => √p.1) p := ContDiffAt.sqrt contDiffAt_fst hp.1.ne'
  have h2 : ContDiffAt ℝ ∞ (fun p : ℝ × ℝ => log p.2) p := ContDiffAt.log contDiffAt_snd hp.2.ne'
  have h3 : v * √p.1 ≠ 0 := (mul_pos hv (sqrt_pos.2 hp.1)).ne'
  have h4 : ContDiffAt ℝ ∞ (fun p : ℝ × ℝ => dLow r q v K p.1 p.2) p := by
    unfold dLow
    exact (((h2.sub contDiffAt_const).add (contDiffAt_const.mul contDiffAt_fst)).div (contDiffAt_const.mul h1) h3).sub (contDiffAt_const.mul (contDiffAt_const.mul h1))
  have h5 : ContDiffAt ℝ ∞ (fun p : ℝ × ℝ => ncdf (dLow r q v K p.1 p.2)) p := ncdf_smooth.contDiffAt.comp p h4
  have h6 : ContDiffAt ℝ ∞ (fun p : ℝ × ℝ => ncdf (dLow r q v K p.1 p.2 + v * √p.1)) p := ncdf_smooth.contDiffAt.comp p (h4.add (contDiffAt_const.mul h1))
  unfold callValue
  exact ((contDiffAt_snd.mul (contDiffAt_const.mul contDiffAt_fst).exp).mul h6).sub ((contDiffAt_const.mul (contDiffAt_const.mul contDiffAt_fst).exp).mul h5)

theorem call_key {r q v K t x : ℝ} (hv : 0 < v) (hK : 0 < K) (ht : 0 < t) (hx : 0 < x) :
    x * exp (-q * t) * density (dLow r q v K t x + v * √t) = K * exp (-r * t) * density (dLow r q v K t x) := by
  have h := black_key (f := x * exp ((r - q) * t)) (v := v * √t) (k := K) (mul_pos hx (exp_pos _)) hK (mul_pos hv (sqrt_pos.2 ht))
  rw [dLow_eq hK hx] at h
  have e : exp (-q * t) = exp ((r - q) * t) * exp (-r * t) := by rw [← exp_add]; congr 1; ring
  calc _ = (x * exp ((r - q) * t) * density (dLow r q v K t x + v * √t)) * exp (-r * t) := by rw [e]; ring
    _ = _ := by rw [h]; ring

theorem dLow_dx {r q v K t x : ℝ} (hx : 0 < x) : HasDerivAt (fun x => dLow r q v K t x) (1 / x / (v * √t)) x := by
  unfold dLow
  have := ((((hasDerivAt_log hx.ne').sub_const (log K)).add_const ((r - q) * t)).div_const (v * √t)).sub_const (1 / 2 * (v * √t))
  refine this.congr_deriv ?_
  rw [one_div]

theorem call_dx {r q v K t x : ℝ} (hv : 0 < v) (hK : 0 < K) (ht : 0 < t) (hx : 0 < x) :
    HasDerivAt (fun x => callValue r q v K t x) (exp (-q * t) * ncdf (dLow r q v K t x + v * √t)) x := by
  unfold callValue
  have h1 := (ncdf_deriv (dLow r q v K t x)).comp x (dLow_dx (r := r) (q := q) (v := v) (K := K) (t := t) hx)
  have h2 := (ncdf_deriv (dLow r q v K t x + v * √t)).comp x ((dLow_dx (r := r) (q := q) (v := v) (K := K) (t := t) hx).add_const (v * √t))
  have h3 := (((hasDerivAt_id' x).mul_const (exp (-q * t))).mul h2).sub (h1.const_mul (K * exp (-r * t)))
  refine h3.congr_deriv ?_
  have hk := call_key (r := r) (q := q) hv hK ht hx
  simp only [Function.comp_apply]
  linear_combination (1 / x / (v * √t)) * hk

theorem call_dxx {r q v K t x : ℝ} (hx : 0 < x) :
    HasDerivAt (fun x => exp (-q * t) * ncdf (dLow r q v K t x + v * √t)) (exp (-q * t) * (density (dLow r q v K t x + v * √t) * (1 / x / (v * √t)))) x :=
  ((ncdf_deriv (dLow r q v K t x + v * √t)).comp x ((dLow_dx (r := r) (q := q) (v := v) (K := K) (t := t) hx).add_const (v * √t))).const_mul (exp (-q * t))

theorem call_dt {r q v K t x : ℝ} (hv : 0 < v) (hK : 0 < K) (ht : 0 < t) (hx : 0 < x) :
    HasDerivAt (fun t => callValue r q v K t x) (-q * (x * exp (-q * t) * ncdf (dLow r q v K t x + v * √t)) + r * (K * exp (-r * t) * ncdf (dLow r q v K t x)) +
      x * exp (-q * t) * density (dLow r q v K t x + v * √t) * (v * (1 / (2 * √t)))) t := by
  have hs : HasDerivAt (fun t => √t) (1 / (2 * √t)) t := hasDerivAt_sqrt ht.ne'
  have hne : v * √t ≠ 0 := (mul_pos hv (sqrt_pos.2 ht)).ne'
  obtain ⟨a, ha⟩ : ∃ a, HasDerivAt (fun t => dLow r q v K t x) a t := by
    unfold dLow
    exact ⟨_, ((((hasDerivAt_id' t).const_mul (r - q)).const_add (log x - log K)).div (hs.const_mul v) hne).sub ((hs.const_mul v).const_mul (1 / 2))⟩
  have e1 : HasDerivAt (fun t => exp (-q * t)) (exp (-q * t) * (-q * 1)) t := ((hasDerivAt_id' t).const_mul (-q)).exp
  have e2 : HasDerivAt (fun t => exp (-r * t)) (exp (-r * t) * (-r * 1)) t := ((hasDerivAt_id' t).const_mul (-r)).exp
  have h1 := (ncdf_deriv (dLow r q v K t x)).comp t ha
  have h2 := (ncdf_deriv (dLow r q v K t x + v * √t)).comp (h := fun t => dLow r q v K t x + v * √t) t (ha.add (hs.const_mul v))
  have h3 := ((e1.const_mul x).mul h2).sub ((e2.const_mul K).mul h1)
  unfold callValue
  refine h3.congr_deriv ?_
  have hk := call_key (r := r) (q := q) hv hK ht hx
  simp only [Function.comp_apply]
  linear_combination a * hk

/-- The pricing equation for the call. -/
theorem call_pde {r q v K t x : ℝ} (hv : 0 < v) (ht : 0 < t) (hx : 0 < x) :
    -q * (x * exp (-q * t) * ncdf (dLow r q v K t x + v * √t)) + r * (K * exp (-r * t) * ncdf (dLow r q v K t x)) +
      x * exp (-q * t) * density (dLow r q v K t x + v * √t) * (v * (1 / (2 * √t))) =
    (r - q) * x * (exp (-q * t) * ncdf (dLow r q v K t x + v * √t)) + 1 / 2 * (v * v * x * x) * (exp (-q * t) * (density (dLow r q v K t x + v * √t) * (1 / x / (v * √t)))) -
      r * callValue r q v K t x := by
  unfold callValue
  have hs := (sqrt_pos.2 ht).ne'
  have e : 1 / 2 * (v * v * x * x) * (exp (-q * t) * (density (dLow r q v K t x + v * √t) * (1 / x / (v * √t)))) =
      x * exp (-q * t) * density (dLow r q v K t x + v * √t) * (v * (1 / (2 * √t))) := by
    have := hv.ne'
    have := hx.ne'
    field_simp
  rw [e]
  ring

end Dal.Fd
