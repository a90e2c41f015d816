import Verif.Numeric.MeanProps
import Verif.Sim.DupireProps
import Mathlib.MeasureTheory.Integral.Pi
import Mathlib.MeasureTheory.Measure.CharacteristicFunction.Basic

/-! # Sums of normal numbers along a path -/

namespace Dal.Models
open MeasureTheory ProbabilityTheory

theorem sum_measurable {n : Nat} (b : Fin n → ℝ) : Measurable fun g : Fin n → ℝ => ∑ i, b i * g i := by
  refine Finset.measurable_fun_sum _ fun i _ => ?_
  have h : Measurable fun g : Fin n → ℝ => g i := measurable_pi_apply i
  exact h.const_mul (b i)

/-- The sum of independent standard normal numbers with weights. -/
theorem weighted_law (n : Nat) (b : Fin n → ℝ) (w : NNReal) (hw : (w : ℝ) = ∑ i, b i ^ 2) :
    (Measure.pi fun _ : Fin n => gaussianReal 0 1).map (fun g => ∑ i, b i * g i) = gaussianReal 0 w := by
  have hm : Measurable fun g : Fin n → ℝ => ∑ i, b i * g i := sum_measurable b
  have : IsProbabilityMeasure ((Measure.pi fun _ : Fin n => gaussianReal 0 1).map (fun g => ∑ i, b i * g i)) :=
    Measure.isProbabilityMeasure_map hm.aemeasurable
  refine Measure.ext_of_charFun ?_
  ext t
  rw [charFun_gaussianReal, charFun_apply_real, integral_map hm.aemeasurable (by fun_prop)]
  have h1 : ∀ g : Fin n → ℝ, Complex.exp (t * ((∑ i, b i * g i : ℝ) : ℂ) * Complex.I) = ∏ i, Complex.exp (((t * b i : ℝ) : ℂ) * (g i : ℝ) * Complex.I) := by
    intro g
    rw [← Complex.exp_sum]
    congr 1
    push_cast
    rw [Finset.mul_sum, Finset.sum_mul]
    exact Finset.sum_congr rfl fun i _ => by ring
  simp only [h1]
  rw [integral_fin_nat_prod_eq_prod (fun i (x : ℝ) => Complex.exp (((t * b i : ℝ) : ℂ) * (x : ℝ) * Complex.I))]
  have h2 : ∀ i, ∫ x : ℝ, Complex.exp (((t * b i : ℝ) : ℂ) * (x : ℝ) * Complex.I) ∂gaussianReal 0 1 = Complex.exp (-((b i ^ 2 : ℝ) : ℂ) * t ^ 2 / 2) := by
    intro i
    have := charFun_gaussianReal (μ := 0) (v := 1) (t * b i)
    rw [charFun_apply_real] at this
    rw [this]
    congr 1
    push_cast
    ring
  simp only [h2]
  rw [← Complex.exp_sum]
  congr 1
  have h3 : ((w : ℝ) : ℂ) = ∑ i, ((b i ^ 2 : ℝ) : ℂ) := by rw [hw]; push_cast; rfl
  rw [h3, Complex.ofReal_zero, mul_zero, zero_mul, zero_sub, ← Finset.sum_div, ← Finset.sum_mul, Finset.sum_neg_distrib]
  ring

/-- The mean of a function of a weighted sum. -/
theorem weighted_mean (n : Nat) (b : Fin n → ℝ) (c : ℝ) (hc : c ^ 2 = ∑ i, b i ^ 2) (F : ℝ → ℝ) (hF : Measurable F) :
    ∫ g, F (∑ i, b i * g i) ∂(Measure.pi fun _ : Fin n => gaussianReal 0 1) = ∫ z, F (c * z) ∂gaussianReal 0 1 := by
  have hm : Measurable fun g : Fin n → ℝ => ∑ i, b i * g i := sum_measurable b
  rw [← integral_map (φ := fun g : Fin n → ℝ => ∑ i, b i * g i) hm.aemeasurable hF.aestronglyMeasurable, weighted_law n b (.mk (c ^ 2) (sq_nonneg _)) hc,
    ← integral_map (φ := fun z => c * z) (by fun_prop) hF.aestronglyMeasurable, gaussianReal_map_const_mul, mul_zero, mul_one]

/-- Integrability of a function of a weighted sum. -/
theorem weighted_integrable (n : Nat) (b : Fin n → ℝ) (c : ℝ) (hc : c ^ 2 = ∑ i, b i ^ 2) (F : ℝ → ℝ) (hF : Measurable F)
    (hi : Integrable (fun z => F (c * z)) (gaussianReal 0 1)) : Integrable (fun g => F (∑ i, b i * g i)) (Measure.pi fun _ : Fin n => gaussianReal 0 1) := by
  have hm : Measurable fun g : Fin n → ℝ => ∑ i, b i * g i := sum_measurable b
  have h1 : Integrable F ((gaussianReal 0 1).map fun z => c * z) := (integrable_map_measure hF.aestronglyMeasurable (by fun_prop)).2 hi
  rw [gaussianReal_map_const_mul, mul_zero, mul_one, ← weighted_law n b (.mk (c ^ 2) (sq_nonneg _)) hc] at h1
  exact (integrable_map_measure hF.aestronglyMeasurable hm.aemeasurable).1 h1

/-- The Gaussian numbers of a path of `n` steps, as the simulation reads them. -/
def numbers {n : Nat} (g : Fin n → ℝ) (i : Nat) : ℝ := if h : i < n then g ⟨i, h⟩ else 0

/-- A Black–Scholes path, written as a sum. -/
theorem log_sum (b : BS ℝ) (line : Nat → ℝ) (gauss : Nat → ℝ) (k : Nat) :
    b.logAt line gauss k = Real.log b.spot + (b.rate - b.div - 1 / 2 * b.vol ^ 2) * (line k - line 0) + ∑ i ∈ Finset.range k, b.std line i * gauss i := by
  rw [BS.logAt]
  induction k with
  | zero =>
    show Real.log b.spot = _
    rw [Finset.sum_range_zero]; ring
  | succ k ih =>
    rw [TimeLine.stateAt, ih, Finset.sum_range_succ, BS.step, BS.drift]
    have hl : ∀ x : ℝ, (Num.lit x : ℝ) = x := fun _ => rfl
    simp only [hl]
    ring

theorem sum_numbers {n : Nat} (g : Fin n → ℝ) (s : Nat → ℝ) (k : Nat) (hk : k ≤ n) :
    ∑ i ∈ Finset.range k, s i * numbers g i = ∑ i : Fin n, (if i.1 < k then s i.1 else 0) * g i := by
  have h1 : ∑ i : Fin n, (if i.1 < k then s i.1 else 0) * g i = ∑ i ∈ Finset.range n, (if i < k then s i else 0) * numbers g i := by
    rw [Finset.sum_range]
    exact Finset.sum_congr rfl fun i _ => by rw [numbers, dif_pos i.2]
  rw [h1]
  rw [← Finset.sum_subset (Finset.range_subset_range.2 hk) (fun i _ hi => by
    rw [Finset.mem_range] at hi
    rw [if_neg hi, zero_mul])]
  exact Finset.sum_congr rfl fun i hi => by rw [if_pos (Finset.mem_range.1 hi)]

theorem sum_vars (b : BS ℝ) (line : Nat → ℝ) (n k : Nat) (hl : ∀ i, i < k → line i ≤ line (i + 1)) (hk : k ≤ n) :
    (b.vol * Real.sqrt (line k - line 0)) ^ 2 = ∑ i : Fin n, (if i.1 < k then b.std line i.1 else 0) ^ 2 := by
  have h1 : ∑ i : Fin n, (if i.1 < k then b.std line i.1 else 0) ^ 2 = ∑ i ∈ Finset.range k, b.std line i ^ 2 := by
    rw [← Finset.sum_range (fun i => (if i < k then b.std line i else 0) ^ 2)]
    rw [← Finset.sum_subset (Finset.range_subset_range.2 hk) (fun i _ hi => by
      rw [Finset.mem_range] at hi
      rw [if_neg hi]; ring)]
    exact Finset.sum_congr rfl fun i hi => by rw [if_pos (Finset.mem_range.1 hi)]
  have hm : ∀ j, j ≤ k → line 0 ≤ line j := fun j => by
    induction j with
    | zero => exact fun _ => le_refl _
    | succ j ih => exact fun h => (ih (by omega)).trans (hl j (by omega))
  rw [h1, mul_pow, Real.sq_sqrt (sub_nonneg.2 (hm k le_rfl))]
  have h2 : ∀ j, j ≤ k → b.vol ^ 2 * (line j - line 0) = ∑ i ∈ Finset.range j, b.std line i ^ 2 := by
    intro j
    induction j with
    | zero => intro _; simp
    | succ j ih =>
      intro hj
      rw [Finset.sum_range_succ, ← ih (by omega), BS.std]
      have : (Num.lit (Real.sqrt (line (j + 1) - line j)) : ℝ) = Real.sqrt (line (j + 1) - line j) := rfl
      rw [this, mul_pow, Real.sq_sqrt (sub_nonneg.2 (hl j (by omega)))]
      ring
  exact h2 k le_rfl

end Dal.Models
