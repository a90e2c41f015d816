import Mathlib.Tactic.FieldSimp
import Mathlib.Tactic.Positivity
import Mathlib.Tactic.NormNum
import Verif.Matrix.ArithModel

/-! # C65: splitting a covariance matrix into volatilities and correlations -/

namespace Dal.MatA

theorem epsilon_pos : 0 < epsilon := by unfold epsilon; positivity

/-- The divisor of row and column `i`. -/
noncomputable def divisor (cov : Tbl ℝ) (i : Nat) : ℝ := max epsilon (Real.sqrt (cov.at' i i))

theorem divisor_pos (cov : Tbl ℝ) (i : Nat) : 0 < divisor cov i := lt_of_lt_of_le epsilon_pos (le_max_left _ _)

theorem volsLoop_spec (cov : Tbl ℝ) : ∀ (n i : Nat) (c : Nat → Nat → ℝ) (p q : Nat),
    volsLoop cov n i c p q = c p q / ((if i ≤ p ∧ p < i + n then divisor cov p else 1) * (if i ≤ q ∧ q < i + n then divisor cov q else 1))
  | 0, i, c, p, q => by
    rw [volsLoop, if_neg (by omega), if_neg (by omega)]
    simp
  | n + 1, i, c, p, q => by
    rw [volsLoop, volsLoop_spec cov n (i + 1)]
    have hd := fun k => (divisor_pos cov k).ne'
    have hd' : max epsilon (Real.sqrt (cov.at' i i)) = divisor cov i := rfl
    simp only [hd']
    by_cases hp : p = i <;> by_cases hq : q = i
    · subst hp; subst hq
      rw [if_pos rfl, if_pos rfl, if_neg (show ¬(q + 1 ≤ q ∧ q < q + 1 + n) by omega), if_pos (show q ≤ q ∧ q < q + (n + 1) by omega)]
      have := hd q
      field_simp
    · subst hp
      rw [if_neg hq, if_pos rfl, if_neg (by omega), if_pos (show p ≤ p ∧ p < p + (n + 1) by omega)]
      have e : (p + 1 ≤ q ∧ q < p + 1 + n) ↔ (p ≤ q ∧ q < p + (n + 1)) := by omega
      simp only [e]
      have := hd p
      split
      · have := hd q
        field_simp
      · simp
    · subst hq
      rw [if_pos rfl, if_neg hp, if_neg (show ¬(q + 1 ≤ q ∧ q < q + 1 + n) by omega), if_pos (show q ≤ q ∧ q < q + (n + 1) by omega)]
      have e : (q + 1 ≤ p ∧ p < q + 1 + n) ↔ (q ≤ p ∧ p < q + (n + 1)) := by omega
      simp only [e]
      have := hd q
      split
      · have := hd p
        field_simp
      · simp
    · rw [if_neg hq, if_neg hp]
      have e : (i + 1 ≤ p ∧ p < i + 1 + n) ↔ (i ≤ p ∧ p < i + (n + 1)) := by omega
      have e' : (i + 1 ≤ q ∧ q < i + 1 + n) ↔ (i ≤ q ∧ q < i + (n + 1)) := by omega
      simp only [e, e']

/-- All of `vols` on a square matrix without negative variances. -/
theorem vols_eq (cov : Tbl ℝ) (hs : cov.cols = cov.rows) (hv : ∀ i < cov.rows, 0 ≤ cov.at' i i) :
    ∃ v c, vols cov = .ok (v, c) ∧ v.size = cov.rows ∧ c.rows = cov.rows ∧ c.cols = cov.rows ∧ (∀ i, v.at' i = Real.sqrt (cov.at' i i)) ∧
      ∀ i j, i < cov.rows → j < cov.rows → c.at' i j = cov.at' i j / (divisor cov i * divisor cov j) := by
  refine ⟨⟨cov.rows, fun i => Real.sqrt (cov.at' i i)⟩, ⟨cov.rows, cov.cols, volsLoop cov cov.rows 0 cov.at'⟩, ?_, rfl, rfl, hs, fun _ => rfl, fun i j hi hj => ?_⟩
  · rw [vols, if_neg (by simpa using hs), if_neg]
    rintro ⟨i, hi, hn⟩
    exact absurd (hv i hi) (not_le.mpr hn)
  · show volsLoop cov cov.rows 0 cov.at' i j = _
    rw [volsLoop_spec, if_pos (by omega), if_pos (by omega)]

end Dal.MatA

namespace Dal
open MatA

/-- **C65.** With every volatility at least `EPSILON`, the volatilities are the square roots of the variances, the correlations have unit diagonal, and
volatilities and correlations reproduce the covariance. -/
theorem C65_split_partial (cov : Tbl ℝ) (hs : cov.cols = cov.rows) (hv : ∀ i < cov.rows, epsilon ^ 2 ≤ cov.at' i i) :
    ∃ v c, vols cov = .ok (v, c) ∧ v.size = cov.rows ∧ c.rows = cov.rows ∧ c.cols = cov.rows ∧
      (∀ i < cov.rows, 0 ≤ v.at' i ∧ v.at' i ^ 2 = cov.at' i i) ∧ (∀ i < cov.rows, c.at' i i = 1) ∧
      ∀ i < cov.rows, ∀ j < cov.rows, v.at' i * c.at' i j * v.at' j = cov.at' i j := by
  have h0 : ∀ i < cov.rows, 0 ≤ cov.at' i i := fun i hi => le_trans (by positivity) (hv i hi)
  obtain ⟨v, c, e, h1, h2, h3, h4, h5⟩ := vols_eq cov hs h0
  have hd : ∀ i < cov.rows, divisor cov i = v.at' i := fun i hi => by
    rw [h4, divisor, max_eq_right]
    exact Real.le_sqrt_of_sq_le (hv i hi)
  have hsq : ∀ i < cov.rows, v.at' i ^ 2 = cov.at' i i := fun i hi => by rw [h4, Real.sq_sqrt (h0 i hi)]
  have hp : ∀ i < cov.rows, v.at' i ≠ 0 := fun i hi => by rw [← hd i hi]; exact (divisor_pos cov i).ne'
  refine ⟨v, c, e, h1, h2, h3, fun i hi => ⟨by rw [h4]; exact Real.sqrt_nonneg _, hsq i hi⟩, fun i hi => ?_, fun i hi j hj => ?_⟩
  · rw [h5 i i hi hi, hd i hi, ← hsq i hi]
    have := hp i hi
    field_simp
  · rw [h5 i j hi hj, hd i hi, hd j hj]
    have := hp i hi
    have := hp j hj
    field_simp

example : ∃ v c, vols ⟨2, 2, fun i j => if i = j then 4 else 1⟩ = .ok (v, c) ∧ v.size = 2 ∧ c.rows = 2 ∧ c.cols = 2 ∧
    (∀ i < 2, 0 ≤ v.at' i ∧ v.at' i ^ 2 = 4) ∧ (∀ i < 2, c.at' i i = 1) ∧
    ∀ i < 2, ∀ j < 2, v.at' i * c.at' i j * v.at' j = if i = j then 4 else 1 := by
  have h := C65_split_partial ⟨2, 2, fun i j => if i = j then 4 else 1⟩ rfl (fun i _ => by simp only [if_true]; unfold epsilon; norm_num)
  simpa using h

/-- **C65.** The split throws for a matrix which is not square, and only then fails (a variance being non-negative). -/
theorem C65_not_square_throws (cov : Tbl ℝ) (hs : cov.cols ≠ cov.rows) : vols cov = .throws := by rw [vols, if_pos hs]

/-- **C65.** Correlations never exceed one in size when the covariance satisfies the Cauchy-Schwarz inequality, as every positive semi-definite matrix does, even
with tiny or zero variances; and they are symmetric when the covariance is. -/
theorem C65_correlations_bounded (cov : Tbl ℝ) (hs : cov.cols = cov.rows) (hv : ∀ i < cov.rows, 0 ≤ cov.at' i i)
    (hcs : ∀ i < cov.rows, ∀ j < cov.rows, cov.at' i j ^ 2 ≤ cov.at' i i * cov.at' j j) (hsym : ∀ i j, cov.at' i j = cov.at' j i) :
    ∃ v c, vols cov = .ok (v, c) ∧ ∀ i < cov.rows, ∀ j < cov.rows, |c.at' i j| ≤ 1 ∧ c.at' i j = c.at' j i := by
  obtain ⟨v, c, e, _, _, _, h4, h5⟩ := vols_eq cov hs hv
  refine ⟨v, c, e, fun i hi j hj => ⟨?_, ?_⟩⟩
  · rw [h5 i j hi hj, abs_div, abs_of_pos (mul_pos (divisor_pos cov i) (divisor_pos cov j)), div_le_one (mul_pos (divisor_pos cov i) (divisor_pos cov j))]
    have h1 : |cov.at' i j| ≤ Real.sqrt (cov.at' i i) * Real.sqrt (cov.at' j j) := by
      rw [← Real.sqrt_mul (hv i hi)]
      exact Real.abs_le_sqrt (hcs i hi j hj)
    exact le_trans h1 (mul_le_mul (le_max_right _ _) (le_max_right _ _) (Real.sqrt_nonneg _) (divisor_pos cov i).le)
  · rw [h5 i j hi hj, h5 j i hj hi, hsym i j, mul_comm (divisor cov i)]

example : ∃ v c, vols ⟨2, 2, fun i j => if i = 0 ∧ j = 0 then 1 else 0⟩ = .ok (v, c) ∧
    ∀ i < 2, ∀ j < 2, |c.at' i j| ≤ 1 ∧ c.at' i j = c.at' j i :=
  C65_correlations_bounded ⟨2, 2, fun i j => if i = 0 ∧ j = 0 then 1 else 0⟩ rfl
    (fun i _ => by by_cases h : i = 0 <;> simp [h])
    (fun i _ j _ => by by_cases h : i = 0 <;> by_cases h' : j = 0 <;> simp [h, h'])
    (fun i j => by by_cases h : i = 0 <;> by_cases h' : j = 0 <;> simp [h, h'])

/-- **C65, violated** for small variances: with a volatility below `EPSILON` the diagonal of the correlations is the variance over `EPSILON` squared, below one (zero for a
variance of zero). -/
theorem C65_small_variance_violated (x : ℝ) (h0 : 0 ≤ x) (hx : x < epsilon ^ 2) :
    ∃ v c, vols ⟨1, 1, fun _ _ => x⟩ = .ok (v, c) ∧ c.at' 0 0 = x / epsilon ^ 2 ∧ c.at' 0 0 < 1 := by
  obtain ⟨v, c, e, _, _, _, _, h5⟩ := vols_eq ⟨1, 1, fun _ _ => x⟩ rfl (fun _ _ => h0)
  have hd : divisor ⟨1, 1, fun _ _ => x⟩ 0 = epsilon := by
    rw [divisor, max_eq_left]
    exact (Real.sqrt_le_left epsilon_pos.le).mpr hx.le
  have e' : c.at' 0 0 = x / epsilon ^ 2 := by
    rw [h5 0 0 Nat.one_pos Nat.one_pos, hd, pow_two]
  refine ⟨v, c, e, e', ?_⟩
  rw [e', div_lt_one (pow_pos epsilon_pos 2)]
  exact hx

example : ∃ v c, vols ⟨1, 1, fun _ _ => 0⟩ = .ok (v, c) ∧ c.at' 0 0 = 0 / epsilon ^ 2 ∧ c.at' 0 0 < 1 :=
  C65_small_variance_violated 0 le_rfl (pow_pos epsilon_pos 2)

end Dal
