import Verif.Numeric.NcdfLemmas
import Mathlib.Analysis.Real.Pi.Bounds

/-! # C86: the normal distribution function and its inverse -/

namespace Dal

open Normal Interp

/-! ### The distribution function -/

/-- What a distribution function symmetric around 0 is. -/
structure SymmetricCdf (F : ℝ → ℝ) : Prop where
  mono : StrictMono F
  cont : Continuous F
  pos : ∀ z, 0 < F z
  symm : ∀ z, F (-z) = 1 - F z

/-- The distribution function by splines is strictly increasing, continuous, between 0 and 1 and symmetric; between its nodes it passes through the table. -/
theorem C86_spline : ∃ F : ℝ → ℝ, (∀ z, ncdf z false = some (F z)) ∧ SymmetricCdf F ∧ ∀ i, i < nodesX.length → F (at' nodesX i) = at' nodesF i := by
  obtain ⟨c, fpp, hc, hf, hs⟩ := spline_ok
  obtain ⟨h1, h2, h3, h4⟩ := below_mono hc hf hs
  refine ⟨fun z => if z > 0 then 1 - belowZero c (-z) else belowZero c z, fun z => ?_, ?_, ?_⟩
  · simp [ncdf, ncdfBySpline, hc]
  · have neg : ∀ z, (if -z > 0 then 1 - belowZero c (- -z) else belowZero c (-z)) = 1 - if z > 0 then 1 - belowZero c (-z) else belowZero c z := by
      intro z
      rcases lt_trichotomy z 0 with h | h | h
      · rw [if_pos (by linarith), if_neg (by linarith), neg_neg]
      · rw [h, if_neg (by simp), if_neg (by simp), neg_zero, h2]; norm_num
      · rw [if_neg (by linarith), if_pos h]; ring
    have half : ∀ z, z ≤ 0 → belowZero c z ≤ 1 / 2 := fun z hz => by
      rw [← h2]; exact h1.monotoneOn hz (by simp) hz
    refine ⟨?_, ?_, ?_, neg⟩
    · refine StrictMonoOn.Iic_union_Ici (a := 0) ?_ ?_
      · intro z hz w hw hzw
        have hz : z ≤ 0 := hz
        have hw : w ≤ 0 := hw
        dsimp only
        rw [if_neg (by linarith), if_neg (by linarith)]
        exact h1 hz hw hzw
      · intro z hz w hw hzw
        have hz : 0 ≤ z := hz
        have hw : 0 ≤ w := hw
        dsimp only
        rw [if_pos (by linarith : w > 0)]
        have hlt := h1 (by show -w ≤ 0; linarith) (by show -z ≤ 0; linarith) (by linarith : -w < -z)
        by_cases h : z > 0
        · rw [if_pos h]; linarith
        · have hz0 : z = 0 := by linarith
          rw [hz0, neg_zero, h2] at hlt
          rw [if_neg h, hz0, h2]
          linarith
    · have : (fun z => if z > 0 then 1 - belowZero c (-z) else belowZero c z) = fun z => if z ≤ 0 then belowZero c z else 1 - belowZero c (-z) := by
        funext z
        by_cases h : z > 0
        · rw [if_pos h, if_neg (by linarith)]
        · rw [if_neg h, if_pos (by linarith)]
      rw [this]
      refine Continuous.if_le h4 (by fun_prop) continuous_id continuous_const ?_
      intro z hz
      have hz : z = 0 := hz
      rw [hz, neg_zero, h2]; norm_num
    · intro z
      by_cases h : z > 0
      · rw [if_pos h]; linarith [half (-z) (by linarith)]
      · rw [if_neg h]; exact h3 z (by linarith)
  · intro i hi
    have hi : i < 16 := hi
    have hm := spline_mono hc hf hs
    have l0 : (minX : ℝ) ≤ at' nodesX i := by
      rw [← minX_eq]
      rcases Nat.eq_zero_or_pos i with h | h
      · rw [h]
      · have := (hm (i - 1) (by omega)).2
        rw [Nat.sub_add_cancel h] at this
        exact this.le
    have l1 : (at' nodesX i : ℝ) ≤ 0 := by
      have : ∀ j, j ≤ 15 → (at' nodesX (15 - j) : ℝ) ≤ 0 := by
        intro j
        induction j with
        | zero => intro _; rw [Nat.sub_zero, lastX_eq]
        | succ j ih =>
          intro hj
          have := at_lt (15 - (j + 1)) (by omega)
          rw [show 15 - (j + 1) + 1 = 15 - j by omega] at this
          linarith [ih (by omega)]
      have := this (15 - i) (by omega)
      rwa [show 15 - (15 - i) = i by omega] at this
    dsimp only
    rw [if_neg (by linarith)]
    unfold belowZero
    rw [if_neg (by linarith)]
    exact spline_nodes hc i hi

example : (0 : ℝ) = at' nodesX 15 ∧ (at' nodesF 15 : ℝ) = 1 / 2 := ⟨lastX_eq.symm, lastF_eq⟩

/-- The precise distribution function is one, too, and its slope is the density. -/
theorem C86_precise : (∀ z, ncdf z true = some (Numeric.ncdf z)) ∧ SymmetricCdf Numeric.ncdf ∧
    ∀ z, HasDerivAt Numeric.ncdf (Real.exp (-(1 / 2) * z * z) / Real.sqrt (2 * Real.pi)) z := by
  have mono : StrictMono Numeric.ncdf := strictMono_of_deriv_pos fun z => by rw [(Numeric.ncdf_deriv z).deriv]; exact Numeric.density_pos z
  refine ⟨fun z => rfl, ⟨mono, ?_, ?_, Numeric.ncdf_neg⟩, Numeric.ncdf_deriv⟩
  · exact continuous_iff_continuousAt.2 fun z => (Numeric.ncdf_deriv z).continuousAt
  · intro z
    exact lt_of_le_of_lt (Numeric.ncdf_nonneg (z - 1)) (mono (by linarith))

private theorem density_mono {z w : ℝ} (h : z ≤ w) (hw : w ≤ 0) : Numeric.density z ≤ Numeric.density w := by
  unfold Numeric.density
  refine div_le_div_of_nonneg_right (Real.exp_le_exp.2 ?_) (Real.sqrt_nonneg _)
  nlinarith

private theorem increment {z w : ℝ} (h : z < w) : ∃ x, z < x ∧ x < w ∧ Numeric.ncdf w - Numeric.ncdf z = Numeric.density x * (w - z) := by
  obtain ⟨x, hx, he⟩ := exists_hasDerivAt_eq_slope Numeric.ncdf Numeric.density h (fun z _ => (Numeric.ncdf_deriv z).continuousAt.continuousWithinAt)
    fun z _ => Numeric.ncdf_deriv z
  refine ⟨x, hx.1, hx.2, ?_⟩
  rw [he, div_mul_cancel₀]
  linarith

/-- The claim that the distribution function by splines is near the precise one relative to its size fails in the tail: the factor in the exponent is about
twice what it should be, so it is below any fraction of the precise one. -/
theorem C86_tail_violated (ε : ℝ) (hε : 0 < ε) : ∃ z₀ : ℝ, ∀ z, z ≤ z₀ → ∃ p q, ncdf z false = some p ∧ ncdf z true = some q ∧ 0 < q ∧ p < ε * q := by
  obtain ⟨c, fpp, hc, -, -⟩ := spline_ok
  obtain ⟨C, hC⟩ : ∃ C : ℝ, C = minF * Real.sqrt (2 * Real.pi) * Real.exp (1 / 2 + 2 * minX * minX) := ⟨_, rfl⟩
  have hs : 0 < Real.sqrt (2 * Real.pi) := Real.sqrt_pos.2 (by positivity)
  have hC0 : 0 < C := by rw [hC]; have := minF_pos; positivity
  refine ⟨-(max 4 (C / ε)), fun z hz => ?_⟩
  have z1 : z ≤ -4 := hz.trans (neg_le_neg (le_max_left _ _))
  have z2 : z ≤ -(C / ε) := hz.trans (neg_le_neg (le_max_right _ _))
  have hx : (minX : ℝ) = -3.734582185 := by unfold minX; norm_num
  have hq := C86_precise.2.1.pos z
  refine ⟨belowZero c z, Numeric.ncdf z, ?_, rfl, hq, ?_⟩
  · simp [ncdf, ncdfBySpline, hc, show ¬ 0 < z by linarith]
  · unfold belowZero
    rw [if_pos (by rw [hx]; linarith)]
    obtain ⟨x, x1, x2, he⟩ := increment (show z - 1 < z by linarith)
    have h1 := density_mono x1.le (by linarith)
    have h2 := Numeric.ncdf_nonneg (z - 1)
    have h3 : Numeric.density (z - 1) ≤ Numeric.ncdf z := by
      rw [show z - (z - 1) = 1 by ring, mul_one] at he; linarith
    have h4 : C * Real.exp z < ε := by
      have e1 : 1 + -z ≤ Real.exp (-z) := by have := Real.add_one_le_exp (-z); linarith
      have e2 : C / ε < Real.exp (-z) := by linarith
      rw [Real.exp_neg, div_lt_iff₀ hε] at e2
      have e3 := Real.exp_pos z
      rw [inv_mul_eq_div, lt_div_iff₀ e3] at e2
      exact e2
    have h5 : (minF : ℝ) * Real.exp (-(1.1180061 : Rat) * (z * z - minX * minX)) ≤ C * Real.exp z * Numeric.density (z - 1) := by
      rw [hC]
      unfold Numeric.density
      rw [show (minF : ℝ) * Real.sqrt (2 * Real.pi) * Real.exp (1 / 2 + 2 * minX * minX) * Real.exp z *
        (Real.exp (-(1 / 2) * (z - 1) * (z - 1)) / Real.sqrt (2 * Real.pi)) =
        minF * (Real.exp (1 / 2 + 2 * minX * minX) * Real.exp z * Real.exp (-(1 / 2) * (z - 1) * (z - 1))) by field_simp]
      refine mul_le_mul_of_nonneg_left ?_ minF_pos.le
      rw [← Real.exp_add, ← Real.exp_add]
      refine Real.exp_le_exp.2 ?_
      rw [hx]
      push_cast
      nlinarith
    have h6 := Numeric.density_pos (z - 1)
    calc _ ≤ C * Real.exp z * Numeric.density (z - 1) := h5
      _ < ε * Numeric.density (z - 1) := mul_lt_mul_of_pos_right h4 h6
      _ ≤ ε * Numeric.ncdf z := mul_le_mul_of_nonneg_left h3 hε.le

/-! ### The inverse -/

/-- The inverse has a value for every number strictly between 0 and 1, and throws for numbers outside [0, 1], whatever the options. -/
theorem C86_inverse_defined_partial (precise polish : Bool) (x : ℝ) :
    (0 < x ∧ x < 1 → ∃ z, inverse x precise polish = .value z) ∧ (x < 0 ∨ 1 < x → inverse x precise polish = .throws) := by
  constructor
  · rintro ⟨h0, h1⟩
    obtain ⟨F, hF, -⟩ := C86_spline
    unfold inverse
    rw [if_pos ⟨h0.le, h1.le⟩, raw_eq h0 h1]
    dsimp only
    cases polish
    · exact ⟨_, rfl⟩
    · cases precise
      · simp [hF]
      · simp [ncdf]
  · intro h
    unfold inverse
    rw [if_neg]
    rintro ⟨h1, h2⟩
    rcases h with h | h <;> linarith

/-- The claim that all numbers the check lets through have a value fails: at 0 and 1 the result is not a number. -/
theorem C86_inverse_ends_violated (precise polish : Bool) : inverse 0 precise polish = .nan ∧ inverse 1 precise polish = .nan := by
  have h0 : raw 0 = .nan := by
    unfold raw
    rw [low_val, high_val, if_pos (by norm_num), if_pos (by norm_num), if_pos rfl]
  have h1 : raw 1 = .nan := by
    unfold raw
    rw [low_val, high_val, if_pos (by norm_num), if_neg (by norm_num), if_pos (by norm_num)]
  unfold inverse
  rw [h0, h1]
  simp

/-- The inverse is symmetric: what belongs to 1 - x is the negative of what belongs to x. -/
theorem C86_inverse_symmetric (precise polish : Bool) (x z : ℝ) (h0 : 0 < x) (h1 : x < 1) (h : inverse x precise polish = .value z) :
    inverse (1 - x) precise polish = .value (-z) := by
  obtain ⟨F, hF, hs⟩ : ∃ F : ℝ → ℝ, (∀ z, ncdf z precise = some (F z)) ∧ ∀ z, F (-z) = 1 - F z := by
    cases precise
    · obtain ⟨F, hF, h, -⟩ := C86_spline
      exact ⟨F, hF, h.symm⟩
    · exact ⟨_, C86_precise.1, C86_precise.2.1.symm⟩
  unfold inverse at h ⊢
  rw [if_pos ⟨h0.le, h1.le⟩, raw_eq h0 h1] at h
  rw [if_pos ⟨by linarith, by linarith⟩, raw_eq (by linarith) (by linarith), rawVal_symm]
  dsimp only at h ⊢
  cases polish
  · simp at h ⊢; exact h
  · simp only [hF, if_true, hs] at h ⊢
    rw [← Out.value.inj h]
    congr 1
    rw [neg_mul_neg]
    ring

example (precise polish : Bool) : inverse (1 / 2) precise polish = .value 0 := by
  obtain ⟨z, hz⟩ := (C86_inverse_defined_partial precise polish (1 / 2)).1 ⟨by norm_num, by norm_num⟩
  have := C86_inverse_symmetric precise polish (1 / 2) z (by norm_num) (by norm_num) hz
  norm_num at this
  have hz' : inverse (1 / 2) precise polish = .value (-z) := by norm_num; exact this
  rw [hz] at hz'
  have := Out.value.inj hz'
  rw [hz, show z = 0 by linarith]

/-- Without polishing the inverse is strictly increasing over all of (0, 1), the seams between its three parts included. -/
theorem C86_inverse_increasing (precise : Bool) (x y : ℝ) (h0 : 0 < x) (hxy : x < y) (h1 : y < 1) :
    ∃ z w, inverse x precise false = .value z ∧ inverse y precise false = .value w ∧ z < w := by
  refine ⟨rawVal x, rawVal y, ?_, ?_, rawVal_mono h0 hxy h1⟩
  · unfold inverse; rw [if_pos ⟨h0.le, by linarith⟩, raw_eq h0 (by linarith)]; simp
  · unfold inverse; rw [if_pos ⟨by linarith, h1.le⟩, raw_eq (by linarith) h1]; simp

/-- Polishing goes the right way, and for numbers up to 1/2 it does not pass the true value from above, so it makes nothing worse. Missing: from below, where
the step can pass the true value, nothing is said of how far. -/
theorem C86_polish_partial (x z w : ℝ) (h0 : 0 < x) (h1 : x ≤ 1 / 2) (hz : inverse x true false = .value z) (hw : inverse x true true = .value w) :
    (Numeric.ncdf z ≤ x → z ≤ w) ∧ (x ≤ Numeric.ncdf z → w ≤ z ∧ x ≤ Numeric.ncdf w ∧ Numeric.ncdf w ≤ Numeric.ncdf z) := by
  unfold inverse at hz hw
  rw [if_pos ⟨h0.le, by linarith⟩, raw_eq h0 (by linarith)] at hz hw
  simp only [Bool.false_eq_true, if_false, if_true, ncdf, Out.value.injEq] at hz hw
  have z0 : z ≤ 0 := by
    have zh : rawVal (1 / 2) = 0 := by
      have := rawVal_symm (x := 1 / 2)
      norm_num at this
      linarith
    rw [← hz, ← zh]
    rcases eq_or_lt_of_le h1 with h | h
    · rw [h]
    · exact (rawVal_mono h0 h (by norm_num)).le
  rw [hz] at hw
  have hn : 0 < invNorm := by unfold invNorm; norm_num
  have he := Real.exp_pos (min 8 (1 / 2 * (z * z)))
  have mono := C86_precise.2.1.mono
  constructor
  · intro h
    have : (Numeric.ncdf z - x) * invNorm * Real.exp (min 8 (1 / 2 * (z * z))) ≤ 0 :=
      mul_nonpos_of_nonpos_of_nonneg (mul_nonpos_of_nonpos_of_nonneg (by linarith) hn.le) he.le
    linarith
  · intro h
    have step : 0 ≤ (Numeric.ncdf z - x) * invNorm * Real.exp (min 8 (1 / 2 * (z * z))) :=
      mul_nonneg (mul_nonneg (by linarith) hn.le) he.le
    have wz : w ≤ z := by linarith
    refine ⟨wz, ?_, mono.monotone wz⟩
    rcases eq_or_lt_of_le wz with e | hlt
    · rw [e]; exact h
    · obtain ⟨ξ, x1, x2, hi⟩ := increment hlt
      have d1 := density_mono x2.le z0
      have d2 : Numeric.density ξ * (z - w) ≤ Numeric.density z * (z - w) := mul_le_mul_of_nonneg_right d1 (by linarith)
      have d3 : Numeric.density z * (invNorm * Real.exp (min 8 (1 / 2 * (z * z)))) ≤ 1 := by
        have hroot : invNorm ≤ Real.sqrt (2 * Real.pi) := by
          refine Real.le_sqrt_of_sq_le ?_
          have := Real.pi_gt_d20
          unfold invNorm
          norm_num at this ⊢
          linarith
        have hs : 0 < Real.sqrt (2 * Real.pi) := Real.sqrt_pos.2 (by positivity)
        have hm : Real.exp (min 8 (1 / 2 * (z * z))) ≤ Real.exp (1 / 2 * (z * z)) := Real.exp_le_exp.2 (min_le_right _ _)
        calc Numeric.density z * (invNorm * Real.exp (min 8 (1 / 2 * (z * z))))
            ≤ Numeric.density z * (Real.sqrt (2 * Real.pi) * Real.exp (1 / 2 * (z * z))) := by
              refine mul_le_mul_of_nonneg_left (mul_le_mul hroot hm he.le hs.le) (Numeric.density_pos z).le
          _ = 1 := by
            unfold Numeric.density
            rw [div_mul_eq_mul_div, div_eq_one_iff_eq hs.ne', mul_left_comm, ← Real.exp_add,
              show -(1 / 2) * z * z + 1 / 2 * (z * z) = 0 by ring, Real.exp_zero, mul_one]
      have d4 : Numeric.density z * (z - w) ≤ Numeric.ncdf z - x := by
        have : z - w = (Numeric.ncdf z - x) * (invNorm * Real.exp (min 8 (1 / 2 * (z * z)))) := by rw [← hw]; ring
        rw [this, mul_left_comm]
        exact mul_le_of_le_one_right (by linarith) d3
      linarith

example : ∃ z w, inverse (1 / 4) true false = .value z ∧ inverse (1 / 4) true true = .value w := by
  obtain ⟨z, hz⟩ := (C86_inverse_defined_partial true false (1 / 4)).1 ⟨by norm_num, by norm_num⟩
  obtain ⟨w, hw⟩ := (C86_inverse_defined_partial true true (1 / 4)).1 ⟨by norm_num, by norm_num⟩
  exact ⟨z, w, hz, hw⟩

end Dal
