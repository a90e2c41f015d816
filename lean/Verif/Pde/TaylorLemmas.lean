import Verif.Pde.FdLemmas
import Mathlib.Analysis.Calculus.MeanValue
import Mathlib.Analysis.Calculus.Deriv.Pow
import Mathlib.Analysis.Calculus.Deriv.Shift

/-! # Expansions with bounded remainders, and the errors of the difference formulas -/

namespace Dal.Fd
open Set

/-- A function that starts at zero and whose slope is bounded by a power. -/
theorem grow_bound {g g' : ℝ → ℝ} {h c : ℝ} (n : ℕ) (hd : ∀ y ∈ Icc 0 h, HasDerivAt g (g' y) y) (h0 : g 0 = 0) (hb : ∀ y ∈ Icc 0 h, |g' y| ≤ c * y ^ n) :
    ∀ y ∈ Icc 0 h, |g y| ≤ c / (n + 1) * y ^ (n + 1) := by
  intro y hy
  have hn : ((n : ℝ) + 1) ≠ 0 := by positivity
  have hB : ∀ z : ℝ, HasDerivAt (fun z => c / (n + 1) * z ^ (n + 1)) (c * z ^ n) z := by
    intro z
    have h1 := (hasDerivAt_pow (n + 1) z).const_mul (c / ((n : ℝ) + 1))
    refine h1.congr_deriv ?_
    push_cast
    field_simp
  exact image_norm_le_of_norm_deriv_right_le_deriv_boundary' (f := g) (f' := g') (B := fun z => c / (n + 1) * z ^ (n + 1)) (B' := fun z => c * z ^ n)
    (fun z hz => (hd z hz).continuousAt.continuousWithinAt) (fun z hz => (hd z ⟨hz.1, hz.2.le⟩).hasDerivWithinAt) (by rw [h0]; simp)
    (fun z _ => (hB z).continuousAt.continuousWithinAt) (fun z _ => (hB z).hasDerivWithinAt) (fun z hz => hb z ⟨hz.1, hz.2.le⟩) hy

/-- Second order. -/
theorem taylor2 {f f1 f2 : ℝ → ℝ} {x h M : ℝ} (hh : 0 ≤ h) (h1 : ∀ y ∈ Icc x (x + h), HasDerivAt f (f1 y) y) (h2 : ∀ y ∈ Icc x (x + h), HasDerivAt f1 (f2 y) y)
    (hM : ∀ y ∈ Icc x (x + h), |f2 y| ≤ M) : |f (x + h) - f x - h * f1 x| ≤ M / 2 * h ^ 2 := by
  have hm : ∀ y ∈ Icc 0 h, x + y ∈ Icc x (x + h) := fun y hy => ⟨by linarith [hy.1], by linarith [hy.2]⟩
  have b1 := grow_bound (g := fun y => f1 (x + y) - f1 x) (g' := fun y => f2 (x + y)) (h := h) (c := M) 0
    (fun y hy => ((h2 _ (hm y hy)).comp_const_add x y).sub_const _) (by simp) (fun y hy => by rw [pow_zero, mul_one]; exact hM _ (hm y hy))
  have b2 := grow_bound (g := fun y => f (x + y) - f x - y * f1 x) (g' := fun y => f1 (x + y) - f1 x) (h := h) (c := M) 1
    (fun y hy => by
      have := (((h1 _ (hm y hy)).comp_const_add x y).sub_const (f x)).sub ((hasDerivAt_id' y).mul_const (f1 x))
      rwa [one_mul] at this)
    (by simp) (fun y hy => by have := b1 y hy; norm_num at this; simpa using this)
  have := b2 h ⟨hh, le_rfl⟩
  norm_num at this
  exact this

/-- Third order. -/
theorem taylor3 {f f1 f2 f3 : ℝ → ℝ} {x h M : ℝ} (hh : 0 ≤ h) (h1 : ∀ y ∈ Icc x (x + h), HasDerivAt f (f1 y) y) (h2 : ∀ y ∈ Icc x (x + h), HasDerivAt f1 (f2 y) y)
    (h3 : ∀ y ∈ Icc x (x + h), HasDerivAt f2 (f3 y) y) (hM : ∀ y ∈ Icc x (x + h), |f3 y| ≤ M) : |f (x + h) - f x - h * f1 x - h ^ 2 / 2 * f2 x| ≤ M / 6 * h ^ 3 := by
  have hm : ∀ y ∈ Icc 0 h, x + y ∈ Icc x (x + h) := fun y hy => ⟨by linarith [hy.1], by linarith [hy.2]⟩
  have b2 := grow_bound (g := fun y => f (x + y) - f x - y * f1 x - y ^ 2 / 2 * f2 x) (g' := fun y => f1 (x + y) - f1 x - y * f2 x) (h := h) (c := M / 2) 2
    (fun y hy => by
      have := ((((h1 _ (hm y hy)).comp_const_add x y).sub_const (f x)).sub ((hasDerivAt_id' y).mul_const (f1 x))).sub (((hasDerivAt_pow 2 y).div_const 2).mul_const (f2 x))
      refine this.congr_deriv ?_
      norm_num)
    (by simp)
    (fun y hy => taylor2 hy.1 (fun z hz => h2 z ⟨hz.1, hz.2.trans (by linarith [hy.2])⟩) (fun z hz => h3 z ⟨hz.1, hz.2.trans (by linarith [hy.2])⟩)
      (fun z hz => hM z ⟨hz.1, hz.2.trans (by linarith [hy.2])⟩))
  have := b2 h ⟨hh, le_rfl⟩
  norm_num at this
  linarith

/-- Fourth order. -/
theorem taylor4 {f f1 f2 f3 f4 : ℝ → ℝ} {x h M : ℝ} (hh : 0 ≤ h) (h1 : ∀ y ∈ Icc x (x + h), HasDerivAt f (f1 y) y) (h2 : ∀ y ∈ Icc x (x + h), HasDerivAt f1 (f2 y) y)
    (h3 : ∀ y ∈ Icc x (x + h), HasDerivAt f2 (f3 y) y) (h4 : ∀ y ∈ Icc x (x + h), HasDerivAt f3 (f4 y) y) (hM : ∀ y ∈ Icc x (x + h), |f4 y| ≤ M) :
    |f (x + h) - f x - h * f1 x - h ^ 2 / 2 * f2 x - h ^ 3 / 6 * f3 x| ≤ M / 24 * h ^ 4 := by
  have hm : ∀ y ∈ Icc 0 h, x + y ∈ Icc x (x + h) := fun y hy => ⟨by linarith [hy.1], by linarith [hy.2]⟩
  have b2 := grow_bound (g := fun y => f (x + y) - f x - y * f1 x - y ^ 2 / 2 * f2 x - y ^ 3 / 6 * f3 x) (g' := fun y => f1 (x + y) - f1 x - y * f2 x - y ^ 2 / 2 * f3 x) (h := h) (c := M / 6) 3
    (fun y hy => by
      have := (((((h1 _ (hm y hy)).comp_const_add x y).sub_const (f x)).sub ((hasDerivAt_id' y).mul_const (f1 x))).sub (((hasDerivAt_pow 2 y).div_const 2).mul_const (f2 x))).sub
        (((hasDerivAt_pow 3 y).div_const 6).mul_const (f3 x))
      refine this.congr_deriv ?_
      norm_num
      left
      ring)
    (by simp)
    (fun y hy => taylor3 hy.1 (fun z hz => h2 z ⟨hz.1, hz.2.trans (by linarith [hy.2])⟩) (fun z hz => h3 z ⟨hz.1, hz.2.trans (by linarith [hy.2])⟩)
      (fun z hz => h4 z ⟨hz.1, hz.2.trans (by linarith [hy.2])⟩) (fun z hz => hM z ⟨hz.1, hz.2.trans (by linarith [hy.2])⟩))
  have := b2 h ⟨hh, le_rfl⟩
  norm_num at this
  linarith

private theorem mirror {f f1 : ℝ → ℝ} {x h : ℝ} (h1 : ∀ y ∈ Icc (x - h) x, HasDerivAt f (f1 y) y) : ∀ y ∈ Icc (-x) (-x + h), HasDerivAt (fun y => f (-y)) (-f1 (-y)) y := by
  intro y hy
  have h2 : HasDerivAt f (f1 (-y)) (-y) := h1 (-y) ⟨by linarith [hy.2], by linarith [hy.1]⟩
  have h3 : HasDerivAt (fun y => f (-y)) (f1 (-y) * -1) y := HasDerivAt.comp y h2 (hasDerivAt_neg y)
  rwa [mul_neg_one] at h3

private theorem mirror' {f f1 : ℝ → ℝ} {x h : ℝ} (h1 : ∀ y ∈ Icc (x - h) x, HasDerivAt f (f1 y) y) : ∀ y ∈ Icc (-x) (-x + h), HasDerivAt (fun y => -f (-y)) (f1 (-y)) y := by
  intro y hy
  have := (mirror h1 y hy).neg
  rwa [neg_neg] at this

theorem taylor2_left {f f1 f2 : ℝ → ℝ} {x h M : ℝ} (hh : 0 ≤ h) (h1 : ∀ y ∈ Icc (x - h) x, HasDerivAt f (f1 y) y) (h2 : ∀ y ∈ Icc (x - h) x, HasDerivAt f1 (f2 y) y)
    (hM : ∀ y ∈ Icc (x - h) x, |f2 y| ≤ M) : |f (x - h) - f x + h * f1 x| ≤ M / 2 * h ^ 2 := by
  have := taylor2 (x := -x) hh (mirror h1) (mirror' h2) (fun y hy => hM (-y) ⟨by linarith [hy.2], by linarith [hy.1]⟩)
  rw [show -(-x + h) = x - h by ring, neg_neg] at this
  rwa [show f (x - h) - f x + h * f1 x = f (x - h) - f x - h * -f1 x by ring]

theorem taylor3_left {f f1 f2 f3 : ℝ → ℝ} {x h M : ℝ} (hh : 0 ≤ h) (h1 : ∀ y ∈ Icc (x - h) x, HasDerivAt f (f1 y) y) (h2 : ∀ y ∈ Icc (x - h) x, HasDerivAt f1 (f2 y) y)
    (h3 : ∀ y ∈ Icc (x - h) x, HasDerivAt f2 (f3 y) y) (hM : ∀ y ∈ Icc (x - h) x, |f3 y| ≤ M) : |f (x - h) - f x + h * f1 x - h ^ 2 / 2 * f2 x| ≤ M / 6 * h ^ 3 := by
  have := taylor3 (x := -x) (f3 := fun y => -f3 (-y)) hh (mirror h1) (mirror' h2) (mirror h3) (fun y hy => by rw [abs_neg]; exact hM (-y) ⟨by linarith [hy.2], by linarith [hy.1]⟩)
  rw [show -(-x + h) = x - h by ring, neg_neg] at this
  rwa [show f (x - h) - f x + h * f1 x - h ^ 2 / 2 * f2 x = f (x - h) - f x - h * -f1 x - h ^ 2 / 2 * f2 x by ring]

theorem taylor4_left {f f1 f2 f3 f4 : ℝ → ℝ} {x h M : ℝ} (hh : 0 ≤ h) (h1 : ∀ y ∈ Icc (x - h) x, HasDerivAt f (f1 y) y) (h2 : ∀ y ∈ Icc (x - h) x, HasDerivAt f1 (f2 y) y)
    (h3 : ∀ y ∈ Icc (x - h) x, HasDerivAt f2 (f3 y) y) (h4 : ∀ y ∈ Icc (x - h) x, HasDerivAt f3 (f4 y) y) (hM : ∀ y ∈ Icc (x - h) x, |f4 y| ≤ M) :
    |f (x - h) - f x + h * f1 x - h ^ 2 / 2 * f2 x + h ^ 3 / 6 * f3 x| ≤ M / 24 * h ^ 4 := by
  have := taylor4 (x := -x) hh (mirror h1) (mirror' h2) (mirror h3) (mirror' h4) (fun y hy => hM (-y) ⟨by linarith [hy.2], by linarith [hy.1]⟩)
  rw [show -(-x + h) = x - h by ring, neg_neg] at this
  rwa [show f (x - h) - f x + h * f1 x - h ^ 2 / 2 * f2 x + h ^ 3 / 6 * f3 x = f (x - h) - f x - h * -f1 x - h ^ 2 / 2 * f2 x - h ^ 3 / 6 * -f3 x by ring]

/-- The trapezoidal rule. -/
theorem trapezoid {f f1 f2 f3 : ℝ → ℝ} {x h M : ℝ} (hh : 0 ≤ h) (h1 : ∀ y ∈ Icc x (x + h), HasDerivAt f (f1 y) y) (h2 : ∀ y ∈ Icc x (x + h), HasDerivAt f1 (f2 y) y)
    (h3 : ∀ y ∈ Icc x (x + h), HasDerivAt f2 (f3 y) y) (hM : ∀ y ∈ Icc x (x + h), |f3 y| ≤ M) : |f (x + h) - f x - h / 2 * (f1 x + f1 (x + h))| ≤ M / 12 * h ^ 3 := by
  have hm : ∀ y ∈ Icc 0 h, x + y ∈ Icc x (x + h) := fun y hy => ⟨by linarith [hy.1], by linarith [hy.2]⟩
  have b1 := grow_bound (g := fun y => 1 / 2 * (f1 (x + y) - f1 x) - y / 2 * f2 (x + y)) (g' := fun y => -(y / 2 * f3 (x + y))) (h := h) (c := M / 2) 1
    (fun y hy => by
      have := ((((h2 _ (hm y hy)).comp_const_add x y).sub_const (f1 x)).const_mul (1 / 2)).sub (((hasDerivAt_id' y).div_const 2).mul ((h3 _ (hm y hy)).comp_const_add x y))
      refine this.congr_deriv ?_
      ring)
    (by simp)
    (fun y hy => by
      rw [abs_neg, abs_mul, abs_of_nonneg (by linarith [hy.1] : 0 ≤ y / 2)]
      have := mul_le_mul_of_nonneg_left (hM _ (hm y hy)) (by linarith [hy.1] : 0 ≤ y / 2)
      rw [pow_one]
      linarith)
  have b2 := grow_bound (g := fun y => f (x + y) - f x - y / 2 * (f1 x + f1 (x + y))) (g' := fun y => 1 / 2 * (f1 (x + y) - f1 x) - y / 2 * f2 (x + y)) (h := h) (c := M / 4) 2
    (fun y hy => by
      have := (((h1 _ (hm y hy)).comp_const_add x y).sub_const (f x)).sub (((hasDerivAt_id' y).div_const 2).mul (((h2 _ (hm y hy)).comp_const_add x y).const_add (f1 x)))
      refine this.congr_deriv ?_
      ring)
    (by simp)
    (fun y hy => by
      have := b1 y hy
      norm_num at this ⊢
      linarith)
  have := b2 h ⟨hh, le_rfl⟩
  norm_num at this
  linarith

/-- The error of the first difference. -/
theorem d1_error {x f : Nat → ℝ} {i : Nat} {F F1 F2 F3 : ℝ → ℝ} {M : ℝ} (ha : x (i - 1) < x i) (hb : x i < x (i + 1)) (hf : ∀ j, f j = F (x j))
    (h1 : ∀ y ∈ Icc (x (i - 1)) (x (i + 1)), HasDerivAt F (F1 y) y) (h2 : ∀ y ∈ Icc (x (i - 1)) (x (i + 1)), HasDerivAt F1 (F2 y) y)
    (h3 : ∀ y ∈ Icc (x (i - 1)) (x (i + 1)), HasDerivAt F2 (F3 y) y) (hM : ∀ y ∈ Icc (x (i - 1)) (x (i + 1)), |F3 y| ≤ M) :
    |d1 x f i - F1 (x i)| ≤ M / 6 * ((x i - x (i - 1)) * (x (i + 1) - x i)) := by
  rw [d1, hf, hf, hf]
  set l := x (i - 1)
  set u := x i
  set r := x (i + 1)
  have a0 : 0 < u - l := by linarith
  have b0 : 0 < r - u := by linarith
  have c0 : 0 < r - l := by linarith
  have e1 := taylor3 (x := u) (h := r - u) b0.le (fun y hy => h1 y ⟨by linarith [hy.1], by linarith [hy.2]⟩) (fun y hy => h2 y ⟨by linarith [hy.1], by linarith [hy.2]⟩)
    (fun y hy => h3 y ⟨by linarith [hy.1], by linarith [hy.2]⟩) (fun y hy => hM y ⟨by linarith [hy.1], by linarith [hy.2]⟩)
  have e2 := taylor3_left (x := u) (h := u - l) a0.le (fun y hy => h1 y ⟨by linarith [hy.1], by linarith [hy.2]⟩) (fun y hy => h2 y ⟨by linarith [hy.1], by linarith [hy.2]⟩)
    (fun y hy => h3 y ⟨by linarith [hy.1], by linarith [hy.2]⟩) (fun y hy => hM y ⟨by linarith [hy.1], by linarith [hy.2]⟩)
  rw [show u + (r - u) = r by ring] at e1
  rw [show u - (u - l) = l by ring] at e2
  set R := F r - F u - (r - u) * F1 u - (r - u) ^ 2 / 2 * F2 u with hR
  set L := F l - F u + (u - l) * F1 u - (u - l) ^ 2 / 2 * F2 u with hL
  have key : ((F r - F u) / (r - u) * (u - l) + (F u - F l) / (u - l) * (r - u)) / (r - l) - F1 u = (R * (u - l) / (r - u) - L * (r - u) / (u - l)) / (r - l) := by
    rw [hR, hL]
    have : r - l = (r - u) + (u - l) := by ring
    rw [this]
    have t1 := a0.ne'
    have t2 := b0.ne'
    have t3 : (r - u) + (u - l) ≠ 0 := by rw [← this]; exact c0.ne'
    generalize r - u = b at *
    generalize u - l = a at *
    field_simp
    ring
  rw [key, abs_div, abs_of_pos c0, div_le_iff₀ c0]
  have k1 : |R * (u - l) / (r - u)| ≤ M / 6 * (r - u) ^ 2 * (u - l) := by
    rw [abs_div, abs_mul, abs_of_pos a0, abs_of_pos b0, div_le_iff₀ b0]
    have := mul_le_mul_of_nonneg_right e1 a0.le
    calc _ ≤ _ := this
      _ = _ := by ring
  have k2 : |L * (r - u) / (u - l)| ≤ M / 6 * (u - l) ^ 2 * (r - u) := by
    rw [abs_div, abs_mul, abs_of_pos a0, abs_of_pos b0, div_le_iff₀ a0]
    have := mul_le_mul_of_nonneg_right e2 b0.le
    calc _ ≤ _ := this
      _ = _ := by ring
  have k3 := abs_sub (R * (u - l) / (r - u)) (L * (r - u) / (u - l))
  have k4 : M / 6 * ((u - l) * (r - u)) * (r - l) = M / 6 * (r - u) ^ 2 * (u - l) + M / 6 * (u - l) ^ 2 * (r - u) := by ring
  rw [k4]
  linarith

/-- The error of the second difference. -/
theorem d2_error {x f : Nat → ℝ} {i : Nat} {F F1 F2 F3 F4 : ℝ → ℝ} {M3 M4 h : ℝ} (ha : x (i - 1) < x i) (hb : x i < x (i + 1)) (hf : ∀ j, f j = F (x j))
    (h1 : ∀ y ∈ Icc (x (i - 1)) (x (i + 1)), HasDerivAt F (F1 y) y) (h2 : ∀ y ∈ Icc (x (i - 1)) (x (i + 1)), HasDerivAt F1 (F2 y) y)
    (h3 : ∀ y ∈ Icc (x (i - 1)) (x (i + 1)), HasDerivAt F2 (F3 y) y) (h4 : ∀ y ∈ Icc (x (i - 1)) (x (i + 1)), HasDerivAt F3 (F4 y) y)
    (hM3 : |F3 (x i)| ≤ M3) (hM : ∀ y ∈ Icc (x (i - 1)) (x (i + 1)), |F4 y| ≤ M4) (ka : x i - x (i - 1) ≤ h) (kb : x (i + 1) - x i ≤ h) :
    |d2 x f i - F2 (x i)| ≤ M3 / 3 * |(x (i + 1) - x i) - (x i - x (i - 1))| + M4 / 12 * h ^ 2 := by
  have hM4 : 0 ≤ M4 := (abs_nonneg _).trans (hM (x i) ⟨ha.le, hb.le⟩)
  rw [d2, hf, hf, hf]
  set l := x (i - 1)
  set u := x i
  set r := x (i + 1)
  have a0 : 0 < u - l := by linarith
  have b0 : 0 < r - u := by linarith
  have c0 : 0 < r - l := by linarith
  have e1 := taylor4 (x := u) (h := r - u) b0.le (fun y hy => h1 y ⟨by linarith [hy.1], by linarith [hy.2]⟩) (fun y hy => h2 y ⟨by linarith [hy.1], by linarith [hy.2]⟩)
    (fun y hy => h3 y ⟨by linarith [hy.1], by linarith [hy.2]⟩) (fun y hy => h4 y ⟨by linarith [hy.1], by linarith [hy.2]⟩) (fun y hy => hM y ⟨by linarith [hy.1], by linarith [hy.2]⟩)
  have e2 := taylor4_left (x := u) (h := u - l) a0.le (fun y hy => h1 y ⟨by linarith [hy.1], by linarith [hy.2]⟩) (fun y hy => h2 y ⟨by linarith [hy.1], by linarith [hy.2]⟩)
    (fun y hy => h3 y ⟨by linarith [hy.1], by linarith [hy.2]⟩) (fun y hy => h4 y ⟨by linarith [hy.1], by linarith [hy.2]⟩) (fun y hy => hM y ⟨by linarith [hy.1], by linarith [hy.2]⟩)
  rw [show u + (r - u) = r by ring] at e1
  rw [show u - (u - l) = l by ring] at e2
  set R := F r - F u - (r - u) * F1 u - (r - u) ^ 2 / 2 * F2 u - (r - u) ^ 3 / 6 * F3 u with hR
  set L := F l - F u + (u - l) * F1 u - (u - l) ^ 2 / 2 * F2 u + (u - l) ^ 3 / 6 * F3 u with hL
  have key : 2 * (((F r - F u) / (r - u) - (F u - F l) / (u - l)) / (r - l)) - F2 u = ((r - u) - (u - l)) / 3 * F3 u + 2 * (R / (r - u) + L / (u - l)) / (r - l) := by
    rw [hR, hL]
    have : r - l = (r - u) + (u - l) := by ring
    rw [this]
    have t1 := a0.ne'
    have t2 := b0.ne'
    have t3 : (r - u) + (u - l) ≠ 0 := by rw [← this]; exact c0.ne'
    generalize r - u = b at *
    generalize u - l = a at *
    field_simp
    ring
  rw [key]
  have k1 : |R / (r - u)| ≤ M4 / 24 * (r - u) ^ 3 := by
    rw [abs_div, abs_of_pos b0, div_le_iff₀ b0]
    calc _ ≤ _ := e1
      _ = _ := by ring
  have k2 : |L / (u - l)| ≤ M4 / 24 * (u - l) ^ 3 := by
    rw [abs_div, abs_of_pos a0, div_le_iff₀ a0]
    calc _ ≤ _ := e2
      _ = _ := by ring
  have k3 : |2 * (R / (r - u) + L / (u - l)) / (r - l)| ≤ M4 / 12 * h ^ 2 := by
    rw [abs_div, abs_of_pos c0, div_le_iff₀ c0, abs_mul, abs_two]
    have k4 := abs_add_le (R / (r - u)) (L / (u - l))
    have k5 : (r - u) ^ 3 + (u - l) ^ 3 ≤ h ^ 2 * (r - l) := by
      have e : r - l = (r - u) + (u - l) := by ring
      rw [e]
      have q1 : (r - u) ^ 2 ≤ h ^ 2 := pow_le_pow_left₀ b0.le kb 2
      have q2 : (u - l) ^ 2 ≤ h ^ 2 := pow_le_pow_left₀ a0.le ka 2
      nlinarith
    have k6 := mul_le_mul_of_nonneg_left k5 (show 0 ≤ M4 / 12 by linarith)
    nlinarith
  have k4 : |((r - u) - (u - l)) / 3 * F3 u| ≤ M3 / 3 * |(r - u) - (u - l)| := by
    rw [abs_mul, abs_div, abs_of_pos (show (0 : ℝ) < 3 by norm_num)]
    have := mul_le_mul_of_nonneg_left hM3 (show 0 ≤ |(r - u) - (u - l)| / 3 by positivity)
    calc _ ≤ _ := this
      _ = _ := by ring
  exact (abs_add_le _ _).trans (add_le_add k4 k3)

end Dal.Fd
