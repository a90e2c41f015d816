import Verif.Numeric.NcdfModel
import Verif.Numeric.NormalLemmas
import Verif.Interp.CubicProps
import Mathlib.Data.Rat.Cast.Order
import Mathlib.Analysis.SpecialFunctions.Log.Deriv
import Mathlib.Analysis.SpecialFunctions.Pow.Real
import Mathlib.Order.Monotone.Union
import Mathlib.Analysis.Complex.ExponentialBounds
import Mathlib.Tactic.NormNum
import Mathlib.Tactic.Linarith
import Mathlib.Tactic.Ring
import Mathlib.Tactic.Positivity
import Mathlib.Tactic.FieldSimp
import Mathlib.Tactic.IntervalCases

/-! Lemmas about the distribution function by splines and the inverse of the distribution function. -/

namespace Dal.Normal

open Dal.Interp

/-! ### A spline through rational numbers -/

/-- A vector of rational numbers as one of reals. -/
def up (v : Nat → Rat) : Nat → ℝ := fun i => ((v i : Rat) : ℝ)

theorem up_put (v : Nat → Rat) (i : Nat) (q : Rat) : up (put v i q) = put (up v) i (q : ℝ) := by
  funext j
  unfold up put
  split <;> rfl

theorem up_zero : up (fun _ => 0) = fun _ => 0 := by funext j; simp [up]

theorem decompose_up (x f : Nat → Rat) : ∀ c (u v : Nat → Rat),
    decomposeLoop (up x) (up f) c (up u, up v) = (up (decomposeLoop x f c (u, v)).1, up (decomposeLoop x f c (u, v)).2) := by
  intro c u v
  induction c with
  | zero => rfl
  | succ c ih =>
    simp only [decomposeLoop, ih, up_put]
    congr 2 <;> simp [up]

theorem back_up (u : Nat → Rat) : ∀ c (v : Nat → Rat), backLoop (up u) c (up v) = up (backLoop u c v) := by
  intro c
  induction c with
  | zero => intro v; rfl
  | succ c ih =>
    intro v
    simp only [backLoop]
    rw [← ih, up_put]
    congr 2
    simp [up]

theorem newCubic_up (n m : Nat) (x f : Nat → Rat) (lv rv : Rat) (c : Cubic Rat) (h : newCubic n m x f ⟨1, lv⟩ ⟨1, rv⟩ = some c) :
    newCubic n m (up x) (up f) ⟨1, (lv : ℝ)⟩ ⟨1, (rv : ℝ)⟩ = some ⟨c.n, up c.x, up c.f, up c.fpp⟩ := by
  have hs : isStrict (up x) n = isStrict x n := by
    unfold isStrict
    congr 1
    funext i
    simp [up]
  unfold newCubic at h ⊢
  rw [hs]
  split at h
  · rename_i hc
    rw [if_pos hc]
    simp only [leftBoundary, if_true, Option.bind_some, rightBoundary, Option.some.injEq] at h ⊢
    rw [← h]
    have e1 : put (fun _ => (0 : ℝ)) 0 (-(1 / 2)) = up (put (fun _ => 0) 0 (-(1 / 2))) := by rw [up_put, up_zero]; simp
    have e2 : put (fun _ => (0 : ℝ)) 0 ((((up f 1 - up f 0) / (up x 1 - up x 0)) - lv) * (3 / (up x 1 - up x 0))) =
        up (put (fun _ => 0) 0 (((f 1 - f 0) / (x 1 - x 0) - lv) * (3 / (x 1 - x 0)))) := by rw [up_put, up_zero]; simp [up]
    rw [e1, e2, decompose_up]
    simp only [Cubic.mk.injEq, true_and]
    rw [← back_up, up_put]
    congr 2
    simp [up]
  · cases h

/-! ### The spline of the distribution function -/

/-- The slopes at the ends and in the middle of piece `k` are positive. -/
def slopesUp (fpp : Nat → Rat) (k : Nat) : Bool :=
  let x : Nat → Rat := at' nodesX
  let f : Nat → Rat := at' nodesF
  let h := x (k + 1) - x k
  let s := (f (k + 1) - f k) / h
  let e0 := s - h * (2 * fpp k + fpp (k + 1)) / 6
  let e1 := s + h * (fpp k + 2 * fpp (k + 1)) / 6
  decide (0 < h) && decide (0 < e0) && decide (0 < e1) && decide (0 < 3 * s - e0 - e1)

theorem spline_check : (makeSpline Rat).any (fun c => (List.range 15).all fun k => slopesUp c.fpp k) = true := by decide +kernel

theorem at_up (l : List Rat) : (at' l : Nat → ℝ) = up (at' l) := by
  funext i; simp [at', up]

theorem spline_ok : ∃ (c : Cubic ℝ) (fpp : Nat → Rat), makeSpline ℝ = some c ∧ c.fpp = up fpp ∧ ∀ k, k < 15 → slopesUp fpp k = true := by
  have h := spline_check
  rw [Option.any_eq_true] at h
  obtain ⟨c, hc, hk⟩ := h
  refine ⟨⟨c.n, up c.x, up c.f, up c.fpp⟩, c.fpp, ?_, rfl, fun k hk' => List.all_eq_true.1 hk k (List.mem_range.2 hk')⟩
  unfold makeSpline at hc ⊢
  rw [at_up, at_up]
  have := newCubic_up _ _ _ _ _ _ c hc
  simpa using this

theorem cube_mono {b b' : ℝ} (h : b < b') (e0 e1 em : ℝ) (h0 : 0 < e0) (h1 : 0 < e1) (hm : 0 < em) (hb : 0 ≤ b) (hb' : b' ≤ 1) :
    e0 * (1 - (1 - b) ^ 3) + em * (3 * b ^ 2 - 2 * b ^ 3) + e1 * b ^ 3 < e0 * (1 - (1 - b') ^ 3) + em * (3 * b' ^ 2 - 2 * b' ^ 3) + e1 * b' ^ 3 := by
  have a1 : (1 - b') ^ 3 < (1 - b) ^ 3 := pow_lt_pow_left₀ (by linarith) (by linarith) (by norm_num)
  have a2 : b ^ 3 ≤ b' ^ 3 := pow_le_pow_left₀ hb h.le 3
  have a3 : 3 * b ^ 2 - 2 * b ^ 3 ≤ 3 * b' ^ 2 - 2 * b' ^ 3 := by
    have : 3 * b' ^ 2 - 2 * b' ^ 3 - (3 * b ^ 2 - 2 * b ^ 3) = (b' - b) * (2 * (b' * (1 - b')) + 2 * (b * (1 - b)) + b' * (1 - b) + b * (1 - b')) := by ring
    have h1 : 0 ≤ 1 - b' := by linarith
    have h2 : 0 ≤ 1 - b := by linarith
    have h3 : 0 ≤ b' := hb.trans h.le
    have h4 : 0 ≤ b' - b := by linarith
    have : 0 ≤ (b' - b) * (2 * (b' * (1 - b')) + 2 * (b * (1 - b)) + b' * (1 - b) + b * (1 - b')) := by positivity
    linarith
  have := mul_lt_mul_of_pos_left a1 h0
  have := mul_le_mul_of_nonneg_left a2 h1.le
  have := mul_le_mul_of_nonneg_left a3 hm.le
  linarith

theorem piece_mono {c : Cubic ℝ} {fpp : Nat → Rat} (hc : makeSpline ℝ = some c) (hf : c.fpp = up fpp) (k : Nat) (hk : k < 15) (hs : slopesUp fpp k = true) :
    StrictMonoOn c.eval (Set.Icc (at' nodesX k) (at' nodesX (k + 1))) := by
  intro z hz w hw hzw
  have hlen : k + 1 < nodesX.length := by show k + 1 < 16; omega
  unfold makeSpline at hc
  rw [eval_piece hc k hlen z hz.1 hz.2, eval_piece hc k hlen w hw.1 hw.2, hf, at_up nodesX, at_up nodesF]
  rw [at_up] at hz hw
  simp only [slopesUp, Bool.and_eq_true, decide_eq_true_eq] at hs
  obtain ⟨⟨⟨h1, h2⟩, h3⟩, h4⟩ := hs
  have r1 : (0 : ℝ) < ((at' nodesX (k + 1) - at' nodesX k : Rat) : ℝ) := by exact_mod_cast h1
  have r2 := (Rat.cast_pos (K := ℝ)).2 h2
  have r3 := (Rat.cast_pos (K := ℝ)).2 h3
  have r4 := (Rat.cast_pos (K := ℝ)).2 h4
  push_cast at r1 r2 r3 r4
  unfold up at *
  generalize ((at' nodesX k : Rat) : ℝ) = x0 at *
  generalize ((at' nodesX (k + 1) : Rat) : ℝ) = x1 at *
  generalize ((at' nodesF k : Rat) : ℝ) = f0 at *
  generalize ((at' nodesF (k + 1) : Rat) : ℝ) = f1 at *
  generalize ((fpp k : Rat) : ℝ) = m0 at *
  generalize ((fpp (k + 1) : Rat) : ℝ) = m1 at *
  obtain ⟨h, hh⟩ : ∃ h, h = x1 - x0 := ⟨_, rfl⟩
  rw [← hh] at r1 r2 r3 r4 ⊢
  have form : ∀ b, (1 - b) * f0 + b * f1 - (1 - b) * b * ((1 + (1 - b)) * m0 + (1 + b) * m1) * (h * h) / 6 =
      f0 + h / 3 * (((f1 - f0) / h - h * (2 * m0 + m1) / 6) * (1 - (1 - b) ^ 3) +
        (3 * ((f1 - f0) / h) - ((f1 - f0) / h - h * (2 * m0 + m1) / 6) - ((f1 - f0) / h + h * (m0 + 2 * m1) / 6)) * (3 * b ^ 2 - 2 * b ^ 3) +
        ((f1 - f0) / h + h * (m0 + 2 * m1) / 6) * b ^ 3) := by
    intro b
    obtain ⟨s, hs⟩ : ∃ s, s = (f1 - f0) / h := ⟨_, rfl⟩
    rw [← hs]
    have : f1 = f0 + s * h := by rw [hs, div_mul_cancel₀ _ r1.ne']; ring
    rw [this]
    ring
  rw [form, form]
  have hb : (z - x0) / h < (w - x0) / h := div_lt_div_of_pos_right (by linarith) r1
  have := cube_mono hb _ _ _ r2 r3 r4 (div_nonneg (by linarith [hz.1]) r1.le) ((div_le_one r1).2 (by linarith [hw.2]))
  have h3 : 0 < h / 3 := by positivity
  have := mul_lt_mul_of_pos_left this h3
  linarith

theorem at_lt (k : Nat) (hk : k < 15) : (at' nodesX k : ℝ) < at' nodesX (k + 1) := by
  obtain ⟨c, fpp, -, -, h⟩ := spline_ok
  have := h k hk
  simp only [slopesUp, Bool.and_eq_true, decide_eq_true_eq] at this
  have h1 := this.1.1.1
  rw [at_up]
  have := (Rat.cast_pos (K := ℝ)).2 h1
  push_cast at this
  exact sub_pos.1 this

theorem spline_mono {c : Cubic ℝ} {fpp : Nat → Rat} (hc : makeSpline ℝ = some c) (hf : c.fpp = up fpp) (hs : ∀ k, k < 15 → slopesUp fpp k = true) :
    ∀ k, k < 15 → StrictMonoOn c.eval (Set.Icc (at' nodesX 0) (at' nodesX (k + 1))) ∧ (at' nodesX 0 : ℝ) < at' nodesX (k + 1) := by
  intro k
  induction k with
  | zero => exact fun hk => ⟨piece_mono hc hf 0 hk (hs 0 hk), at_lt 0 hk⟩
  | succ k ih =>
    intro hk
    obtain ⟨h1, h2⟩ := ih (by omega)
    have h3 := at_lt (k + 1) hk
    refine ⟨?_, h2.trans h3⟩
    rw [← Set.Icc_union_Icc_eq_Icc h2.le h3.le]
    exact h1.union (piece_mono hc hf (k + 1) hk (hs _ hk)) (isGreatest_Icc h2.le) (isLeast_Icc h3.le)

theorem minX_eq : (at' nodesX 0 : ℝ) = minX := by simp [at', nodesX, minX]
theorem lastX_eq : (at' nodesX 15 : ℝ) = 0 := by simp [at', nodesX]
theorem firstF_eq : (at' nodesF 0 : ℝ) = minF := by simp [at', nodesF, minF]
theorem lastF_eq : (at' nodesF 15 : ℝ) = 1 / 2 := by simp [at', nodesF]; norm_num
theorem minX_neg : (minX : ℝ) < 0 := by unfold minX; norm_num
theorem minF_pos : (0 : ℝ) < minF := by unfold minF; norm_num

theorem spline_nodes {c : Cubic ℝ} (hc : makeSpline ℝ = some c) (i : Nat) (hi : i < 16) : c.eval (at' nodesX i) = at' nodesF i :=
  (C49_spline hc).1 i hi

/-- The distribution function below zero. -/
theorem below_mono {c : Cubic ℝ} {fpp : Nat → Rat} (hc : makeSpline ℝ = some c) (hf : c.fpp = up fpp) (hs : ∀ k, k < 15 → slopesUp fpp k = true) :
    StrictMonoOn (belowZero c) (Set.Iic 0) ∧ belowZero c 0 = 1 / 2 ∧ (∀ z, z ≤ 0 → 0 < belowZero c z) ∧ Continuous (belowZero c) := by
  have h0 : c.eval (minX : ℝ) = minF := by rw [← minX_eq, ← firstF_eq]; exact spline_nodes hc 0 (by omega)
  have hz : c.eval 0 = 1 / 2 := by rw [← lastX_eq, ← lastF_eq]; exact spline_nodes hc 15 (by omega)
  have hx := minX_neg
  have hF := minF_pos
  have hm := (spline_mono hc hf hs 14 (by omega)).1
  rw [show 14 + 1 = 15 from rfl, lastX_eq, minX_eq] at hm
  have tailEq : ∀ z ∈ Set.Iic (minX : ℝ), belowZero c z = minF * Real.exp (-(1.1180061 : Rat) * (z * z - minX * minX)) := by
    intro z hz'
    unfold belowZero
    by_cases h : z < minX
    · rw [if_pos h]
    · rw [if_neg h, le_antisymm hz' (not_lt.1 h), h0, sub_self, mul_zero, Real.exp_zero, mul_one]
  have midEq : ∀ z ∈ Set.Icc (minX : ℝ) 0, belowZero c z = c.eval z := fun z hz' => by
    unfold belowZero; rw [if_neg (not_lt.2 hz'.1)]
  have m1 : StrictMonoOn (belowZero c) (Set.Iic (minX : ℝ)) := by
    intro z hz w hw hzw
    rw [tailEq z hz, tailEq w hw]
    refine mul_lt_mul_of_pos_left (Real.exp_lt_exp.2 ?_) hF
    have h1 : w * w < z * z := by
      have : w < 0 := lt_of_le_of_lt hw hx
      nlinarith
    push_cast
    linarith
  have m2 : StrictMonoOn (belowZero c) (Set.Icc (minX : ℝ) 0) := by
    intro z hz w hw hzw
    rw [midEq z hz, midEq w hw]
    exact hm hz hw hzw
  have e0 : belowZero c 0 = 1 / 2 := by rw [midEq 0 ⟨hx.le, le_rfl⟩, hz]
  refine ⟨?_, e0, ?_, ?_⟩
  · rw [← Set.Iic_union_Icc_eq_Iic hx.le]
    exact m1.union m2 isGreatest_Iic (isLeast_Icc hx.le)
  · intro z hz
    by_cases h : z ≤ minX
    · rw [tailEq z h]; positivity
    · push Not at h
      have := m2.monotoneOn ⟨le_rfl, hx.le⟩ ⟨h.le, hz⟩ h.le
      rw [midEq (minX : ℝ) ⟨le_rfl, hx.le⟩, h0] at this
      linarith
  · obtain ⟨-, s', s'', hd, -⟩ := C49_spline (by exact hc)
    have hce : Continuous c.eval := continuous_iff_continuousAt.2 fun z => (hd z).continuousAt
    have hct : Continuous fun z : ℝ => (minF : ℝ) * Real.exp (-(1.1180061 : Rat) * (z * z - minX * minX)) := by fun_prop
    have : belowZero c = fun z => if (minX : ℝ) ≤ z then c.eval z else minF * Real.exp (-(1.1180061 : Rat) * (z * z - minX * minX)) := by
      funext z
      unfold belowZero
      by_cases h : z < minX
      · rw [if_pos h, if_neg (not_le.2 h)]
      · rw [if_neg h, if_pos (not_lt.1 h)]
    rw [this]
    refine Continuous.if_le hce hct continuous_const continuous_id ?_
    intro z hz
    have hz : (minX : ℝ) = z := hz
    rw [← hz, h0, sub_self, mul_zero, Real.exp_zero, mul_one]

/-! ### The quotients of the inverse -/

/-- A polynomial, lowest coefficient first, and its derivative. -/
def ev : List ℝ → ℝ → ℝ
  | [], _ => 0
  | a :: l, z => a + z * ev l z

def ev' : List ℝ → ℝ → ℝ
  | [], _ => 0
  | _ :: l, z => ev l z + z * ev' l z

theorem ev_deriv (l : List ℝ) (z : ℝ) : HasDerivAt (ev l) (ev' l z) z := by
  induction l with
  | nil => exact hasDerivAt_const z 0
  | cons a l ih =>
    have := ((hasDerivAt_id z).mul ih).const_add a
    refine (this.congr_deriv ?_)
    simp [ev']

noncomputable def tailN : List ℝ := [c6, c5, c4, c3, c2, c1]
noncomputable def tailD : List ℝ := [1, d4, d3, d2, d1]

theorem tail_eq (z : ℝ) : tail z = ev tailN z / ev tailD z := by
  simp only [tail, tailN, tailD, ev]
  congr 1 <;> ring

theorem tailD_pos {z : ℝ} (hz : 0 ≤ z) : 0 < ev tailD z := by
  simp only [tailD, ev, d4, d3, d2, d1]
  norm_num
  positivity

theorem tail_slope {z : ℝ} (hz : 27 / 10 ≤ z) : ev' tailN z * ev tailD z - ev tailN z * ev' tailD z < 0 := by
  obtain ⟨t, rfl⟩ : ∃ t, z = 27 / 10 + t := ⟨z - 27 / 10, by ring⟩
  have ht : 0 ≤ t := by linarith
  rw [← neg_pos]
  simp only [tailN, tailD, ev, ev', d4, d3, d2, d1, c1, c2, c3, c4, c5, c6]
  push_cast
  ring_nf
  positivity

theorem tail_anti : StrictAntiOn tail (Set.Ici (27 / 10)) := by
  have hd : ∀ z ∈ Set.Ici (27 / 10 : ℝ), HasDerivAt tail ((ev' tailN z * ev tailD z - ev tailN z * ev' tailD z) / ev tailD z ^ 2) z := by
    intro z hz
    have hz : (27 / 10 : ℝ) ≤ z := hz
    have := (ev_deriv tailN z).div (ev_deriv tailD z) (tailD_pos (by linarith)).ne'
    exact this.congr_of_eventuallyEq (Filter.Eventually.of_forall tail_eq)
  refine strictAntiOn_of_deriv_neg (convex_Ici _) (fun z hz => (hd z hz).continuousAt.continuousWithinAt) fun z hz => ?_
  rw [interior_Ici] at hz
  have hz : (27 / 10 : ℝ) < z := hz
  rw [(hd z hz.le).deriv]
  exact div_neg_of_neg_of_pos (tail_slope hz.le) (pow_pos (tailD_pos (by linarith)) 2)

noncomputable def midN : List ℝ := [0, a6, 0, a5, 0, a4, 0, a3, 0, a2, 0, a1]
noncomputable def midD : List ℝ := [1, 0, b5, 0, b4, 0, b3, 0, b2, 0, b1]

theorem middle_eq (z : ℝ) : middle z = ev midN z / ev midD z := by
  simp only [middle, midN, midD, ev]
  congr 1 <;> ring

theorem in_unit {r R : ℝ} (h0 : 0 < r) (hR : r ≤ R) : ∃ y, 0 ≤ y ∧ r = R / (1 + y) := by
  refine ⟨R / r - 1, by rw [sub_nonneg, one_le_div h0]; exact hR, ?_⟩
  rw [add_sub_cancel, div_div_cancel₀]
  linarith

/-- The denominator and the numerator of the slope, in the square of the number. -/
noncomputable def sqD : List ℝ := [1, b5, b4, b3, b2, b1]
noncomputable def sqN : List ℝ := [a6, a5, a4, a3, a2, a1]

theorem midD_pos {z : ℝ} (hz : z * z ≤ (0.4758 : ℝ) ^ 2) : 0 < ev midD z := by
  have e : ev midD z = ev sqD (z * z) := by simp only [midD, sqD, ev]; ring
  rw [e]
  rcases eq_or_lt_of_le (mul_self_nonneg z) with h | h
  · rw [← h]; simp [sqD, ev]
  · obtain ⟨y, hy, hr⟩ := in_unit h hz
    rw [hr]
    have h1 : 0 < 1 + y := by linarith
    have : ev sqD (0.4758 ^ 2 / (1 + y)) * (1 + y) ^ 5 > 0 := by
      simp only [sqD, ev, b1, b2, b3, b4, b5]
      field_simp
      norm_num
      ring_nf
      positivity
    exact pos_of_mul_pos_left this (by positivity)

theorem mid_slope {z : ℝ} (hz : z * z ≤ (0.4758 : ℝ) ^ 2) : 0 < ev' midN z * ev midD z - ev midN z * ev' midD z := by
  have e : ev' midN z * ev midD z - ev midN z * ev' midD z = ev sqN (z * z) * ev sqD (z * z) + 2 * (z * z) * (ev' sqN (z * z) * ev sqD (z * z) - ev sqN (z * z) * ev' sqD (z * z)) := by
    simp only [midN, midD, sqN, sqD, ev, ev']; ring
  rw [e]
  rcases eq_or_lt_of_le (mul_self_nonneg z) with h | h
  · rw [← h]; simp [sqN, sqD, ev, ev', a6]; norm_num
  · obtain ⟨y, hy, hr⟩ := in_unit h hz
    rw [hr]
    have h1 : 0 < 1 + y := by linarith
    have : (ev sqN (0.4758 ^ 2 / (1 + y)) * ev sqD (0.4758 ^ 2 / (1 + y)) + 2 * (0.4758 ^ 2 / (1 + y)) *
        (ev' sqN (0.4758 ^ 2 / (1 + y)) * ev sqD (0.4758 ^ 2 / (1 + y)) - ev sqN (0.4758 ^ 2 / (1 + y)) * ev' sqD (0.4758 ^ 2 / (1 + y)))) * (1 + y) ^ 10 > 0 := by
      simp only [sqD, sqN, ev, ev', b1, b2, b3, b4, b5, a1, a2, a3, a4, a5, a6]
      field_simp
      norm_num
      ring_nf
      positivity
    exact pos_of_mul_pos_left this (by positivity)

theorem middle_mono : StrictMonoOn middle (Set.Icc (-0.4758) 0.4758) := by
  have sqr : ∀ z ∈ Set.Icc (-0.4758 : ℝ) 0.4758, z * z ≤ (0.4758 : ℝ) ^ 2 := by
    intro z hz
    nlinarith [hz.1, hz.2]
  have hd : ∀ z ∈ Set.Icc (-0.4758 : ℝ) 0.4758, HasDerivAt middle ((ev' midN z * ev midD z - ev midN z * ev' midD z) / ev midD z ^ 2) z := by
    intro z hz
    have := (ev_deriv midN z).div (ev_deriv midD z) (midD_pos (sqr z hz)).ne'
    exact this.congr_of_eventuallyEq (Filter.Eventually.of_forall middle_eq)
  refine strictMonoOn_of_deriv_pos (convex_Icc _ _) (fun z hz => (hd z hz).continuousAt.continuousWithinAt) fun z hz => ?_
  have hz := interior_subset hz
  rw [(hd z hz).deriv]
  exact div_pos (mid_slope (sqr z hz)) (pow_pos (midD_pos (sqr z hz)) 2)

/-! ### The parts of the inverse fit together -/

theorem middle_neg (z : ℝ) : middle (-z) = -middle z := by
  unfold middle
  dsimp only
  rw [neg_mul_neg, mul_neg, neg_div]

/-- The number at the seam, as the lower part sees it, is above this one. -/
noncomputable def seam : ℝ := 2.727393868

theorem log_low : Real.log (xLow : ℝ) < -(seam * seam) / 2 := by
  have e : Real.log (xLow : ℝ) = Real.log (1 - 0.224) - 5 * Real.log 2 := by
    have h2 : Real.log ((1 - 0.224 : ℝ) / 2 ^ 5) = Real.log (1 - 0.224) - 5 * Real.log 2 := by
      rw [Real.log_div (by norm_num) (by norm_num), Real.log_pow]; norm_num
    rw [← h2]
    congr 1
    unfold xLow
    norm_num
  have h := Real.abs_log_sub_add_sum_range_le (x := (0.224 : ℝ)) (by rw [abs_of_pos] <;> norm_num) 15
  have h2 := (abs_le.1 h).2
  rw [abs_of_pos (by norm_num : (0 : ℝ) < 0.224)] at h2
  have h3 := Real.log_two_gt_d9
  rw [e]
  simp only [Finset.sum_range_succ, Finset.sum_range_zero] at h2
  unfold seam
  norm_num at h2 h3 ⊢
  linarith

theorem seam_lt {x : ℝ} (h0 : 0 < x) (hx : x ≤ xLow) : seam < Real.sqrt (-2 * Real.log x) := by
  have h1 := Real.log_le_log h0 hx
  have h2 := log_low
  have h3 : (0 : ℝ) < seam := by unfold seam; norm_num
  exact Real.lt_sqrt_of_sq_lt (by nlinarith)

theorem seam_ge : (27 / 10 : ℝ) ≤ seam := by unfold seam; norm_num

theorem jump : tail seam < middle (xLow - 1 / 2) := by
  unfold tail middle seam
  simp only [c1, c2, c3, c4, c5, c6, d1, d2, d3, d4, a1, a2, a3, a4, a5, a6, b1, b2, b3, b4, b5, xLow]
  norm_num

/-- The number before polishing. -/
noncomputable def rawVal (x : ℝ) : ℝ :=
  if x < xLow then tail (Real.sqrt (-2 * Real.log x))
  else if xHigh < x then -tail (Real.sqrt (-2 * Real.log (1 - x)))
  else middle (x - 1 / 2)

theorem low_val : (xLow : ℝ) = 0.02425 := by unfold xLow; norm_num
theorem high_val : (xHigh : ℝ) = 1 - 0.02425 := by unfold xHigh xLow; norm_num

theorem raw_eq {x : ℝ} (h0 : 0 < x) (h1 : x < 1) : raw x = .value (rawVal x) := by
  unfold raw rawVal
  rw [low_val, high_val]
  by_cases a : x < 0.02425
  · rw [if_pos (Or.inl a), if_pos a, if_neg h0.ne', if_pos a]
  · by_cases b : 1 - 0.02425 < x
    · rw [if_pos (Or.inr b), if_neg a, if_neg (by linarith), if_neg a, if_pos b]
    · rw [if_neg (not_or.2 ⟨a, b⟩), if_neg a, if_neg b]

theorem rawVal_symm {x : ℝ} : rawVal (1 - x) = -rawVal x := by
  unfold rawVal
  rw [low_val, high_val]
  by_cases a : x < 0.02425
  · rw [if_neg (by norm_num; linarith), if_pos (by linarith), if_pos a, sub_sub_cancel]
  · by_cases b : 1 - 0.02425 < x
    · rw [if_pos (by linarith), if_neg a, if_pos b, neg_neg]
    · rw [if_neg (by linarith), if_neg (by linarith), if_neg a, if_neg b, ← middle_neg]
      congr 1; ring

theorem rawVal_mono {x y : ℝ} (h0 : 0 < x) (hxy : x < y) (h1 : y < 1) : rawVal x < rawVal y := by
  have low : ∀ {x y : ℝ}, 0 < x → x < y → y ≤ xHigh → rawVal x < rawVal y := by
    intro x y h0 hxy hy
    have hj := jump
    unfold rawVal
    rw [low_val] at *
    rw [high_val] at *
    have mid : ∀ {u v : ℝ}, (0.02425 : ℝ) ≤ u → u ≤ v → v ≤ 1 - 0.02425 → middle (u - 1 / 2) ≤ middle (v - 1 / 2) := fun {u v} hu huv hv =>
      middle_mono.monotoneOn ⟨by linarith, by linarith⟩ ⟨by linarith, by linarith⟩ (by linarith)
    by_cases a : x < 0.02425
    · have sx := seam_lt h0 (by rw [low_val]; exact a.le)
      have g := seam_ge
      rw [if_pos a]
      by_cases b : y < 0.02425
      · rw [if_pos b]
        have sy := seam_lt (h0.trans hxy) (by rw [low_val]; exact b.le)
        refine tail_anti (by exact g.trans sy.le) (by exact g.trans sx.le) ?_
        refine Real.sqrt_lt_sqrt ?_ ?_
        · have := Real.log_neg (h0.trans hxy) (by linarith)
          linarith
        · have := Real.log_lt_log h0 hxy
          linarith
      · rw [if_neg b, if_neg (by linarith)]
        have t := tail_anti (by exact g) (by exact g.trans sx.le) sx
        have m := mid le_rfl (not_lt.1 b) hy
        linarith
    · rw [if_neg a, if_neg (by linarith), if_neg (by linarith), if_neg (by linarith)]
      exact middle_mono ⟨by linarith, by linarith⟩ ⟨by linarith, by linarith⟩ (by linarith)
  by_cases hy : y ≤ xHigh
  · exact low h0 hxy hy
  · push Not at hy
    by_cases hx : (xLow : ℝ) ≤ x
    · have := low (x := 1 - y) (y := 1 - x) (by linarith) (by linarith) (by rw [high_val]; rw [low_val] at hx; linarith)
      rw [rawVal_symm, rawVal_symm] at this
      linarith
    · push Not at hx
      rw [low_val] at hx
      rw [high_val] at hy
      have z : rawVal (1 / 2) = 0 := by
        have := rawVal_symm (x := 1 / 2)
        norm_num at this
        linarith
      have a := low (x := x) (y := 1 / 2) h0 (by linarith) (by rw [high_val]; norm_num)
      have b := low (x := 1 - y) (y := 1 / 2) (by linarith) (by linarith) (by rw [high_val]; norm_num)
      rw [rawVal_symm, z] at b
      rw [z] at a
      linarith

end Dal.Normal
