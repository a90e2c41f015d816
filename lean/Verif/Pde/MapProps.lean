import Verif.Pde.MapModel
import Mathlib.Analysis.SpecialFunctions.Trigonometric.DerivHyp
import Mathlib.Tactic.Linarith
import Mathlib.Tactic.FieldSimp
import Mathlib.Tactic.NormNum

/-! # C69: coordinate maps -/

namespace Dal
open Dal.Pde

/-- C69: whenever a map is made, both directions are inverse to each other, the map increases strictly and keeps the origin, and the numbers it reports as
first and second derivatives are its derivatives. -/
theorem C69_maps {eps xWidth range : ℝ} (heps : 0 < eps) {m : CMap} (h : newSinhMap eps xWidth range = some m) :
    (∀ y, m.y (m.x y) = y) ∧ (∀ x, m.x (m.y x) = x) ∧ StrictMono m.x ∧ m.x 0 = 0 ∧ (∀ y, HasDerivAt m.x (m.xp y) y) ∧ ∀ y, HasDerivAt m.xp (m.xpp y) y := by
  rw [newSinhMap] at h
  split at h
  swap
  · cases h
  rename_i hc
  dsimp only at h
  split at h
  · cases h
    exact ⟨fun y => rfl, fun x => rfl, strictMono_id, rfl, fun y => hasDerivAt_id y, fun y => hasDerivAt_const y 1⟩
  · rename_i hs
    cases h
    have hsp : 0 < Real.sqrt (range * range - 1) := by
      refine lt_of_le_of_ne (Real.sqrt_nonneg _) fun e => hs ?_
      rw [← e]
      simp [heps]
    have hl : 0 < xWidth / Real.sqrt (range * range - 1) := div_pos (by linarith) hsp
    generalize xWidth / Real.sqrt (range * range - 1) = l at hl
    have hl' := hl.ne'
    refine ⟨fun y => ?_, fun x => ?_, fun a b hab => ?_, ?_, fun y => ?_, fun y => ?_⟩
    · show l * Real.arsinh (l * Real.sinh (y / l) / l) = y
      rw [mul_div_cancel_left₀ _ hl', Real.arsinh_sinh, mul_div_cancel₀ _ hl']
    · show l * Real.sinh (l * Real.arsinh (x / l) / l) = x
      rw [mul_div_cancel_left₀ _ hl', Real.sinh_arsinh, mul_div_cancel₀ _ hl']
    · show l * Real.sinh (a / l) < l * Real.sinh (b / l)
      exact mul_lt_mul_of_pos_left (Real.sinh_lt_sinh.2 (div_lt_div_of_pos_right hab hl)) hl
    · show l * Real.sinh (0 / l) = 0
      rw [zero_div, Real.sinh_zero, mul_zero]
    · have h1 : HasDerivAt (fun y => y / l) (1 / l) y := (hasDerivAt_id y).div_const l
      have h2 := ((Real.hasDerivAt_sinh (y / l)).comp y h1).const_mul l
      show HasDerivAt (fun y => l * Real.sinh (y / l)) (Real.cosh (y / l)) y
      have e : l * (Real.cosh (y / l) * (1 / l)) = Real.cosh (y / l) := by field_simp
      rw [e] at h2
      exact h2
    · have h1 : HasDerivAt (fun y => y / l) (1 / l) y := (hasDerivAt_id y).div_const l
      have h2 := (Real.hasDerivAt_cosh (y / l)).comp y h1
      show HasDerivAt (fun y => Real.cosh (y / l)) (Real.sinh (y / l) / l) y
      rw [mul_one_div] at h2
      exact h2

/-- C69: the slope of the map grows from 1 at the origin to the requested range at the requested width, unless the range is 1 up to the threshold. -/
theorem C69_slope_range {eps xWidth range : ℝ} (heps : 0 < eps) {m : CMap} (h : newSinhMap eps xWidth range = some m) :
    m.xp 0 = 1 ∧ (eps ≤ range * range - 1 → m.xp (m.y xWidth) = range) ∧ (range * range - 1 < eps → ∀ y, m.xp y = 1) := by
  rw [newSinhMap] at h
  split at h
  swap
  · cases h
  rename_i hc
  have hsq : Real.sqrt (range * range - 1) * Real.sqrt (range * range - 1) = range * range - 1 := Real.mul_self_sqrt (by nlinarith [hc.2])
  dsimp only at h
  rw [hsq] at h
  split at h
  · rename_i hs
    cases h
    exact ⟨rfl, fun hr => absurd hs.1 (not_lt.2 hr), fun _ _ => rfl⟩
  · rename_i hs
    cases h
    have hr : eps ≤ range * range - 1 := by
      by_contra hn
      exact hs ⟨not_le.1 hn, by nlinarith [hc.2]⟩
    refine ⟨?_, fun _ => ?_, fun hr' => absurd hr' (not_lt.2 hr)⟩
    · show Real.cosh (0 / _) = 1
      rw [zero_div, Real.cosh_zero]
    · have hsp : 0 < Real.sqrt (range * range - 1) := Real.sqrt_pos.2 (by linarith)
      have hw : 0 < xWidth := by linarith [hc.1]
      have hl : 0 < xWidth / Real.sqrt (range * range - 1) := div_pos hw hsp
      show Real.cosh (xWidth / Real.sqrt (range * range - 1) * Real.arsinh (xWidth / (xWidth / Real.sqrt (range * range - 1))) / (xWidth / Real.sqrt (range * range - 1))) = range
      rw [mul_div_cancel_left₀ _ hl.ne', div_div_cancel₀ hw.ne', Real.cosh_arsinh, Real.sq_sqrt (by linarith), show 1 + (range * range - 1) = range * range by ring,
        Real.sqrt_mul_self (by linarith [hc.2])]

/-- C69: other widths and ranges are refused. -/
theorem C69_refused (eps xWidth range : ℝ) (h : xWidth < eps ∨ range < 1) : newSinhMap eps xWidth range = none := by
  rw [newSinhMap, if_neg]
  rintro ⟨a, b⟩
  rcases h with h | h <;> linarith

/-- Example: width 2, range 3. -/
example : ∃ m, newSinhMap (1 / 1000) 2 3 = some m ∧ m.xp (m.y 2) = 3 := by
  have e : ∃ m, newSinhMap (1 / 1000) 2 3 = some m := by
    rw [newSinhMap, if_pos (by norm_num)]
    exact ⟨_, rfl⟩
  obtain ⟨m, h⟩ := e
  exact ⟨m, h, (C69_slope_range (by norm_num) h).2.1 (by norm_num)⟩

end Dal
