import Verif.Curve.CurveModel
import Verif.Interp.SearchLemmas
import Mathlib.Algebra.BigOperators.Intervals
import Mathlib.Algebra.Order.BigOperators.Group.Finset
import Mathlib.Analysis.SpecialFunctions.Exp
import Mathlib.Tactic.Ring
import Mathlib.Tactic.Linarith
import Mathlib.Tactic.FieldSimp
import Mathlib.Tactic.NormNum
import Mathlib.Tactic.Positivity

/-!
# C55: discount curves

Specification: the integral over a period is the sum over its days of the mean value of the function on the day; discount factors are positive, one for
an empty period, and multiply over adjacent periods.
-/

namespace Dal

open Dal.Curve

variable {K : Type} [Field K] [LinearOrder K] [IsStrictOrderedRing K]

/-- The knots are in strictly increasing order. -/
def Increasing (n : Nat) (knots : Nat → Int) : Prop := ∀ i, i + 1 < n → knots i < knots (i + 1)

private theorem incr_lt {n : Nat} {k : Nat → Int} (h : Increasing n k) : ∀ i j, i < j → j < n → k i < k j := by
  intro i j hij
  induction j with
  | zero => omega
  | succ j ih =>
    intro hj
    by_cases he : i = j
    · rw [he]; exact h j hj
    · have := ih (by omega) (by omega)
      have := h j hj
      omega

private theorem incr_le {n : Nat} {k : Nat → Int} (h : Increasing n k) : ∀ i j, i ≤ j → j < n → k i ≤ k j := by
  intro i j hij hj
  rcases Nat.lt_or_eq_of_le hij with hlt | rfl
  · exact Int.le_of_lt (incr_lt h i j hlt hj)
  · exact Int.le_refl _

private theorem lower_eq {n : Nat} {k : Nat → Int} (h : Increasing n k) {t : Int} {j : Nat} (hj : j ≤ n) (h1 : 0 < j → k (j - 1) < t)
    (h2 : j < n → t ≤ k j) : Curve.lowerBound n k t = j := by
  obtain ⟨a1, a2, a3, a4⟩ := Interp.search_ok (fun i => decide (k i < t)) n 0 n (Nat.le_refl _)
    (fun i j hij hj hb => by
      have := of_decide_eq_true hb
      have := incr_le h i j hij (by omega)
      exact decide_eq_true (by omega)) (fun i hi => by omega)
  have e : Curve.lowerBound n k t = Interp.search (fun i => decide (k i < t)) n 0 n := rfl
  rw [← e] at a1 a3 a4
  by_contra hne
  rcases Nat.lt_or_gt_of_ne hne with hlt | hgt
  · have b1 := of_decide_eq_false (a4 (by omega))
    have b2 := h1 (by omega)
    have b3 := incr_le h (Curve.lowerBound n k t) (j - 1) (by omega) (by omega)
    omega
  · have b1 := of_decide_eq_true (a1 j hgt)
    have b2 := h2 (by omega)
    omega

private theorem upper_eq {n : Nat} {k : Nat → Int} (h : Increasing n k) {t : Int} {j : Nat} (hj : j ≤ n) (h1 : 0 < j → k (j - 1) ≤ t)
    (h2 : j < n → t < k j) : Curve.upperBound n k t = j := by
  have : Curve.upperBound n k t = Curve.lowerBound n k (t + 1) := by
    unfold Curve.upperBound Curve.lowerBound
    congr 1
    funext i
    rw [decide_eq_decide]
    omega
  rw [this]
  exact lower_eq h hj (fun hp => by have := h1 hp; omega) (fun hp => by have := h2 hp; omega)

/-- Every date is before the first knot, in a cell between two knots, or after the last. -/
private theorem cell {n : Nat} {k : Nat → Int} (h : Increasing n k) (t : Int) : ∃ j, j ≤ n ∧ (0 < j → k (j - 1) ≤ t) ∧ (j < n → t < k j) := by
  obtain ⟨a1, a2, a3, a4⟩ := Interp.search_ok (fun i => decide (k i ≤ t)) n 0 n (Nat.le_refl _)
    (fun i j hij hj hb => by
      have := of_decide_eq_true hb
      have := incr_le h i j hij (by omega)
      exact decide_eq_true (by omega)) (fun i hi => by omega)
  refine ⟨Interp.search (fun i => decide (k i ≤ t)) n 0 n, by omega, fun hp => of_decide_eq_true (a1 _ (by omega)), fun hp => ?_⟩
  have := of_decide_eq_false (a4 (by omega))
  omega

/-! ### Piecewise constant functions -/

private theorem pwc_before {c : Pwc K} (h : Increasing c.n c.knots) {t : Int} (ht : 0 < c.n → t ≤ c.knots 0) : c.integralTo t = 0 := by
  unfold Pwc.integralTo
  rw [lower_eq h (Nat.zero_le _) (fun hp => absurd hp (Nat.lt_irrefl 0)) ht, if_pos rfl]

private theorem pwc_cell {c : Pwc K} (h : Increasing c.n c.knots) {t : Int} {j : Nat} (hj : j < c.n) (h1 : c.knots j ≤ t)
    (h2 : j + 1 < c.n → t ≤ c.knots (j + 1)) : c.integralTo t = c.sofar j + ((t - c.knots j : Int) : K) * c.fRight j := by
  unfold Pwc.integralTo
  rcases Int.lt_or_eq_of_le h1 with hlt | heq
  · rw [lower_eq h (show j + 1 ≤ c.n from hj) (fun _ => hlt) h2, if_neg (Nat.succ_ne_zero j)]
    by_cases hk : j + 1 < c.n ∧ c.knots (j + 1) = t
    · rw [if_pos hk, ← hk.2, Pwc.sofar]
    · rw [if_neg hk, Nat.add_sub_cancel]
  · rw [lower_eq h (Nat.le_of_lt hj) (fun hp => by rw [← heq]; have := h (j - 1) (by omega); rwa [show j - 1 + 1 = j by omega] at this) (fun _ => by omega)]
    by_cases h0 : j = 0
    · rw [if_pos h0, ← heq, h0, Pwc.sofar, Int.sub_self, Int.cast_zero]
      ring
    · rw [if_neg h0, if_pos ⟨hj, heq⟩, ← heq, Int.sub_self, Int.cast_zero]
      ring

private theorem pwc_f {c : Pwc K} (h : Increasing c.n c.knots) {t : Int} {j : Nat} (hj : j < c.n) (h1 : c.knots j ≤ t)
    (h2 : j + 1 < c.n → t < c.knots (j + 1)) : c.f t = (c.fRight j, decide (c.knots j = t)) := by
  unfold Pwc.f
  rcases Int.lt_or_eq_of_le h1 with hlt | heq
  · rw [lower_eq h (show j + 1 ≤ c.n from hj) (fun _ => hlt) (fun hp => Int.le_of_lt (h2 hp))]
    rw [if_neg, if_neg (Nat.succ_ne_zero j), Nat.add_sub_cancel, decide_eq_false (by omega)]
    rintro ⟨hne, hk⟩
    have := h2 (by omega)
    omega
  · rw [lower_eq h (Nat.le_of_lt hj) (fun hp => by rw [← heq]; have := h (j - 1) (by omega); rwa [show j - 1 + 1 = j by omega] at this) (fun _ => by omega)]
    rw [if_pos ⟨by omega, heq⟩, decide_eq_true heq]

private theorem pwc_f_before {c : Pwc K} (h : Increasing c.n c.knots) {t : Int} (ht : 0 < c.n → t < c.knots 0) : c.f t = (0, false) := by
  unfold Pwc.f
  rw [lower_eq h (Nat.zero_le _) (fun hp => absurd hp (Nat.lt_irrefl 0)) (fun hp => Int.le_of_lt (ht hp)), if_neg, if_pos rfl]
  rintro ⟨hne, hk⟩
  have := ht (by omega)
  omega

/-- C55: a piecewise constant function has at every date the value of the last knot on or before it, or zero before the first knot, and says whether the
date is a knot. -/
theorem C55_constant_value {c : Pwc K} (h : Increasing c.n c.knots) (t : Int) :
    ((∀ i, i < c.n → t < c.knots i) ∧ c.f t = (0, false)) ∨
    ∃ j, j < c.n ∧ c.knots j ≤ t ∧ (∀ i, j < i → i < c.n → t < c.knots i) ∧ c.f t = (c.fRight j, decide (c.knots j = t)) := by
  obtain ⟨j, hj, h1, h2⟩ := cell h t
  cases j with
  | zero =>
    refine Or.inl ⟨fun i hi => ?_, pwc_f_before h h2⟩
    have := h2 (by omega)
    have := incr_le h 0 i (by omega) hi
    omega
  | succ j =>
    have h1' := h1 (Nat.succ_pos j)
    rw [Nat.add_sub_cancel] at h1'
    refine Or.inr ⟨j, by omega, h1', fun i hi hin => ?_, pwc_f h (by omega) h1' h2⟩
    have := h2 (by omega)
    have := incr_le h (j + 1) i (by omega) hin
    omega

private theorem pwc_day {c : Pwc K} (h : Increasing c.n c.knots) (t : Int) : c.integralTo (t + 1) = c.integralTo t + (c.f t).1 := by
  obtain ⟨j, hj, h1, h2⟩ := cell h t
  cases j with
  | zero =>
    rw [pwc_before h (fun hp => by have := h2 hp; omega), pwc_before h (fun hp => by have := h2 hp; omega), pwc_f_before h h2]
    ring
  | succ j =>
    have h1' := h1 (Nat.succ_pos j)
    rw [Nat.add_sub_cancel] at h1'
    rw [pwc_cell h (j := j) (by omega) (by omega) (fun hp => by have := h2 hp; omega), pwc_cell h (j := j) (by omega) h1' (fun hp => by have := h2 hp; omega),
      pwc_f h (by omega) h1' h2]
    push_cast
    ring

/-- C55: the integral of a piecewise constant function over a period is the sum of its values on the days of the period. -/
theorem C55_constant_integral {c : Pwc K} (h : Increasing c.n c.knots) (s : Int) (m : Nat) :
    c.integral s (s + m) = ∑ d ∈ Finset.range m, (c.f (s + d)).1 := by
  unfold Pwc.integral
  induction m with
  | zero => simp
  | succ m ih =>
    rw [Finset.sum_range_succ, ← ih, Nat.cast_succ, ← add_assoc, pwc_day h]
    ring

/-- C55: integrals over adjacent periods add up, whatever the knots. -/
theorem C55_constant_adds (c : Pwc K) (r s t : Int) : c.integral r s + c.integral s t = c.integral r t ∧ c.integral s s = 0 := by
  unfold Pwc.integral
  constructor <;> ring

/-! ### Piecewise linear functions -/

/-- The line through the values at both ends of a cell. -/
private def line (c : Pwl K) (j : Nat) (t : Int) : K :=
  c.fRight j + ((t - c.knots j : Int) : K) / ((c.knots (j + 1) - c.knots j : Int) : K) * (c.fLeft (j + 1) - c.fRight j)

private theorem pwl_before {c : Pwl K} (h : Increasing c.n c.knots) (hn : 0 < c.n) {t : Int} (ht : t ≤ c.knots 0) :
    c.integralTo t = some (-c.fLeft 0 * ((c.knots 0 - t : Int) : K)) := by
  unfold Pwl.integralTo
  rw [lower_eq h (Nat.zero_le _) (fun hp => absurd hp (Nat.lt_irrefl 0)) (fun _ => ht)]
  dsimp only
  rw [if_pos rfl, if_neg (by omega)]

private theorem pwl_after {c : Pwl K} (h : Increasing c.n c.knots) (hn : 0 < c.n) {t : Int} (ht : c.knots (c.n - 1) ≤ t) :
    c.integralTo t = some (c.sofar (c.n - 1) + c.fRight (c.n - 1) * ((t - c.knots (c.n - 1) : Int) : K)) := by
  rcases Int.lt_or_eq_of_le ht with hlt | heq
  · unfold Pwl.integralTo
    rw [lower_eq h (Nat.le_refl _) (fun _ => hlt) (fun hp => absurd hp (Nat.lt_irrefl _))]
    dsimp only
    rw [if_neg (by omega), if_pos rfl]
  · unfold Pwl.integralTo
    rw [lower_eq h (show c.n - 1 ≤ c.n by omega) (fun hp => by
      rw [← heq]; have := h (c.n - 1 - 1) (by omega); rwa [show c.n - 1 - 1 + 1 = c.n - 1 by omega] at this) (fun _ => by omega)]
    dsimp only
    rw [← heq, Int.sub_self, Int.cast_zero, mul_zero, add_zero]
    by_cases h0 : c.n - 1 = 0
    · rw [if_pos h0, if_neg (by omega), h0, Int.sub_self, Int.cast_zero, mul_zero, Pwl.sofar]
    · rw [if_neg h0, if_neg (by omega), if_pos rfl]

private theorem pwl_cell {c : Pwl K} (h : Increasing c.n c.knots) {t : Int} {j : Nat} (hj : j + 1 < c.n) (h1 : c.knots j ≤ t) (h2 : t ≤ c.knots (j + 1)) :
    c.integralTo t = some (c.sofar j + ((t - c.knots j : Int) : K) * (c.fRight j + line c j t) / 2) := by
  have hd : ((c.knots (j + 1) - c.knots j : Int) : K) ≠ 0 := by
    have := h j hj
    exact_mod_cast (show c.knots (j + 1) - c.knots j ≠ 0 by omega)
  rcases Int.lt_or_eq_of_le h1 with hlt | heq
  · unfold Pwl.integralTo
    rw [lower_eq h (show j + 1 ≤ c.n by omega) (fun _ => hlt) (fun _ => h2)]
    dsimp only
    rw [if_neg (Nat.succ_ne_zero j), if_neg (by omega)]
    by_cases hk : c.knots (j + 1) = t
    · rw [if_pos hk, Pwl.sofar]
      unfold line
      rw [← hk, div_self hd]
      congr 1
      ring
    · rw [if_neg hk, Nat.add_sub_cancel]
      rfl
  · unfold Pwl.integralTo
    rw [lower_eq h (show j ≤ c.n by omega) (fun hp => by
      rw [← heq]; have := h (j - 1) (by omega); rwa [show j - 1 + 1 = j by omega] at this) (fun _ => by omega)]
    dsimp only
    rw [← heq, Int.sub_self, Int.cast_zero, zero_mul, zero_div, add_zero]
    by_cases h0 : j = 0
    · rw [if_pos h0, if_neg (by omega), h0, Int.sub_self, Int.cast_zero, mul_zero, Pwl.sofar]
    · rw [if_neg h0, if_neg (by omega), if_pos rfl]

private theorem val_before {c : Pwl K} (h : Increasing c.n c.knots) (hn : 0 < c.n) {t : Int} (side : Bool) (ht : if side then t < c.knots 0 else t ≤ c.knots 0) :
    c.valueAt t side = some (c.fLeft 0) := by
  unfold Pwl.valueAt
  cases side
  · have ht' : t ≤ c.knots 0 := ht
    rw [lower_eq h (Nat.zero_le _) (fun hp => absurd hp (Nat.lt_irrefl 0)) (fun _ => ht')]
    dsimp only
    rw [if_neg Bool.false_ne_true, if_pos rfl, if_neg (by omega)]
  · have ht' : t < c.knots 0 := ht
    rw [upper_eq h (Nat.zero_le _) (fun hp => absurd hp (Nat.lt_irrefl 0)) (fun _ => ht')]
    dsimp only
    rw [if_pos rfl, if_pos rfl, if_neg (by omega)]

private theorem val_after {c : Pwl K} (h : Increasing c.n c.knots) (hn : 0 < c.n) {t : Int} (side : Bool)
    (ht : if side then c.knots (c.n - 1) ≤ t else c.knots (c.n - 1) < t) : c.valueAt t side = some (c.fRight (c.n - 1)) := by
  unfold Pwl.valueAt
  cases side
  · have ht' : c.knots (c.n - 1) < t := ht
    rw [lower_eq h (Nat.le_refl _) (fun _ => ht') (fun hp => absurd hp (Nat.lt_irrefl _))]
    dsimp only
    rw [if_neg Bool.false_ne_true, if_neg (by omega), if_pos rfl]
  · have ht' : c.knots (c.n - 1) ≤ t := ht
    rw [upper_eq h (Nat.le_refl _) (fun _ => ht') (fun hp => absurd hp (Nat.lt_irrefl _))]
    dsimp only
    rw [if_pos rfl, if_neg (by omega), if_pos rfl]

private theorem val_cell {c : Pwl K} (h : Increasing c.n c.knots) {t : Int} {j : Nat} (hj : j + 1 < c.n) (side : Bool)
    (ht : if side then c.knots j ≤ t ∧ t < c.knots (j + 1) else c.knots j < t ∧ t ≤ c.knots (j + 1)) : c.valueAt t side = some (line c j t) := by
  unfold Pwl.valueAt
  cases side
  · have ht' : c.knots j < t ∧ t ≤ c.knots (j + 1) := ht
    rw [lower_eq h (show j + 1 ≤ c.n by omega) (fun _ => ht'.1) (fun _ => ht'.2)]
    dsimp only
    rw [if_neg Bool.false_ne_true, if_neg (Nat.succ_ne_zero j), if_neg (by omega)]
    rfl
  · have ht' : c.knots j ≤ t ∧ t < c.knots (j + 1) := ht
    rw [upper_eq h (show j + 1 ≤ c.n by omega) (fun _ => ht'.1) (fun _ => ht'.2)]
    dsimp only
    rw [if_pos rfl, if_neg (Nat.succ_ne_zero j), if_neg (by omega)]
    rfl

/-- C55: over a day, a piecewise linear function runs from its right value at the start to its left value at the end, and its integral grows by their
mean. -/
theorem C55_linear_day {c : Pwl K} (h : Increasing c.n c.knots) (hn : 0 < c.n) (t : Int) : ∃ i i' v v', c.integralTo t = some i ∧
    c.integralTo (t + 1) = some i' ∧ c.valueAt t true = some v ∧ c.valueAt (t + 1) false = some v' ∧ i' = i + (v + v') / 2 := by
  obtain ⟨j, hj, h1, h2⟩ := cell h t
  cases j with
  | zero =>
    have ht := h2 hn
    refine ⟨_, _, _, _, pwl_before h hn (Int.le_of_lt ht), pwl_before h hn (show t + 1 ≤ c.knots 0 by omega), val_before h hn true ht,
      val_before h hn false (show t + 1 ≤ c.knots 0 by omega), ?_⟩
    push_cast
    ring
  | succ j =>
    have h1' := h1 (Nat.succ_pos j)
    rw [Nat.add_sub_cancel] at h1'
    rcases Nat.lt_or_eq_of_le hj with hlt | heq
    · have h2' := h2 hlt
      have hd : ((c.knots (j + 1) - c.knots j : Int) : K) ≠ 0 := by
        have := h j hlt
        exact_mod_cast (show c.knots (j + 1) - c.knots j ≠ 0 by omega)
      refine ⟨_, _, _, _, pwl_cell h hlt h1' (Int.le_of_lt h2'), pwl_cell h hlt (show c.knots j ≤ t + 1 by omega) (show t + 1 ≤ c.knots (j + 1) by omega),
        val_cell h hlt true ⟨h1', h2'⟩, val_cell h hlt false ⟨show c.knots j < t + 1 by omega, show t + 1 ≤ c.knots (j + 1) by omega⟩, ?_⟩
      unfold line
      generalize ((c.knots (j + 1) - c.knots j : Int) : K) = d at *
      push_cast
      field_simp
      ring
    · have hjn : j = c.n - 1 := by omega
      rw [hjn] at h1'
      refine ⟨_, _, _, _, pwl_after h hn h1', pwl_after h hn (show c.knots (c.n - 1) ≤ t + 1 by omega), val_after h hn true h1',
        val_after h hn false (show c.knots (c.n - 1) < t + 1 by omega), ?_⟩
      push_cast
      ring

/-- C55: the values at a knot are the left and the right one given; before the first and after the last knot the function is flat. -/
theorem C55_linear_knots {c : Pwl K} (h : Increasing c.n c.knots) {j : Nat} (hj : j < c.n) :
    c.valueAt (c.knots j) true = some (c.fRight j) ∧ c.valueAt (c.knots j) false = some (c.fLeft j) ∧
    (∀ t side, t < c.knots 0 → c.valueAt t side = some (c.fLeft 0)) ∧ ∀ t side, c.knots (c.n - 1) < t → c.valueAt t side = some (c.fRight (c.n - 1)) := by
  have hn : 0 < c.n := by omega
  refine ⟨?_, ?_, fun t side ht => val_before h hn side (by cases side; exact Int.le_of_lt ht; exact ht),
    fun t side ht => val_after h hn side (by cases side; exact ht; exact Int.le_of_lt ht)⟩
  · by_cases hl : j + 1 < c.n
    · rw [val_cell h hl true ⟨Int.le_refl _, h j hl⟩]
      unfold line
      rw [Int.sub_self, Int.cast_zero, zero_div, zero_mul, add_zero]
    · obtain rfl : j = c.n - 1 := by omega
      exact val_after h hn true (Int.le_refl _)
  · cases j with
    | zero => exact val_before h hn false (Int.le_refl _)
    | succ j =>
      have hlt := h j hj
      have hd : ((c.knots (j + 1) - c.knots j : Int) : K) ≠ 0 := by
        exact_mod_cast (show c.knots (j + 1) - c.knots j ≠ 0 by omega)
      rw [val_cell h hj false ⟨hlt, Int.le_refl _⟩]
      unfold line
      rw [div_self hd]
      congr 1
      ring

/-- C55: between the first and last knot the values are between those given at the knots on both sides. -/
theorem C55_linear_between {c : Pwl K} (h : Increasing c.n c.knots) {j : Nat} (hj : j + 1 < c.n) {t : Int} (h1 : c.knots j < t) (h2 : t < c.knots (j + 1))
    (side : Bool) : ∃ v, c.valueAt t side = some v ∧ min (c.fRight j) (c.fLeft (j + 1)) ≤ v ∧ v ≤ max (c.fRight j) (c.fLeft (j + 1)) := by
  refine ⟨line c j t, val_cell h hj side (by cases side; exact ⟨h1, Int.le_of_lt h2⟩; exact ⟨Int.le_of_lt h1, h2⟩), ?_⟩
  have hd : (0 : K) < ((c.knots (j + 1) - c.knots j : Int) : K) := by
    exact_mod_cast (show 0 < c.knots (j + 1) - c.knots j by omega)
  have he : (0 : K) ≤ ((t - c.knots j : Int) : K) := by exact_mod_cast (show 0 ≤ t - c.knots j by omega)
  have hle : ((t - c.knots j : Int) : K) ≤ ((c.knots (j + 1) - c.knots j : Int) : K) := by exact_mod_cast (show t - c.knots j ≤ c.knots (j + 1) - c.knots j by omega)
  have hw0 := div_nonneg he hd.le
  have hw1 := (div_le_one hd).2 hle
  unfold line
  generalize ((t - c.knots j : Int) : K) / ((c.knots (j + 1) - c.knots j : Int) : K) = w at *
  have e : c.fRight j + w * (c.fLeft (j + 1) - c.fRight j) = (1 - w) * c.fRight j + w * c.fLeft (j + 1) := by ring
  rw [e]
  constructor
  · have a := mul_le_mul_of_nonneg_left (min_le_left (c.fRight j) (c.fLeft (j + 1))) (sub_nonneg.2 hw1)
    have b := mul_le_mul_of_nonneg_left (min_le_right (c.fRight j) (c.fLeft (j + 1))) hw0
    linarith
  · have a := mul_le_mul_of_nonneg_left (le_max_left (c.fRight j) (c.fLeft (j + 1))) (sub_nonneg.2 hw1)
    have b := mul_le_mul_of_nonneg_left (le_max_right (c.fRight j) (c.fLeft (j + 1))) hw0
    linarith

/-! ### Discount factors -/

/-- What is used of the exponential function. -/
structure ExpLike (exp : K → K) : Prop where
  zero : exp 0 = 1
  add : ∀ x y, exp (x + y) = exp x * exp y
  pos : ∀ x, 0 < exp x
  mono : ∀ x y, x ≤ y → exp x ≤ exp y

private theorem integral_defined {c : Pwl K} (hn : 0 < c.n) (t : Int) : ∃ i, c.integralTo t = some i := by
  unfold Pwl.integralTo
  dsimp only
  split
  · rw [if_neg (by omega)]; exact ⟨_, rfl⟩
  · split
    · exact ⟨_, rfl⟩
    · split <;> exact ⟨_, rfl⟩

/-- C55: with any number of base curves, each with a knot at least, every discount factor is defined and positive, and one for an empty period. -/
theorem C55_positive {exp : K → K} (he : ExpLike exp) {cs : List (Pwl K)} (hn : ∀ c ∈ cs, 0 < c.n) (s t : Int) :
    (∃ d, discount exp cs s t = some d ∧ 0 < d) ∧ discount exp cs s s = some 1 := by
  induction cs with
  | nil => exact ⟨⟨1, rfl, one_pos⟩, rfl⟩
  | cons c cs ih =>
    obtain ⟨⟨d, hd, hp⟩, h1⟩ := ih fun c hc => hn c (List.mem_cons_of_mem _ hc)
    obtain ⟨i, hi⟩ := integral_defined (hn c List.mem_cons_self) s
    obtain ⟨i', hi'⟩ := integral_defined (hn c List.mem_cons_self) t
    rw [discount, discount, hi, hi', hd, h1, Option.bind_some, Option.bind_some, Option.bind_some, Option.bind_some, Option.map_some, Option.map_some]
    refine ⟨⟨_, rfl, mul_pos (he.pos _) hp⟩, ?_⟩
    rw [sub_self, neg_zero, zero_div, he.zero, mul_one]

/-- C55: discount factors over adjacent periods multiply. -/
theorem C55_compose {exp : K → K} (he : ExpLike exp) {cs : List (Pwl K)} (hn : ∀ c ∈ cs, 0 < c.n) (r s t : Int) :
    ∃ a b, discount exp cs r s = some a ∧ discount exp cs s t = some b ∧ discount exp cs r t = some (a * b) := by
  induction cs with
  | nil => exact ⟨1, 1, rfl, rfl, by rw [mul_one]; rfl⟩
  | cons c cs ih =>
    obtain ⟨a, b, ha, hb, hab⟩ := ih fun c hc => hn c (List.mem_cons_of_mem _ hc)
    obtain ⟨x, hx⟩ := integral_defined (hn c List.mem_cons_self) r
    obtain ⟨y, hy⟩ := integral_defined (hn c List.mem_cons_self) s
    obtain ⟨z, hz⟩ := integral_defined (hn c List.mem_cons_self) t
    refine ⟨exp (-(y - x) / 365) * a, exp (-(z - y) / 365) * b, ?_, ?_, ?_⟩
    · rw [discount, hx, hy, ha]; rfl
    · rw [discount, hy, hz, hb]; rfl
    · rw [discount, hx, hz, hab]
      show some (exp (-(z - x) / 365) * (a * b)) = _
      rw [show -(z - x) / 365 = -(y - x) / 365 + -(z - y) / 365 by ring, he.add]
      congr 1
      ring

private theorem value_nonneg {c : Pwl K} (h : Increasing c.n c.knots) (hn : 0 < c.n) (hl : ∀ i, 0 ≤ c.fLeft i) (hr : ∀ i, 0 ≤ c.fRight i) (t : Int) (side : Bool)
    {v : K} (hv : c.valueAt t side = some v) : 0 ≤ v := by
  obtain ⟨j, hj, h1, h2⟩ := cell h t
  by_cases hk : ∃ i, i < c.n ∧ c.knots i = t
  · obtain ⟨i, hi, rfl⟩ := hk
    obtain ⟨k1, k2, _⟩ := C55_linear_knots h hi
    cases side
    · rw [k2] at hv; cases hv; exact hl i
    · rw [k1] at hv; cases hv; exact hr i
  · cases j with
    | zero =>
      rw [(C55_linear_knots h hn).2.2.1 t side (h2 hn)] at hv
      cases hv; exact hl 0
    | succ j =>
      have h1' := h1 (Nat.succ_pos j)
      rw [Nat.add_sub_cancel] at h1'
      have hne : c.knots j ≠ t := fun he => hk ⟨j, by omega, he⟩
      rcases Nat.lt_or_eq_of_le hj with hlt | heq
      · obtain ⟨w, hw, hge, _⟩ := C55_linear_between h hlt (t := t) (by omega) (h2 hlt) side
        rw [hv] at hw
        cases hw
        exact le_trans (le_min (hr j) (hl (j + 1))) hge
      · obtain rfl : j = c.n - 1 := by omega
        rw [(C55_linear_knots h hn).2.2.2 t side (by omega)] at hv
        cases hv; exact hr _

/-- C55: where no forward rate is negative, discount factors are at most one and do not grow with the end of the period. -/
theorem C55_decreasing {exp : K → K} (he : ExpLike exp) {cs : List (Pwl K)}
    (hc : ∀ c ∈ cs, 0 < c.n ∧ Increasing c.n c.knots ∧ (∀ i, 0 ≤ c.fLeft i) ∧ ∀ i, 0 ≤ c.fRight i) (s t : Int) (m : Nat) :
    ∃ a b, discount exp cs s t = some a ∧ discount exp cs s (t + m) = some b ∧ b ≤ a ∧ 0 < b := by
  have hstep : ∀ u : Int, ∃ d, discount exp cs u (u + 1) = some d ∧ d ≤ 1 ∧ 0 < d := by
    intro u
    induction cs with
    | nil => exact ⟨1, rfl, le_refl _, one_pos⟩
    | cons c cs ih =>
      obtain ⟨d, hd, h1, hp⟩ := ih fun c h => hc c (List.mem_cons_of_mem _ h)
      obtain ⟨hn, hi, hl, hr⟩ := hc c List.mem_cons_self
      obtain ⟨i, i', v, v', e1, e2, e3, e4, e5⟩ := C55_linear_day hi hn u
      rw [discount, e1, e2, hd]
      refine ⟨_, rfl, ?_, mul_pos (he.pos _) hp⟩
      have hv := value_nonneg hi hn hl hr _ _ e3
      have hv' := value_nonneg hi hn hl hr _ _ e4
      have hx : exp (-(i' - i) / 365) ≤ 1 := by
        rw [← he.zero]
        apply he.mono
        have h365 : (0 : K) < 365 := by norm_num
        rw [div_le_iff₀ h365]
        linarith
      calc exp (-(i' - i) / 365) * d ≤ 1 * 1 := mul_le_mul hx h1 hp.le zero_le_one
        _ = 1 := one_mul 1
  have hn : ∀ c ∈ cs, 0 < c.n := fun c h => (hc c h).1
  induction m with
  | zero =>
    obtain ⟨⟨d, hd, hp⟩, _⟩ := C55_positive he hn s t
    exact ⟨d, d, hd, by rw [Nat.cast_zero, add_zero]; exact hd, le_refl _, hp⟩
  | succ m ih =>
    obtain ⟨a, b, ha, hb, hle, hp⟩ := ih
    obtain ⟨x, y, hx, hy, hxy⟩ := C55_compose he hn s (t + m) (t + m + 1)
    obtain ⟨d, hd, h1, hdp⟩ := hstep (t + m)
    rw [hb] at hx
    rw [hd] at hy
    rw [← Option.some.inj hx, ← Option.some.inj hy] at hxy
    refine ⟨a, b * d, ha, by rw [Nat.cast_succ, ← add_assoc]; exact hxy, ?_, mul_pos hp hdp⟩
    calc b * d ≤ b * 1 := mul_le_mul_of_nonneg_left h1 hp.le
      _ = b := mul_one b
      _ ≤ a := hle

/-- C55: shifting the forwards by increments shifts the values at the knots, left and right, each by its own increment. -/
theorem C55_shift {c : Pwl K} (h : Increasing c.n c.knots) (dx : Nat → K) (leverage : K) {j : Nat} (hj : j < c.n) :
    (c.applyDX dx leverage).valueAt (c.knots j) false = some (c.fLeft j + leverage * dx (2 * j)) ∧
    (c.applyDX dx leverage).valueAt (c.knots j) true = some (c.fRight j + leverage * dx (2 * j + 1)) := by
  obtain ⟨h1, h2, _⟩ := C55_linear_knots (c := c.applyDX dx leverage) h hj
  exact ⟨h2, h1⟩

/-- C55, not so: a curve without knots is accepted and reads the front of no values. -/
theorem C55_empty_violated (exp : K → K) (f : Nat → K) (k : Nat → Int) (base : List (Pwl K)) (s t : Int) : discount exp (⟨0, k, f, f⟩ :: base) s t = none := by
  rw [discount]
  have : (⟨0, k, f, f⟩ : Pwl K).integralTo t = none := by
    unfold Pwl.integralTo Curve.lowerBound
    rfl
  rw [this]
  rfl

/-! ### The hypotheses hold -/

example : ExpLike Real.exp := ⟨Real.exp_zero, Real.exp_add, Real.exp_pos, fun _ _ h => Real.exp_le_exp.2 h⟩

example : ∃ c : Pwl ℝ, 0 < c.n ∧ Increasing c.n c.knots ∧ (∀ i, 0 ≤ c.fLeft i) ∧ (∀ i, 0 ≤ c.fRight i) ∧ c.fLeft 1 ≠ c.fRight 1 :=
  ⟨⟨3, fun i => 30 * i, fun i => i, fun i => 2 * i⟩, by norm_num, fun i _ => by push_cast; omega, fun i => Nat.cast_nonneg i, fun i => by positivity,
    by norm_num⟩

example : ∃ c : Pwc ℚ, Increasing c.n c.knots ∧ c.n = 3 ∧ c.fRight 0 ≠ c.fRight 1 :=
  ⟨⟨3, fun i => 30 * i, fun i => i⟩, fun i _ => by push_cast; omega, rfl, by norm_num⟩

end Dal
