import Verif.Matrix.AccumModel
import Mathlib.Algebra.BigOperators.Ring.Finset
import Mathlib.Tactic.FieldSimp
import Mathlib.Tactic.LinearCombination
import Mathlib.Tactic.Positivity
import Mathlib.Analysis.Real.Sqrt

/-!
# C108: accumulating rows into a banded triangle

Specification: the product `LᵀL` of the triangle with its transpose, entry by entry. Accumulating the rows of a least-squares problem adds `v vᵀ` to it; the rotations are there to keep the
triangle.
-/

namespace Dal
open Dal.Band
open Dal.Tri (isZero)

section
variable {K : Type} [Field K] [LinearOrder K] [IsStrictOrderedRing K]

/-- The entries of `LᵀL`. -/
def gram (a : Elements K) (j k : Nat) : K := ∑ i ∈ Finset.range a.rows, a.get i j * a.get i k

/-- A vector whose last entry is in column `e`. -/
def placed (v : List K) (e j : Nat) : K := if j ≤ e ∧ e < j + v.length then v.getD (v.length - 1 - (e - j)) 0 else 0

private theorem zero_zero {eps : K} (heps : 0 < eps) : isZero eps 0 = true := by simp [isZero, heps]

private theorem get_eq (a : Elements K) (i j : Nat) : a.get i j = if i ≤ j + a.nBelow ∧ j + a.nBelow - i < a.cols then a.view i (j + a.nBelow - i) else 0 := by
  unfold Elements.get Elements.inBand
  by_cases h : i ≤ j + a.nBelow ∧ j + a.nBelow - i < a.cols
  · rw [if_pos h, if_pos (by rw [decide_eq_true h.1, decide_eq_true h.2]; rfl)]
  · rw [if_neg h, if_neg]
    intro h2
    rw [Bool.and_eq_true, decide_eq_true_eq, decide_eq_true_eq] at h2
    exact h h2

/-- C108, as far as it holds: a vector whose row is still free, and that does not begin left of the matrix, is taken in exactly. -/
theorem C108_gram_partial (sqrt : K → K) {eps : K} (heps : 0 < eps) (a : Elements K) (hc : a.cols = a.nBelow + 1) (v : List K) {offset : Int} {e : Nat} (he : (v.length : Int) + offset = e)
    (hlen : v.length ≤ a.cols) (hfit : v.length ≤ e + 1) (hrow : e < a.rows) (hfree : ∀ j, j < a.cols → a.view e j = 0) :
    ∃ a', add sqrt eps a v offset = some a' ∧ ∀ j k, gram a' j k = gram a j k + placed v e j * placed v e k := by
  have hz : rowZero eps a.cols (a.view e) = true := by
    rw [rowZero, List.all_eq_true]
    intro j hj
    rw [hfree j (List.mem_range.1 hj)]
    exact zero_zero heps
  refine ⟨setRow a e (copyBack a.cols (a.view e) v), ?_, fun j k => ?_⟩
  · rw [add, if_pos ⟨hlen, by omega⟩, he, show ((e : Int) + 1).toNat = e + 1 by omega, addLoop, if_pos hz]
  · have other : ∀ i, i ≠ e → ∀ j, (setRow a e (copyBack a.cols (a.view e) v)).get i j = a.get i j := by
      intro i hi j
      rw [get_eq, get_eq]
      simp only [setRow, if_neg hi]
    have own : ∀ j, (setRow a e (copyBack a.cols (a.view e) v)).get e j = placed v e j := by
      intro j
      rw [get_eq]
      simp only [setRow, if_true, copyBack, placed]
      by_cases h1 : e ≤ j + a.nBelow ∧ j + a.nBelow - e < a.cols
      · rw [if_pos h1]
        by_cases h2 : e < j + v.length
        · rw [if_pos ⟨by omega, by omega⟩, if_pos ⟨by omega, by omega⟩]
          congr 1
          omega
        · rw [if_neg (by omega), if_neg (by omega), hfree _ h1.2]
      · rw [if_neg h1, if_neg (by omega)]
    have before : ∀ j, a.get e j = 0 := by
      intro j
      rw [get_eq]
      split
      · rename_i h; exact hfree _ h.2
      · rfl
    unfold gram
    rw [show (setRow a e (copyBack a.cols (a.view e) v)).rows = a.rows from rfl, ← Finset.add_sum_erase _ _ (Finset.mem_range.2 hrow), ← Finset.add_sum_erase _ (fun i => a.get i j * a.get i k) (Finset.mem_range.2 hrow),
      own, own, before, Finset.sum_congr rfl fun i hi => by rw [other i (Finset.ne_of_mem_erase hi), other i (Finset.ne_of_mem_erase hi)]]
    ring

/-- Where the loop starts nothing above changes, nor do the sizes. -/
private theorem loop_frame (sqrt : K → K) (eps : K) : ∀ (i : Nat) (a : Elements K) (v : List K) (a' : Elements K), addLoop sqrt eps i a v = some a' →
    a'.rows = a.rows ∧ a'.cols = a.cols ∧ a'.nBelow = a.nBelow ∧ ∀ r, i ≤ r → a'.view r = a.view r := by
  intro i
  induction i with
  | zero => intro a v a' h; rw [addLoop] at h; obtain rfl := Option.some.inj h; exact ⟨rfl, rfl, rfl, fun _ _ => rfl⟩
  | succ i ih =>
    intro a v a' h
    rw [addLoop] at h
    split at h
    · obtain rfl := Option.some.inj h
      exact ⟨rfl, rfl, rfl, fun r hr => if_neg (by omega)⟩
    · split at h
      · obtain rfl := Option.some.inj h; exact ⟨rfl, rfl, rfl, fun _ _ => rfl⟩
      · obtain ⟨b, -, h⟩ := Option.bind_eq_some_iff.1 h
        dsimp only at h
        split at h
        · exact absurd h (by simp)
        · split at h
          · obtain ⟨h1, h2, h3, h4⟩ := ih _ _ _ h
            exact ⟨h1, h2, h3, fun r hr => (h4 r (by omega)).trans (if_neg (by omega))⟩
          · exact absurd h (by simp)

/-- C108: a call changes no size and no row beyond that of the last entry of its vector. -/
theorem C108_frame (sqrt : K → K) (eps : K) {a a' : Elements K} {v : List K} {offset : Int} (h : add sqrt eps a v offset = some a') :
    a'.rows = a.rows ∧ a'.cols = a.cols ∧ a'.nBelow = a.nBelow ∧ ∀ r : Nat, (v.length : Int) + offset < r → a'.view r = a.view r := by
  rw [add] at h
  split at h
  · obtain ⟨h1, h2, h3, h4⟩ := loop_frame _ _ _ _ _ _ h
    exact ⟨h1, h2, h3, fun r hr => h4 r (by omega)⟩
  · exact absurd h (by simp)

private theorem loop_defined {sqrt : K → K} (hsqrt : ∀ x, 0 < x → 0 < sqrt x) {eps : K} (heps : 0 < eps) : ∀ (i : Nat) (a : Elements K) (v : List K),
    (∀ r, r < i → rowZero eps a.cols (a.view r) = true ∨ a.view r (a.cols - 1) ≠ 0) → ∃ a', addLoop sqrt eps i a v = some a' := by
  intro i
  induction i with
  | zero => intro a v _; exact ⟨a, rfl⟩
  | succ i ih =>
    intro a v h
    rw [addLoop]
    by_cases h1 : rowZero eps a.cols (a.view i) = true
    · exact ⟨_, if_pos h1⟩
    · rw [if_neg h1]
      by_cases h2 : v.all (isZero eps) = true
      · exact ⟨_, if_pos h2⟩
      · rw [if_neg h2]
        have hv : v ≠ [] := by rintro rfl; exact h2 rfl
        rw [List.getLast?_eq_some_getLast hv, Option.bind_some]
        have hd : a.view i (a.cols - 1) ≠ 0 := (h i (by omega)).resolve_left h1
        have hp : 0 < v.getLast hv * v.getLast hv + a.view i (a.cols - 1) * a.view i (a.cols - 1) := add_pos_of_nonneg_of_pos (mul_self_nonneg _) (mul_self_pos.2 hd)
        dsimp only
        rw [if_neg (hsqrt _ hp).ne', if_pos]
        · refine ih _ _ fun r hr => ?_
          have : (setRow a i (rotRow (a.view i (a.cols - 1) / sqrt (v.getLast hv * v.getLast hv + a.view i (a.cols - 1) * a.view i (a.cols - 1)))
            (v.getLast hv / sqrt (v.getLast hv * v.getLast hv + a.view i (a.cols - 1) * a.view i (a.cols - 1))) a.cols v.length (a.view i))).view r = a.view r := if_neg (by omega)
          rw [this]
          exact h r (by omega)
        · rw [div_mul_eq_mul_div, div_mul_eq_mul_div, mul_comm, sub_self]
          exact zero_zero heps

/-- C108: a call within the sizes throws nothing as long as each row is zero or has a diagonal entry. -/
theorem C108_defined {sqrt : K → K} (hsqrt : ∀ x, 0 < x → 0 < sqrt x) {eps : K} (heps : 0 < eps) (a : Elements K) (v : List K) (offset : Int) (hlen : v.length ≤ a.cols)
    (hrow : (v.length : Int) + offset < a.rows) (h : ∀ r, r < a.rows → rowZero eps a.cols (a.view r) = true ∨ a.view r (a.cols - 1) ≠ 0) : ∃ a', add sqrt eps a v offset = some a' := by
  rw [add, if_pos ⟨hlen, hrow⟩]
  exact loop_defined hsqrt heps _ a v fun r hr => h r (by omega)

private theorem loop_first (sqrt : K → K) {eps : K} : ∀ (i : Nat) (a : Elements K) (v : List K) (a' : Elements K), v.length + 1 ≤ i →
    addLoop sqrt eps i a v = some a' → (∀ j, j < a.cols → a.view 0 j = 0) → ∀ j, j < a.cols → a'.view 0 j = 0 := by
  intro i
  induction i with
  | zero => intro a v a' h; omega
  | succ i ih =>
    intro a v a' hv h h0
    rw [addLoop] at h
    split at h
    · obtain rfl := Option.some.inj h
      intro j hj
      by_cases hi : i = 0
      · subst hi
        have : v.length = 0 := by omega
        simp only [setRow, copyBack, this, Nat.sub_zero, if_true]
        rw [if_neg (by omega)]
        exact h0 j hj
      · simp only [setRow, if_neg (show ¬0 = i by omega)]
        exact h0 j hj
    · split at h
      · obtain rfl := Option.some.inj h; exact h0
      · rename_i hall
        obtain ⟨b, hb, h⟩ := Option.bind_eq_some_iff.1 h
        dsimp only at h
        have hne : v ≠ [] := by rintro rfl; simp at hb
        have hpos : 0 < v.length := List.length_pos_of_ne_nil hne
        split at h
        · exact absurd h (by simp)
        · split at h
          · intro j hj
            refine ih _ _ _ ?_ h ?_ j hj
            · rw [shorten]
              have hl : ∀ c s : K, (rotVec c s a.cols (a.view i) v).length = v.length := fun c s => by simp [rotVec]
              split
              · rename_i hle
                rw [hl] at hle
                rw [List.length_append, List.length_dropLast, hl]
                cases (rotVec _ _ a.cols (a.view i) v).getLast? <;> simp <;> omega
              · rw [List.length_dropLast, hl]; omega
            · intro j hj
              simp only [setRow, if_neg (show ¬0 = i by omega)]
              exact h0 j hj
          · exact absurd h (by simp)

private theorem add_first (sqrt : K → K) {eps : K} {a a' : Elements K} {v : List K} {offset : Int} (ho : 0 ≤ offset) (h : add sqrt eps a v offset = some a') (h0 : ∀ j, j < a.cols → a.view 0 j = 0) :
    ∀ j, j < a'.cols → a'.view 0 j = 0 := by
  have hc := (C108_frame _ _ h).2.1
  rw [hc]
  rw [add] at h
  split at h
  · exact loop_first sqrt _ a v a' (by omega) h h0
  · exact absurd h (by simp)

/-- C108, what the code does: with offsets counted from zero, as in the test of the library, the first row of the triangle stays zero whatever is added, and every solve throws. -/
theorem C108_solve_violated (sqrt : K → K) {eps : K} (heps : 0 < eps) (size nBelow : Nat) (hs : 0 < size) (l : List (List K × Int)) (ho : ∀ e ∈ l, 0 ≤ e.2) {a : Elements K}
    (h : addAll sqrt eps l (accNew size nBelow) = some a) (b : Nat → K) : a.rows = size ∧ (∀ k, a.get 0 k = 0) ∧ accSolveLeft eps a b = none ∧ accSolveRight eps a b = none := by
  have key : ∀ (l : List (List K × Int)) (a0 : Elements K), (∀ e ∈ l, 0 ≤ e.2) → (∀ j, j < a0.cols → a0.view 0 j = 0) → addAll sqrt eps l a0 = some a →
      a.rows = a0.rows ∧ ∀ j, j < a.cols → a.view 0 j = 0 := by
    intro l
    induction l with
    | nil => intro a0 _ h0 h; obtain rfl := Option.some.inj h; exact ⟨rfl, h0⟩
    | cons e l ih =>
      intro a0 ho h0 h
      rw [addAll] at h
      obtain ⟨a1, e1, h⟩ := Option.bind_eq_some_iff.1 h
      obtain ⟨r1, r2⟩ := ih a1 (fun e he => ho e (List.mem_cons_of_mem _ he)) (add_first sqrt (ho e List.mem_cons_self) e1 h0) h
      exact ⟨r1.trans (C108_frame _ _ e1).1, r2⟩
  obtain ⟨r1, r2⟩ := key l _ ho (fun _ _ => rfl) h
  have hr : a.rows = size := r1
  have hg : ∀ k, a.get 0 k = 0 := fun k => by
    rw [get_eq]
    split
    · rename_i hk; exact r2 _ hk.2
    · rfl
  have hrows : ∀ k, lSolveRows eps a b (k + 1) (fun _ => 0) = none := by
    intro k
    induction k with
    | zero => simp [lSolveRows, hg, zero_zero heps]
    | succ k ih => rw [lSolveRows, ih]; rfl
  have hn : lSolve eps a b = none := by
    rw [lSolve]
    split
    · rfl
    · obtain ⟨k, hk⟩ : ∃ k, a.rows = k + 1 := ⟨a.rows - 1, by omega⟩
      rw [hk]; exact hrows k
  exact ⟨hr, hg, hn, hn⟩

/-- C108: before the first row, with an offset so far below zero that no row is left, the vector is dropped in silence. -/
theorem C108_dropped (sqrt : K → K) (eps : K) (a : Elements K) (v : List K) {offset : Int} (hlen : v.length ≤ a.cols) (h : (v.length : Int) + offset < 0) : add sqrt eps a v offset = some a := by
  rw [add, if_pos ⟨hlen, by omega⟩, show ((v.length : Int) + offset + 1).toNat = 0 by omega]
  rfl

end

/-- What two numbers leave in a triangle of one entry: the first one times the sum of sine and cosine, where a rotation leaves the root of the sum of squares. -/
private theorem two_numbers {eps a b : ℝ} (heps : 0 < eps) (ha : eps ≤ a) (hb : isZero eps b = false) :
    ∃ x y : Elements ℝ, add Real.sqrt eps (accNew 1 0) [a] (-1) = some x ∧ add Real.sqrt eps x [b] (-1) = some y ∧ gram y 0 0 * (a * a + b * b) = (a * (a + b)) * (a * (a + b)) := by
  have h1 : add Real.sqrt eps (accNew 1 0) [a] (-1) = some (setRow (accNew 1 0) 0 (copyBack 1 (fun _ => 0) [a])) := by
    rw [add, if_pos (by simp [accNew, Elements.make])]
    show addLoop Real.sqrt eps 1 (accNew 1 0) [a] = _
    rw [addLoop, if_pos (by simp [rowZero, accNew, Elements.make, zero_zero heps])]
    rfl
  set x := setRow (accNew 1 0) 0 (copyBack 1 (fun _ => (0 : ℝ)) [a]) with hx
  have hxv : x.view 0 0 = a := by simp [hx, setRow, copyBack]
  have hxc : x.cols = 1 := rfl
  have hza : isZero eps a = false := by simp [isZero, ha]
  have hpos : 0 < b * b + a * a := add_pos_of_nonneg_of_pos (mul_self_nonneg b) (mul_self_pos.2 (heps.trans_le ha).ne')
  have hr := Real.sqrt_pos.2 hpos
  set r := √(b * b + a * a) with hrd
  refine ⟨x, setRow x 0 (rotRow (a / r) (b / r) 1 1 (x.view 0)), h1, ?_, ?_⟩
  · rw [add, if_pos (by rw [hxc]; simp [hx, setRow, accNew, Elements.make])]
    show addLoop Real.sqrt eps 1 x [b] = _
    rw [addLoop, hxc, if_neg (by simp [rowZero, hxv, hza]), if_neg (by simp [hb])]
    simp only [List.getLast?_singleton, Option.bind_some, Nat.sub_self, hxv, List.length_singleton]
    rw [← hrd, if_neg hr.ne', if_pos]
    · rfl
    · rw [div_mul_eq_mul_div, div_mul_eq_mul_div, mul_comm, sub_self]; exact zero_zero heps
  · have hg : gram (setRow x 0 (rotRow (a / r) (b / r) 1 1 (x.view 0))) 0 0 = (a / r * a + b / r * a) * (a / r * a + b / r * a) := by
      have h2 : (setRow x 0 (rotRow (a / r) (b / r) 1 1 (x.view 0))).get 0 0 = a / r * a + b / r * a := by
        rw [get_eq, if_pos (by simp [setRow, hx, accNew, Elements.make])]
        simp only [setRow, if_true, rotRow]
        rw [if_pos (by simp [hx, setRow, accNew, Elements.make])]
        rw [show (0 + x.nBelow - 0) = 0 from rfl, hxv]
      rw [gram, show (setRow x 0 (rotRow (a / r) (b / r) 1 1 (x.view 0))).rows = 1 from rfl, Finset.sum_range_one, h2]
    have hsq : r * r = b * b + a * a := Real.mul_self_sqrt hpos.le
    rw [hg, add_comm (a * a), ← hsq]
    field_simp

/-- C108, negated: two different positive numbers accumulated in a triangle of one entry do not leave the sum of their squares: the row of the rotation is computed from itself. -/
theorem C108_gram_violated {eps a b : ℝ} (heps : 0 < eps) (ha : eps ≤ a) (hb : eps ≤ b) (hab : a ≠ b) :
    ∃ x y : Elements ℝ, add Real.sqrt eps (accNew 1 0) [a] (-1) = some x ∧ gram x 0 0 = a * a ∧ add Real.sqrt eps x [b] (-1) = some y ∧ gram y 0 0 ≠ a * a + b * b := by
  obtain ⟨x, y, h1, h2, h3⟩ := two_numbers heps ha (b := b) (by simp [isZero, hb])
  obtain ⟨x', e1, e2⟩ := C108_gram_partial Real.sqrt heps (accNew 1 0) rfl [a] (offset := -1) (e := 0) rfl (by simp [accNew, Elements.make]) (by simp) (by simp [accNew, Elements.make]) (fun _ _ => rfl)
  obtain rfl : x = x' := Option.some.inj (h1.symm.trans e1)
  refine ⟨x, y, h1, ?_, h2, fun h => hab ?_⟩
  · rw [e2]
    simp [gram, placed, accNew, Elements.make, get_eq]
  · have a0 := heps.trans_le ha
    have b0 := heps.trans_le hb
    rw [h] at h3
    have h4 : a * a + b * b = a * (a + b) := by nlinarith [mul_self_nonneg (a * a + b * b - a * (a + b)), mul_pos a0 b0, mul_pos a0 a0, mul_pos b0 b0, (mul_self_eq_mul_self_iff.1 h3).resolve_right (by nlinarith)]
    have h5 : b * (a - b) = 0 := by linarith
    rcases mul_eq_zero.1 h5 with h6 | h6
    · exact absurd h6 b0.ne'
    · linarith

/-- C108, negated at its worst: a number and its opposite leave nothing at all. -/
theorem C108_cancel_violated {eps a : ℝ} (heps : 0 < eps) (ha : eps ≤ a) :
    ∃ x y : Elements ℝ, add Real.sqrt eps (accNew 1 0) [a] (-1) = some x ∧ add Real.sqrt eps x [-a] (-1) = some y ∧ gram y 0 0 = 0 := by
  obtain ⟨x, y, h1, h2, h3⟩ := two_numbers heps ha (b := -a) (by simp [isZero, ha])
  refine ⟨x, y, h1, h2, ?_⟩
  have a0 := heps.trans_le ha
  rw [add_neg_cancel, mul_zero, mul_zero] at h3
  exact (mul_eq_zero.1 h3).resolve_right (by nlinarith [mul_pos a0 a0])

/-! ### Examples -/

/-- Two columns of a band of three. -/
example : ∃ a', add (fun x : ℚ => x) (1 / 100) (accNew 3 2) [1, 2] 0 = some a' ∧ ∀ j k, gram a' j k = gram (accNew 3 2) j k + placed [1, 2] 2 j * placed [1, 2] 2 k :=
  C108_gram_partial _ (by norm_num) _ rfl _ rfl (by decide) (by decide) (by decide) fun _ _ => rfl

example : (placed [1, 2] 2 0 : ℚ) = 0 ∧ (placed [1, 2] 2 1 : ℚ) = 1 ∧ (placed [1, 2] 2 2 : ℚ) = 2 := by decide +kernel

/-- The test of the library: both calls succeed, and no system can be solved. -/
example : ∃ x y : Elements ℝ, add Real.sqrt (1 / 100) (accNew 3 1) [1, 2] 0 = some x ∧ add Real.sqrt (1 / 100) x [2, 4] 0 = some y ∧ ∀ b, accSolveLeft (1 / 100) y b = none := by
  obtain ⟨x, e1⟩ := C108_defined (sqrt := Real.sqrt) (fun x hx => Real.sqrt_pos.2 hx) (eps := 1 / 100) (by norm_num) (accNew 3 1) [1, 2] 0 (by decide) (by decide)
    (fun r _ => .inl (by simp [rowZero, accNew, Elements.make, isZero]))
  have hv : x = setRow (accNew 3 1) 2 (copyBack 2 (fun _ => 0) [1, 2]) := by
    rw [add, if_pos (by decide)] at e1
    have e2 : addLoop Real.sqrt (1 / 100) 3 (accNew 3 1) [1, 2] = some x := e1
    rw [addLoop, if_pos (by simp [rowZero, accNew, Elements.make, isZero])] at e2
    exact (Option.some.inj e2).symm
  obtain ⟨y, e3⟩ := C108_defined (sqrt := Real.sqrt) (fun x hx => Real.sqrt_pos.2 hx) (eps := 1 / 100) (by norm_num) x [2, 4] 0 (by subst hv; decide) (by subst hv; decide)
    (fun r _ => by
      subst hv
      by_cases h : r = 2
      · right; simp [setRow, h, copyBack, accNew, Elements.make]
      · left; simp [rowZero, setRow, h, accNew, Elements.make, isZero])
  exact ⟨x, y, e1, e3, fun b => (C108_solve_violated Real.sqrt (eps := 1 / 100) (by norm_num) 3 1 (by norm_num) [([1, 2], 0), ([2, 4], 0)] (by simp)
    (by rw [addAll, e1, Option.bind_some, addAll, e3]; rfl) b).2.2.1⟩

example : add (fun x : ℚ => x) (1 / 100) (accNew 3 2) [1, 2] (-3) = some (accNew 3 2) := C108_dropped _ _ _ _ (by decide) (by decide)

example : ∃ x y : Elements ℝ, add Real.sqrt (1 / 100) (accNew 1 0) [3] (-1) = some x ∧ gram x 0 0 = 3 * 3 ∧ add Real.sqrt (1 / 100) x [4] (-1) = some y ∧ gram y 0 0 ≠ 3 * 3 + 4 * 4 :=
  C108_gram_violated (by norm_num) (by norm_num) (by norm_num) (by norm_num)

example : ∃ x y : Elements ℝ, add Real.sqrt (1 / 100) (accNew 1 0) [3] (-1) = some x ∧ add Real.sqrt (1 / 100) x [-3] (-1) = some y ∧ gram y 0 0 = 0 := C108_cancel_violated (by norm_num) (by norm_num)

/-- Rows beyond the third are as before. -/
example (a' : Elements ℚ) (h : add (fun x => x) (1 / 100) (accNew 5 2) [1, 2] 0 = some a') : a'.rows = 5 ∧ ∀ r : Nat, 2 < r → a'.view r = fun _ => 0 :=
  ⟨(C108_frame _ _ h).1, fun r hr => (C108_frame _ _ h).2.2.2 r (by simp; omega)⟩

end Dal
