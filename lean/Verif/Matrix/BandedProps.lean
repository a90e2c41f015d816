import Verif.Matrix.BandedModel
import Mathlib.Algebra.BigOperators.Intervals
import Mathlib.Tactic.Ring
import Mathlib.Tactic.Linarith
import Mathlib.Tactic.FieldSimp
import Mathlib.Tactic.NormNum

/-!
# C46: banded matrices

Specification: sums over the elements of the matrix as read by its element access.  The multiplications and the lower solve are right; the
symmetry check reads outside the matrix, the transposed solve reads outside the vector, and no banded matrix is ever decomposed.
-/

namespace Dal

open Dal.Band
open Dal.Tri (isZero upd)

variable {K : Type} [Field K] [LinearOrder K] [IsStrictOrderedRing K]

private theorem upd_self (v : Nat → K) (i : Nat) (c : K) : upd v i c i = c := if_pos rfl
private theorem upd_ne (v : Nat → K) {i k : Nat} (c : K) (h : k ≠ i) : upd v i c k = v k := if_neg h

private theorem shift_sum (n j0 cnt : Nat) (f : Nat → K) (hle : j0 + cnt ≤ n ∨ cnt = 0) (h : ∀ j, j < n → ¬ (j0 ≤ j ∧ j < j0 + cnt) → f j = 0) :
    ∑ c ∈ Finset.range cnt, f (j0 + c) = ∑ j ∈ Finset.range n, f j := by
  have h1 := Finset.sum_Ico_eq_sum_range f j0 (j0 + cnt)
  rw [Nat.add_sub_cancel_left] at h1
  rw [← h1]
  rcases hle with hle | hle
  · apply Finset.sum_subset
    · intro j hj
      have := Finset.mem_Ico.1 hj
      exact Finset.mem_range.2 (by omega)
    · intro j hj hn
      exact h j (Finset.mem_range.1 hj) (fun hc => hn (Finset.mem_Ico.2 hc))
  · subst hle
    rw [Nat.add_zero, Finset.Ico_self, Finset.sum_empty]
    exact (Finset.sum_eq_zero (fun j hj => h j (Finset.mem_range.1 hj) (by omega))).symm

private theorem get_out {v : Elements K} {i j : Nat} (h : ¬ (i ≤ j + v.nBelow ∧ j + v.nBelow - i < v.cols)) : v.get i j = 0 := by
  unfold Elements.get Elements.inBand
  rw [if_neg]
  simpa using h

private theorem multRow_val (tr : Bool) (v : Elements K) (x : Nat → K) (i j0 : Nat) : ∀ (cnt : Nat) (b : Nat → K) (k : Nat),
    multRow tr v x i j0 cnt b k = b k + ∑ c ∈ Finset.range cnt,
      (if k = (if tr then j0 + c else i) then x (if tr then i else j0 + c) * v.get i (j0 + c) else 0) := by
  intro cnt
  induction cnt with
  | zero => intro b k; simp [multRow]
  | succ cnt ih =>
    intro b k
    rw [multRow]
    rw [Finset.sum_range_succ, ← add_assoc, ← ih]
    by_cases h : k = if tr then j0 + cnt else i
    · rw [if_pos h, ← h, upd_self]
    · rw [if_neg h, upd_ne _ _ h, add_zero]

private theorem multRows_val (tr : Bool) (v : Elements K) (x : Nat → K) (n : Nat) : ∀ (m : Nat) (b : Nat → K) (k : Nat), m ≤ n →
    multRows tr v x n m b k = b k + ∑ i ∈ Finset.range m, ∑ j ∈ Finset.range n,
      (if k = (if tr then j else i) then x (if tr then i else j) * v.get i j else 0) := by
  intro m
  induction m with
  | zero => intro b k _; simp [multRows]
  | succ m ih =>
    intro b k hm
    rw [multRows, multRow_val, ih b k (by omega), Finset.sum_range_succ, ← add_assoc]
    congr 1
    refine shift_sum n (m - v.nBelow) _ (fun j => if k = (if tr then j else m) then x (if tr then m else j) * v.get m j else 0) (by omega) ?_
    intro j hj hout
    rw [get_out (v := v) (i := m) (j := j) (by omega), mul_zero, ite_self]

/-- C46: both multiplications are those by the matrix one reads element by element. -/
theorem C46_multiply (v : Elements K) (x : Nat → K) (i : Nat) (hi : i < v.rows) :
    multiply false v x i = ∑ j ∈ Finset.range v.rows, v.get i j * x j ∧ multiply true v x i = ∑ j ∈ Finset.range v.rows, v.get j i * x j := by
  unfold multiply
  rw [multRows_val _ _ _ _ _ _ _ (Nat.le_refl _), multRows_val _ _ _ _ _ _ _ (Nat.le_refl _)]
  simp only [Bool.false_eq_true, if_false, if_true, zero_add]
  constructor
  · rw [Finset.sum_eq_single i]
    · apply Finset.sum_congr rfl
      intro j _
      rw [if_pos rfl, mul_comm]
    · intro k _ hk
      exact Finset.sum_eq_zero (fun j _ => by rw [if_neg (Ne.symm hk)])
    · intro hn
      exact absurd (Finset.mem_range.2 hi) hn
  · apply Finset.sum_congr rfl
    intro k _
    rw [Finset.sum_eq_single i]
    · rw [if_pos rfl, mul_comm]
    · intro j _ hj
      rw [if_neg (Ne.symm hj)]
    · intro hn
      exact absurd (Finset.mem_range.2 hi) hn

/-- C46: a write inside the band changes that element and no other; outside it is refused. -/
theorem C46_write (v : Elements K) (row col : Nat) (x : K) :
    (v.inBand row col = true → ∃ w, v.write row col x = some w ∧ w.rows = v.rows ∧ w.get row col = x ∧
      ∀ r c, ¬ (r = row ∧ c = col) → w.get r c = v.get r c) ∧
    (v.inBand row col = false → v.write row col x = none ∧ v.get row col = 0) := by
  refine ⟨fun h => ?_, fun h => ⟨by unfold Elements.write; rw [h]; rfl, by unfold Elements.get; rw [h]; rfl⟩⟩
  unfold Elements.write
  rw [if_pos h]
  refine ⟨_, rfl, rfl, ?_, ?_⟩
  · unfold Elements.get
    refine (if_pos (show Elements.inBand _ _ _ = true from h)).trans ?_
    exact if_pos ⟨rfl, rfl⟩
  · intro r c hn
    unfold Elements.get
    by_cases hb : v.inBand r c = true
    · rw [if_pos hb]
      refine (if_pos (show Elements.inBand _ _ _ = true from hb)).trans (if_neg ?_)
      rintro ⟨h1, h2⟩
      replace h2 : c + v.nBelow - r = col + v.nBelow - row := h2
      unfold Elements.inBand at h hb
      simp only [Bool.and_eq_true, decide_eq_true_eq] at h hb
      exact hn ⟨h1, by omega⟩
    · rw [if_neg hb]
      exact if_neg (show ¬ Elements.inBand _ _ _ = true from hb)

private theorem residual_val (v : Elements K) (x : Nat → K) (i j0 : Nat) : ∀ (c : Nat) (r : K),
    residual v x i j0 c r = r - ∑ t ∈ Finset.range c, x (j0 + t) * v.get i (j0 + t) := by
  intro c
  induction c with
  | zero => intro r; simp [residual]
  | succ c ih =>
    intro r
    rw [residual, ih, Finset.sum_range_succ]
    ring

private theorem not_isZero {eps x : K} (heps : 0 < eps) (h : ¬ isZero eps x = true) : x ≠ 0 := by
  intro h0
  subst h0
  unfold isZero at h
  simp [heps] at h

/-- C46: solving with a lower band matrix gives a vector that multiplies back to the right-hand side. -/
theorem C46_lower_solve {eps : K} (heps : 0 < eps) {v : Elements K} {b x : Nat → K} (h : lSolve eps v b = some x) (i : Nat) (hi : i < v.rows) :
    ∑ j ∈ Finset.range v.rows, v.get i j * x j = b i := by
  unfold lSolve at h
  by_cases hc : v.cols ≠ v.nBelow + 1
  · rw [if_pos hc] at h; cases h
  · rw [if_neg hc] at h
    have hc' : v.cols = v.nBelow + 1 := not_not.1 hc
    have key : ∀ (k : Nat) (x : Nat → K), k ≤ v.rows → lSolveRows eps v b k (fun _ => 0) = some x →
        ∀ i, i < k → ∑ j ∈ Finset.range (i + 1), v.get i j * x j = b i := by
      intro k
      induction k with
      | zero => intro x _ _ i hi; omega
      | succ k ih =>
        intro x hk hx i hi
        rw [lSolveRows] at hx
        cases hy : lSolveRows eps v b k (fun _ => 0) with
        | none => rw [hy] at hx; cases hx
        | some y =>
          rw [hy, Option.bind_some] at hx
          by_cases hz : isZero eps (v.get k k) = true
          · rw [if_pos hz] at hx; cases hx
          · rw [if_neg hz] at hx
            cases hx
            have hne := not_isZero heps hz
            by_cases hik : i = k
            · subst hik
              have hsum : ∑ j ∈ Finset.range i, v.get i j * upd y i (residual v y i (i - v.nBelow) (i - (i - v.nBelow)) (b i) / v.get i i) j
                  = ∑ j ∈ Finset.range i, y j * v.get i j := Finset.sum_congr rfl (fun j hj => by
                    have := Finset.mem_range.1 hj
                    rw [upd_ne _ _ (by omega), mul_comm])
              rw [Finset.sum_range_succ, upd_self, hsum, residual_val]
              have hs := shift_sum i (i - v.nBelow) (i - (i - v.nBelow)) (fun j => y j * v.get i j) (by omega) (fun j hj hout => by
                rw [get_out (by omega), mul_zero])
              rw [hs]
              field_simp
              ring
            · rw [← ih y (by omega) hy i (by omega)]
              apply Finset.sum_congr rfl
              intro j hj
              have := Finset.mem_range.1 hj
              rw [upd_ne _ _ (by omega)]
    rw [← key v.rows x (Nat.le_refl _) h i hi]
    symm
    apply Finset.sum_subset
    · intro j hj
      have := Finset.mem_range.1 hj
      exact Finset.mem_range.2 (by omega)
    · intro j _ hj
      have := Finset.mem_range.not.1 hj
      rw [get_out (by omega), zero_mul]

/-- C46: the lower solve succeeds whenever no diagonal element is near zero. -/
theorem C46_lower_solve_succeeds {eps : K} {v : Elements K} (hc : v.cols = v.nBelow + 1) (hd : ∀ i, i < v.rows → isZero eps (v.get i i) = false)
    (b : Nat → K) : ∃ x, lSolve eps v b = some x := by
  unfold lSolve
  rw [if_neg (not_not.2 hc)]
  have key : ∀ k, k ≤ v.rows → ∃ x, lSolveRows eps v b k (fun _ => 0) = some x := by
    intro k
    induction k with
    | zero => intro _; exact ⟨_, rfl⟩
    | succ k ih =>
      intro hk
      obtain ⟨x, hx⟩ := ih (by omega)
      rw [lSolveRows, hx, Option.bind_some, if_neg (by rw [hd k (by omega)]; decide)]
      exact ⟨_, rfl⟩
  exact key v.rows (Nat.le_refl _)

/-- C46, not so: solving with the transposed of a lower band matrix that has anything below its diagonal reads outside the vector, for
every size, matrix and right-hand side. -/
theorem C46_transposed_solve_violated (eps : K) (v : Elements K) (hc : v.cols = v.nBelow + 1) (hn : 0 < v.rows) (hb : 0 < v.nBelow) (b : Nat → K) :
    ltSolve eps v b = .undefined := by
  unfold ltSolve
  rw [if_neg (not_not.2 hc)]
  obtain ⟨n, hn'⟩ : ∃ n, v.rows = n + 1 := ⟨v.rows - 1, by omega⟩
  have h1 : ∀ k x, k = n + 1 → ltSolveRows eps v b k x = .undefined := by
    rintro k x rfl
    rw [ltSolveRows]
    obtain ⟨m, hm⟩ : ∃ m, v.nBelow = m + 1 := ⟨v.nBelow - 1, by omega⟩
    have : max (v.rows - 1) (n + v.nBelow) - n = m + 1 := by omega
    rw [this, residualT]
    rw [if_pos (by omega)]
  exact h1 _ _ hn'

/-- C46, the part of the transposed solve that holds in general: while it stays inside the vector, the inner loop subtracts the column below
the diagonal, that is, the row of the transposed matrix.  Missing: staying inside, see `C46_transposed_solve_violated`. -/
theorem C46_transposed_residual_partial (v : Elements K) (x : Nat → K) (i : Nat) : ∀ (c : Nat) (r : K), i + c < v.rows →
    residualT v x i c r = some (r - ∑ t ∈ Finset.range c, x (i + 1 + t) * v.get (i + 1 + t) i) := by
  intro c
  induction c with
  | zero => intro r _; simp [residualT]
  | succ c ih =>
    intro r h
    rw [residualT]
    rw [if_neg (by omega), ih _ (by omega), Finset.sum_range_succ, show i + 1 + c = i + (c + 1) by omega]
    congr 1
    ring

example : (0 : Nat) + 1 < (Elements.make (K := Rat) 3 0 1).rows := by decide

/-- C46, the transposed solve of a diagonal matrix: the result multiplies back to the right-hand side. -/
theorem C46_transposed_solve_partial {eps : K} (heps : 0 < eps) (v : Elements K) (hc : v.cols = v.nBelow + 1) (hb : v.nBelow = 0)
    (hd : ∀ i, i < v.rows → isZero eps (v.get i i) = false) (b : Nat → K) :
    ∃ x, ltSolve eps v b = .ok x ∧ ∀ i, i < v.rows → ∑ j ∈ Finset.range v.rows, v.get j i * x j = b i := by
  have off : ∀ i j, i ≠ j → v.get i j = 0 := fun i j h => get_out (by omega)
  have key : ∀ k x, k ≤ v.rows → ∃ y, ltSolveRows eps v b k x = .ok y ∧ (∀ i, k ≤ i → y i = x i) ∧
      ∀ i, i < k → v.get i i * y i = b i := by
    intro k
    induction k with
    | zero => intro x _; exact ⟨x, rfl, fun _ _ => rfl, fun i h => by omega⟩
    | succ k ih =>
      intro x hk
      have hr : residualT v x k (max (v.rows - 1) (k + v.nBelow) - k) (b k) = some (b k) := by
        rw [C46_transposed_residual_partial v x k _ _ (by omega), Finset.sum_eq_zero, sub_zero]
        intro t _
        rw [off _ _ (by omega), mul_zero]
      have hz := hd k (by omega)
      have hne : v.get k k ≠ 0 := not_isZero heps (by rw [hz]; decide)
      obtain ⟨y, h1, h2, h3⟩ := ih (upd x k (b k / v.get k k)) (by omega)
      refine ⟨y, ?_, ?_, ?_⟩
      · rw [ltSolveRows, hr]
        dsimp only
        rw [hz]
        exact h1
      · intro i hi
        rw [h2 i (by omega), upd_ne _ _ (by omega)]
      · intro i hi
        by_cases hik : i = k
        · subst hik
          rw [h2 i (Nat.le_refl _), upd_self]
          field_simp
        · exact h3 i (by omega)
  obtain ⟨x, h1, _, h3⟩ := key v.rows (fun _ => 0) (Nat.le_refl _)
  refine ⟨x, ?_, fun i hi => ?_⟩
  · unfold ltSolve
    rw [if_neg (not_not.2 hc)]
    exact h1
  · rw [Finset.sum_eq_single i (fun j _ hj => by rw [off _ _ hj, zero_mul]) (fun h => absurd (Finset.mem_range.2 hi) h)]
    exact h3 i hi

example : ∃ v : Elements Rat, v.cols = v.nBelow + 1 ∧ v.nBelow = 0 ∧ v.rows = 2 ∧ ∀ i, i < v.rows → isZero (1 / 1000) (v.get i i) = false :=
  ⟨⟨2, 1, 0, fun _ _ => 3⟩, rfl, rfl, rfl, fun i _ => by simp [Elements.get, Elements.inBand, isZero]; norm_num⟩

/-! ### The symmetry check -/

private theorem zero_isZero {eps : K} (heps : 0 < eps) (a : K) : isZero eps (a - a) = true := by
  unfold isZero
  simp [heps]

private theorem symmRow_bad {eps : K} (heps : 0 < eps) (v : Elements K) (i : Nat) (hgood : ∀ j b, v.read j i = some b → v.read i j = some b) :
    ∀ (c j : Nat), (symmRow eps v i c j = none ∨ symmRow eps v i c j = some true) ∧
      ((∃ j', j ≤ j' ∧ j' < j + c ∧ v.read j' i = none) → symmRow eps v i c j = none) := by
  intro c
  induction c with
  | zero => intro j; exact ⟨Or.inr rfl, fun ⟨j', h1, h2, _⟩ => by omega⟩
  | succ c ih =>
    intro j
    rw [symmRow]
    cases hr : v.read j i with
    | none =>
      cases v.read i j with
      | none => exact ⟨Or.inl rfl, fun _ => rfl⟩
      | some a => exact ⟨Or.inl rfl, fun _ => rfl⟩
    | some b =>
      rw [hgood j b hr]
      dsimp only
      rw [if_pos (zero_isZero heps b)]
      refine ⟨(ih (j + 1)).1, fun ⟨j', h1, h2, h3⟩ => (ih (j + 1)).2 ⟨j', ?_, by omega, h3⟩⟩
      by_contra hlt
      have : j' = j := by omega
      subst this
      rw [hr] at h3
      cases h3

/-- C46, not so: checking a banded matrix that is symmetric and has elements below its diagonal reads outside the matrix. -/
theorem C46_symmetric_check_violated {eps : K} (heps : 0 < eps) (v : Elements K) (hn : 0 < v.rows) (hb : 0 < v.nBelow) (hc : v.nBelow < v.cols)
    (hsym : ∀ i j, i < v.rows → j < v.rows → v.get i j = v.get j i) (hpad : ∀ i j, i < v.rows → v.rows ≤ j → v.get i j = 0) :
    isSymmetric eps v = none := by
  have hgood : ∀ i, i < v.rows → ∀ j b, v.read j i = some b → v.read i j = some b := by
    intro i hi j b hr
    unfold Elements.read at hr ⊢
    rw [if_neg (by omega)]
    by_cases hj : j < v.rows
    · rw [if_neg (by omega)] at hr
      rw [hsym i j hi hj]
      exact hr
    · by_cases hin : v.inBand j i = true
      · rw [if_pos ⟨hin, by omega⟩] at hr
        cases hr
      · rw [if_neg (fun h => hin h.1)] at hr
        rw [hpad i j hi (by omega)]
        unfold Elements.get at hr
        rw [if_neg hin] at hr
        exact hr
  have key : ∀ (c i : Nat), 0 < c → i + c = v.rows → symmRows eps v (max v.nBelow (v.cols - v.nBelow - 1)) c i = none := by
    intro c
    induction c with
    | zero => intro i h; omega
    | succ c ih =>
      intro i _ hi
      obtain ⟨h1, h2⟩ := symmRow_bad heps v i (hgood i (by omega))
        (max (v.rows - 1) (i + max v.nBelow (v.cols - v.nBelow - 1)) + 1 - (i - max v.nBelow (v.cols - v.nBelow - 1)))
        (i - max v.nBelow (v.cols - v.nBelow - 1))
      rw [symmRows]
      rcases Nat.eq_zero_or_pos c with h0 | h0
      · have : symmRow eps v i (max (v.rows - 1) (i + max v.nBelow (v.cols - v.nBelow - 1)) + 1 - (i - max v.nBelow (v.cols - v.nBelow - 1)))
            (i - max v.nBelow (v.cols - v.nBelow - 1)) = none := by
          refine h2 ⟨v.rows, by omega, by omega, ?_⟩
          unfold Elements.read Elements.inBand
          rw [if_pos]
          refine ⟨?_, Nat.le_refl _⟩
          simp only [Bool.and_eq_true, decide_eq_true_eq]
          omega
        rw [this]
      · rcases h1 with h1 | h1
        · rw [h1]
        · rw [h1]
          exact ih (i + 1) h0 (by omega)
  exact key v.rows 0 hn (by omega)

/-! ### The decomposition -/

private theorem write_nBelow {v w : Elements K} {r c : Nat} {x : K} (h : v.write r c x = some w) : w.nBelow = v.nBelow := by
  unfold Elements.write at h
  split at h
  · cases h; rfl
  · cases h

/-- C46, not so: the decomposition of a banded matrix with at least two rows and anything below the diagonal always fails, because the
room made for the result is above the diagonal. -/
theorem C46_decomposition_fails_violated (sqrt : K → K) (eps small : K) (v : Elements K) (hn : 2 ≤ v.rows) (hb : 0 < v.nBelow) :
    cholesky sqrt eps small v = none := by
  unfold cholesky
  split
  · rfl
  · obtain ⟨n, hn'⟩ : ∃ n, v.rows = n + 2 := ⟨v.rows - 2, by omega⟩
    obtain ⟨m, hm⟩ : ∃ m, v.nBelow = m + 1 := ⟨v.nBelow - 1, by omega⟩
    have hrow1 : ∀ val : Elements K, val.nBelow = 0 → cholRow sqrt eps small v 1 (1 - v.nBelow) (1 + 1 - (1 - v.nBelow)) (1 - v.nBelow) val = none := by
      intro val h0
      rw [hm, show 1 - (m + 1) = 0 by omega, show 1 + 1 - 0 = 1 + 1 by omega, cholRow]
      have hw : ∀ x, val.write 1 0 x = none := by
        intro x
        unfold Elements.write Elements.inBand
        rw [h0]
        rfl
      rw [if_pos (by omega), hw, hw, ite_self, ite_self]
      rfl
    rw [hn', cholRows]
    cases h0 : cholRow sqrt eps small v 0 (0 - v.nBelow) (0 + 1 - (0 - v.nBelow)) (0 - v.nBelow) (Elements.make (n + 2) v.nBelow 0) with
    | none => rfl
    | some val =>
      rw [Option.bind_some, cholRows]
      have hv : val.nBelow = 0 := by
        rw [show 0 - v.nBelow = 0 by omega, show 0 + 1 - 0 = 0 + 1 by omega, cholRow] at h0
        rw [if_neg (by omega)] at h0
        split at h0
        · cases hw : (Elements.make (n + 2) v.nBelow 0 : Elements K).write 0 0 (sqrt (cholResidual (Elements.make (n + 2) v.nBelow 0) 0 0 0 (0 - 0) (v.get 0 0))) with
          | none => rw [hw] at h0; cases h0
          | some w =>
            rw [hw, Option.bind_some, cholRow] at h0
            cases h0
            exact write_nBelow hw
        · cases h0
      rw [show 0 + 1 = 1 by rfl, hrow1 val hv]
      rfl

/-- C46, not so: no banded matrix that `NewBandDiagonal` makes is ever decomposed, whatever its elements. -/
theorem C46_never_decomposed_violated (sqrt : K → K) {eps : K} (heps : 0 < eps) (small : K) (size nAbove nBelow : Nat) (hs : 0 < size)
    (hw : 1 < nAbove ∨ 1 < nBelow) (view : Nat → Nat → K) (d : Elements K) :
    decompose sqrt eps small { (Elements.make size nAbove nBelow : Elements K) with view := view } ≠ .ok d := by
  obtain ⟨v, hv⟩ : ∃ v : Elements K, v = { (Elements.make size nAbove nBelow : Elements K) with view := view } := ⟨_, rfl⟩
  rw [← hv]
  have e1 : v.rows = size := by rw [hv]; rfl
  have e2 : v.cols = 1 + nBelow + nAbove := by rw [hv]; rfl
  have e3 : v.nBelow = nBelow := by rw [hv]; rfl
  unfold decompose
  by_cases hc : cholesky sqrt eps small v = none
  · rw [hc]
    cases isSymmetric eps v with
    | none => simp
    | some b => cases b <;> simp
  · -- then there is a single row, and checking it reads outside
    have hb : 0 < nBelow := by
      by_contra h0
      exact hc (by unfold cholesky; rw [if_pos (by omega)])
    have hrows : v.rows = 1 := by
      by_contra h2
      exact hc (C46_decomposition_fails_violated sqrt eps small v (by omega) (by omega))
    have : isSymmetric eps v = none := by
      unfold isSymmetric
      rw [hrows]
      rw [symmRows]
      have hr : symmRow eps v 0 (max (v.rows - 1) (0 + max v.nBelow (v.cols - v.nBelow - 1)) + 1 - (0 - max v.nBelow (v.cols - v.nBelow - 1)))
          (0 - max v.nBelow (v.cols - v.nBelow - 1)) = none := by
        obtain ⟨c, hcount⟩ : ∃ c, max (v.rows - 1) (0 + max v.nBelow (v.cols - v.nBelow - 1)) + 1 - (0 - max v.nBelow (v.cols - v.nBelow - 1)) = c + 1 + 1 :=
          ⟨max v.nBelow (v.cols - v.nBelow - 1) - 1, by omega⟩
        rw [hcount, show 0 - max v.nBelow (v.cols - v.nBelow - 1) = 0 by omega, symmRow]
        have h00 : v.read 0 0 = some (v.get 0 0) := by unfold Elements.read; rw [if_neg (by omega)]
        have h10 : v.read 1 0 = none := by
          unfold Elements.read Elements.inBand
          rw [if_pos]
          refine ⟨?_, by omega⟩
          simp only [Bool.and_eq_true, decide_eq_true_eq]
          omega
        rw [h00]
        dsimp only
        rw [if_pos (zero_isZero heps _), symmRow, show 0 + 1 = 1 by rfl, h10]
        cases v.read 0 1 <;> rfl
      rw [hr]
    rw [this]
    simp

/-- C46, not so: the accumulator's right solve is its left solve: it does not solve with the transposed matrix. -/
theorem C46_accumulator_right_violated : ∃ (v : Elements ℚ) (b x : Nat → ℚ), v.rows = 2 ∧ v.cols = 2 ∧ v.nBelow = 1 ∧
    accSolveRight (1 / 10 ^ 10) v b = some x ∧ ∑ j ∈ Finset.range v.rows, v.get j 1 * x j ≠ b 1 := by
  refine ⟨⟨2, 2, 1, fun r c => if r = 0 ∧ c = 0 then 0 else 1⟩, fun _ => 1, upd (upd (fun _ => 0) 0 1) 1 0, rfl, rfl, rfl, ?_, ?_⟩
  · unfold accSolveRight lSolve
    rw [if_neg (by simp)]
    simp only [lSolveRows, Option.bind_some]
    simp [isZero, Elements.get, Elements.inBand, residual, upd]
    norm_num
    rw [upd_self, sub_self]
  · simp [Finset.sum_range_succ, Elements.get, Elements.inBand, upd]

/-! ### The hypotheses hold -/

example : ∃ x, lSolve (1 / 100 : ℚ) ⟨3, 2, 1, fun _ c => if c = 1 then 2 else 1⟩ (fun i => i) = some x :=
  C46_lower_solve_succeeds rfl (fun i _ => by
    have : (⟨3, 2, 1, fun _ c => if c = 1 then 2 else 1⟩ : Elements ℚ).get i i = 2 := by
      simp [Elements.get, Elements.inBand]
    rw [this]
    unfold isZero
    norm_num) _

example : isSymmetric (1 / 100 : ℚ) ⟨3, 5, 2, fun _ c => if c = 2 then 2 else 0⟩ = none := by
  have hget : ∀ i j, (⟨3, 5, 2, fun _ c => if c = 2 then 2 else 0⟩ : Elements ℚ).get i j = if i = j then 2 else 0 := by
    intro i j
    unfold Elements.get Elements.inBand
    dsimp only
    by_cases h : i = j
    · subst h; simp
    · rw [if_neg h]
      by_cases hb : (decide (i ≤ j + 2) && decide (j + 2 - i < 5)) = true
      · rw [if_pos hb]
        simp only [Bool.and_eq_true, decide_eq_true_eq] at hb
        rw [if_neg (by omega)]
      · rw [if_neg hb]
  refine C46_symmetric_check_violated (by norm_num) _ (by decide) (by decide) (by decide) (fun i j _ _ => ?_) (fun i j hi hj => ?_)
  · rw [hget, hget]
    by_cases h : i = j
    · rw [if_pos h, if_pos h.symm]
    · rw [if_neg h, if_neg (Ne.symm h)]
  · dsimp only at hi hj
    rw [hget, if_neg (by omega)]

end Dal
