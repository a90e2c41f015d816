import Verif.Matrix.TridiagModel
import Mathlib.Algebra.BigOperators.Intervals
import Mathlib.Tactic.Ring
import Mathlib.Tactic.LinearCombination
import Mathlib.Tactic.Linarith
import Mathlib.Tactic.FieldSimp
import Mathlib.Tactic.NormNum

/-!
# C45: solving with a decomposed tridiagonal matrix inverts multiplication

Specification: the sums `∑ j, M i j * x j` and `∑ i, M i j * x i` over the elements of the matrix as read by its element access.
-/

namespace Dal

open Dal.Tri

variable {K : Type} [Field K] [LinearOrder K] [IsStrictOrderedRing K]

private theorem upd_self (v : Nat → K) (i : Nat) (c : K) : upd v i c i = c := if_pos rfl
private theorem upd_ne (v : Nat → K) {i k : Nat} (c : K) (h : k ≠ i) : upd v i c k = v k := if_neg h

theorem Tri.addAbove_val (x a : Nat → K) : ∀ (k : Nat) (r : Nat → K) (i : Nat),
    addAbove x a k r i = if i < k then r i + x (i + 1) * a i else r i := by
  intro k
  induction k with
  | zero => intro r i; simp [addAbove]
  | succ k ih =>
    intro r i
    rw [addAbove]
    by_cases h : i = k
    · subst h
      rw [upd_self, ih, if_neg (by omega), if_pos (by omega)]
    · rw [upd_ne _ _ h, ih]
      by_cases h' : i < k
      · rw [if_pos h', if_pos (by omega)]
      · rw [if_neg h', if_neg (by omega)]

theorem Tri.addBelow_val (x b : Nat → K) : ∀ (k : Nat) (r : Nat → K) (i : Nat),
    addBelow x b k r i = if 0 < i ∧ i ≤ k then r i + x (i - 1) * b (i - 1) else r i := by
  intro k
  induction k with
  | zero => intro r i; rw [addBelow, if_neg (by omega)]
  | succ k ih =>
    intro r i
    rw [addBelow]
    by_cases h : i = k + 1
    · subst h
      rw [upd_self, ih, if_neg (by omega), if_pos (by omega), Nat.add_sub_cancel]
    · rw [upd_ne _ _ h, ih]
      by_cases h' : 0 < i ∧ i ≤ k
      · rw [if_pos h', if_pos (by omega)]
      · rw [if_neg h', if_neg (by omega)]

theorem Tri.mult_val (n : Nat) (x d a b : Nat → K) (i : Nat) (hi : i < n) :
    triMultiply n x d a b i = x i * d i + (if i + 1 < n then x (i + 1) * a i else 0) + (if 0 < i then x (i - 1) * b (i - 1) else 0) := by
  unfold triMultiply
  rw [addBelow_val, addAbove_val]
  by_cases h1 : i + 1 < n
  · have h1' : i < n - 1 := by omega
    by_cases h2 : 0 < i
    · have h2' : 0 < i ∧ i ≤ n - 1 := by omega
      simp only [h1, h1', h2, h2', if_true, and_self]
    · have h2' : ¬ (0 < i ∧ i ≤ n - 1) := by omega
      rw [if_neg h2', if_pos h1', if_pos h1, if_neg h2, add_zero]
  · have h1' : ¬ i < n - 1 := by omega
    by_cases h2 : 0 < i
    · have h2' : 0 < i ∧ i ≤ n - 1 := by omega
      rw [if_pos h2', if_neg h1', if_neg h1, if_pos h2, add_zero]
    · have h2' : ¬ (0 < i ∧ i ≤ n - 1) := by omega
      rw [if_neg h2', if_neg h1', if_neg h1, if_neg h2, add_zero, add_zero]

private theorem band_sum (n i : Nat) (hi : i < n) (f : Nat → K) (h : ∀ j, j ≠ i → j + 1 ≠ i → j ≠ i + 1 → f j = 0) :
    ∑ j ∈ Finset.range n, f j = f i + (if i + 1 < n then f (i + 1) else 0) + (if 0 < i then f (i - 1) else 0) := by
  rw [← Finset.add_sum_erase _ _ (Finset.mem_range.2 hi), add_assoc]
  congr 1
  have h1 : ∑ x ∈ (Finset.range n).erase i, f x
      = ∑ x ∈ (Finset.range n).erase i, ((if x = i + 1 then f x else 0) + (if x + 1 = i then f x else 0)) := by
    apply Finset.sum_congr rfl
    intro x hx
    have hx := Finset.ne_of_mem_erase hx
    by_cases h1 : x = i + 1
    · rw [if_pos h1, if_neg (by omega), add_zero]
    · by_cases h2 : x + 1 = i
      · rw [if_neg h1, if_pos h2, zero_add]
      · rw [if_neg h1, if_neg h2, add_zero]
        exact h x hx h2 h1
  rw [h1, Finset.sum_add_distrib]
  congr 1
  · by_cases hlt : i + 1 < n
    · rw [if_pos hlt, Finset.sum_eq_single (i + 1), if_pos rfl]
      · intro b _ hb; rw [if_neg hb]
      · intro hn; exact absurd (Finset.mem_erase.2 ⟨by omega, Finset.mem_range.2 hlt⟩) hn
    · rw [if_neg hlt]
      apply Finset.sum_eq_zero
      intro x hx
      have := Finset.mem_range.1 (Finset.mem_of_mem_erase hx)
      rw [if_neg (by omega)]
  · by_cases hlt : 0 < i
    · rw [if_pos hlt, Finset.sum_eq_single (i - 1), if_pos (by omega)]
      · intro b _ hb; rw [if_neg (by omega)]
      · intro hn; exact absurd (Finset.mem_erase.2 ⟨by omega, Finset.mem_range.2 (by omega)⟩) hn
    · rw [if_neg hlt]
      apply Finset.sum_eq_zero
      intro x hx
      rw [if_neg (by omega)]

/-- C45: both multiplications are those by the matrix one reads element by element, from the left and transposed. -/
theorem C45_multiply (m : Mat K) (x : Nat → K) (i : Nat) (hi : i < m.n) :
    multiplyLeft m x i = ∑ j ∈ Finset.range m.n, elem m i j * x j ∧ multiplyRight m x i = ∑ j ∈ Finset.range m.n, elem m j i * x j := by
  constructor
  · unfold multiplyLeft
    rw [mult_val _ _ _ _ _ i hi, band_sum m.n i hi]
    · unfold elem
      congr 1
      · congr 1
        · rw [if_pos rfl, mul_comm]
        · by_cases h : i + 1 < m.n
          · rw [if_pos h, if_pos h, if_neg (by omega), if_neg (by omega), if_pos rfl, mul_comm]
          · rw [if_neg h, if_neg h]
      · by_cases h : 0 < i
        · rw [if_pos h, if_pos h, if_neg (by omega), if_pos (by omega), mul_comm]
        · rw [if_neg h, if_neg h]
    · intro j h1 h2 h3
      unfold elem
      rw [if_neg (by omega), if_neg (by omega), if_neg h3, zero_mul]
  · unfold multiplyRight
    rw [mult_val _ _ _ _ _ i hi, band_sum m.n i hi]
    · unfold elem
      congr 1
      · congr 1
        · rw [if_pos rfl, mul_comm]
        · by_cases h : i + 1 < m.n
          · rw [if_pos h, if_pos h, if_neg (by omega), if_pos rfl, mul_comm]
          · rw [if_neg h, if_neg h]
      · by_cases h : 0 < i
        · rw [if_pos h, if_pos h, if_neg (by omega), if_neg (by omega), if_pos (by omega), mul_comm]
        · rw [if_neg h, if_neg h]
    · intro j h1 h2 h3
      unfold elem
      rw [if_neg h1, if_neg h3, if_neg (by omega), zero_mul]

/-- C45: writing an element inside the band changes that element and no other; outside the band it is refused. -/
theorem C45_set (m : Mat K) (i j : Nat) (v : K) :
    (i ≤ j + 1 ∧ j ≤ i + 1 → ∃ m', setElem m i j v = some m' ∧ m'.n = m.n ∧ elem m' i j = v ∧
      ∀ i' j', ¬ (i' = i ∧ j' = j) → elem m' i' j' = elem m i' j') ∧
    (¬ (i ≤ j + 1 ∧ j ≤ i + 1) → setElem m i j v = none) := by
  unfold setElem
  refine ⟨fun h => ?_, fun h => ?_⟩
  · by_cases h1 : i = j
    · subst h1
      rw [if_pos rfl]
      refine ⟨_, rfl, rfl, by unfold elem; rw [if_pos rfl]; exact upd_self _ _ _, ?_⟩
      intro i' j' hn
      unfold elem
      by_cases h2 : i' = j'
      · rw [if_pos h2, if_pos h2]; exact upd_ne _ _ (by omega)
      · rw [if_neg h2, if_neg h2]
    · by_cases h2 : i = j + 1
      · rw [if_neg h1, if_pos h2]
        refine ⟨_, rfl, rfl, by unfold elem; rw [if_neg h1, if_pos h2]; exact upd_self _ _ _, ?_⟩
        intro i' j' hn
        unfold elem
        by_cases h3 : i' = j' + 1
        · rw [if_neg (by omega), if_pos h3, if_neg (by omega), if_pos h3]; exact upd_ne _ _ (by omega)
        · rw [if_neg h3, if_neg h3]
      · rw [if_neg h1, if_neg h2, if_pos (by omega)]
        refine ⟨_, rfl, rfl, by unfold elem; rw [if_neg h1, if_neg h2, if_pos (by omega)]; exact upd_self _ _ _, ?_⟩
        intro i' j' hn
        unfold elem
        by_cases h3 : j' = i' + 1
        · rw [if_neg (by omega), if_neg (by omega), if_pos h3, if_neg (by omega), if_neg (by omega), if_pos h3]; exact upd_ne _ _ (by omega)
        · rw [if_neg h3, if_neg h3]
  · rw [if_neg (by omega), if_neg (by omega), if_neg (by omega)]

/-! ### The pivots -/

private theorem not_isZero {eps x : K} (heps : 0 < eps) (h : isZero eps x = false) : x ≠ 0 := by
  intro h0
  subst h0
  unfold isZero at h
  simp [heps] at h

/-- The pivots and their inverses. -/
private structure Piv (n : Nat) (d a b bi : Nat → K) : Prop where
  first : 0 < n → d 0 * bi 0 = 1
  next : ∀ j, j + 1 < n → (d (j + 1) - a j * bi j * b j) * bi (j + 1) = 1

private theorem betaLoop_ok {eps : K} (heps : 0 < eps) (d a b : Nat → K) : ∀ (left j : Nat) (g : K) (ret bi : Nat → K),
    betaLoop eps d a b left j g ret = some bi →
    (∀ k, k < j → bi k = ret k) ∧ (d j - g) * bi j = 1 ∧ (∀ k, j ≤ k → k < j + left → (d (k + 1) - a k * bi k * b k) * bi (k + 1) = 1) := by
  intro left
  induction left with
  | zero =>
    intro j g ret bi h
    rw [betaLoop] at h
    dsimp only at h
    by_cases hz : isZero eps (d j - g) = true
    · rw [if_pos hz] at h; cases h
    · rw [if_neg hz] at h
      cases h
      have hne := not_isZero heps (Bool.eq_false_iff.2 hz)
      refine ⟨fun k hk => upd_ne _ _ (by omega), ?_, fun k h1 h2 => by omega⟩
      rw [upd_self]
      field_simp
  | succ left ih =>
    intro j g ret bi h
    rw [betaLoop] at h
    dsimp only at h
    by_cases hz : isZero eps (d j - g) = true
    · rw [if_pos hz] at h; cases h
    · rw [if_neg hz] at h
      have hne := not_isZero heps (Bool.eq_false_iff.2 hz)
      obtain ⟨h1, h2, h3⟩ := ih _ _ _ _ h
      have hj : bi j = 1 / (d j - g) := by rw [h1 j (by omega), upd_self]
      refine ⟨fun k hk => by rw [h1 k (by omega), upd_ne _ _ (by omega)], by rw [hj]; field_simp, ?_⟩
      intro k hk1 hk2
      by_cases hk : k = j
      · subst hk
        rw [upd_self, ← hj] at h2
        exact h2
      · exact h3 k (by omega) (by omega)

private theorem betaInverse_ok {eps : K} (heps : 0 < eps) {n : Nat} {d a b bi : Nat → K} (h : betaInverse eps n d a b = some bi) : Piv n d a b bi := by
  obtain ⟨_, h1, h2⟩ := betaLoop_ok heps d a b (n - 1) 0 0 _ bi h
  refine ⟨fun _ => by simpa using h1, fun j hj => h2 j (by omega) (by omega)⟩

private theorem forward_val (b a bi : Nat → K) : ∀ (k : Nat) (x : Nat → K),
    (∀ i, i = 0 ∨ k < i → forward b a bi k x i = x i) ∧
    (∀ i, i < k → forward b a bi k x (i + 1) = (b (i + 1) - a i * forward b a bi k x i) * bi (i + 1)) := by
  intro k
  induction k with
  | zero => intro x; exact ⟨fun i _ => rfl, fun i h => by omega⟩
  | succ k ih =>
    intro x
    obtain ⟨h1, h2⟩ := ih x
    constructor
    · intro i hi
      rw [forward]
      rw [upd_ne _ _ (by omega)]
      exact h1 i (by omega)
    · intro i hi
      rw [forward]
      by_cases h : i = k
      · subst h
        rw [upd_self, upd_ne _ _ (by omega)]
      · rw [upd_ne _ _ (by omega), upd_ne _ _ (by omega)]
        exact h2 i (by omega)

private theorem backward_val (c bi : Nat → K) : ∀ (k : Nat) (x : Nat → K),
    (∀ i, k ≤ i → backward c bi k x i = x i) ∧
    (∀ i, i < k → backward c bi k x i = x i - c i * bi i * backward c bi k x (i + 1)) := by
  intro k
  induction k with
  | zero => intro x; exact ⟨fun i _ => rfl, fun i h => by omega⟩
  | succ k ih =>
    intro x
    obtain ⟨h1, h2⟩ := ih (upd x k (x k - c k * bi k * x (k + 1)))
    rw [backward]
    constructor
    · intro i hi
      rw [h1 i (by omega), upd_ne _ _ (by omega)]
    · intro i hi
      by_cases h : i = k
      · subst h
        rw [h1 i (Nat.le_refl _), h1 (i + 1) (by omega), upd_self, upd_ne _ _ (by omega)]
      · rw [h2 i (by omega), upd_ne _ _ (by omega)]

/-- The two recurrences the solution satisfies: `y` forward, `x` backward. -/
private theorem solve_rec {n : Nat} (hn : 0 < n) (b a c bi : Nat → K) : ∃ y : Nat → K, y 0 = b 0 * bi 0 ∧
    (∀ i, i + 1 < n → y (i + 1) = (b (i + 1) - a i * y i) * bi (i + 1)) ∧ triSolve n b a c bi (n - 1) = y (n - 1) ∧
    (∀ i, i + 1 < n → triSolve n b a c bi i = y i - c i * bi i * triSolve n b a c bi (i + 1)) := by
  obtain ⟨f1, f2⟩ := forward_val b a bi (n - 1) (upd (fun _ => 0) 0 (b 0 * bi 0))
  obtain ⟨b1, b2⟩ := backward_val c bi (n - 1) (forward b a bi (n - 1) (upd (fun _ => 0) 0 (b 0 * bi 0)))
  refine ⟨forward b a bi (n - 1) (upd (fun _ => 0) 0 (b 0 * bi 0)), ?_, fun i hi => f2 i (by omega), b1 _ (Nat.le_refl _), fun i hi => b2 i (by omega)⟩
  rw [f1 0 (Or.inl rfl), upd_self]

private theorem solve_mult {n : Nat} {d a c bi : Nat → K} (b : Nat → K) (hp : Piv n d a c bi) (i : Nat) (hi : i < n) :
    triMultiply n (triSolve n b a c bi) d c a i = b i := by
  obtain ⟨y, y0, y1, x1, x2⟩ := solve_rec (by omega : 0 < n) b a c bi
  rw [mult_val _ _ _ _ _ i hi]
  set x := triSolve n b a c bi with hx
  -- the value of `x i` through `y i`
  have hxy : ∀ k, k < n → y k = x k + (if k + 1 < n then c k * bi k * x (k + 1) else 0) := by
    intro k hk
    by_cases h : k + 1 < n
    · rw [if_pos h, x2 k h]; ring
    · rw [if_neg h, add_zero, show k = n - 1 by omega, x1]
  cases i with
  | zero =>
    have h0 := hp.first (by omega)
    have e := hxy 0 (by omega)
    rw [y0] at e
    have hb : b 0 = d 0 * (x 0 + if 0 + 1 < n then c 0 * bi 0 * x (0 + 1) else 0) := by
      rw [← e]
      linear_combination (-b 0) * h0
    rw [hb]
    by_cases h : 0 + 1 < n
    · rw [if_pos h, if_pos h, if_neg (by omega)]
      linear_combination (-(c 0 * x (0 + 1))) * h0
    · rw [if_neg h, if_neg h, if_neg (by omega)]
      ring
  | succ k =>
    have h0 := hp.next k (by omega)
    have e := hxy (k + 1) (by omega)
    have e' := hxy k (by omega)
    rw [if_pos (by omega)] at e'
    have hy := y1 k (by omega)
    rw [hy, e'] at e
    rw [if_pos (Nat.succ_pos k), Nat.add_sub_cancel]
    have hb : b (k + 1) = (d (k + 1) - a k * bi k * c k) * (x (k + 1) + if k + 1 + 1 < n then c (k + 1) * bi (k + 1) * x (k + 1 + 1) else 0)
        + a k * (x k + c k * bi k * x (k + 1)) := by
      rw [← e]
      linear_combination (-(b (k + 1) - a k * (x k + c k * bi k * x (k + 1)))) * h0
    rw [hb]
    by_cases h : k + 1 + 1 < n
    · rw [if_pos h, if_pos h]
      linear_combination (-(c (k + 1) * x (k + 1 + 1))) * h0
    · rw [if_neg h, if_neg h]
      ring

private theorem piv_swap {n : Nat} {d a c bi : Nat → K} (h : Piv n d a c bi) : Piv n d c a bi :=
  ⟨h.first, fun j hj => by rw [show c j * bi j * a j = a j * bi j * c j by ring]; exact h.next j hj⟩

/-- C45: whenever the decomposition is made, solving and multiplying back gives the right-hand side, from the left and from the right. -/
theorem C45_solve_then_multiply {eps : K} (heps : 0 < eps) {m : Mat K} {d : Decomp K} (h : decompose eps m = some d) (b : Nat → K) (i : Nat)
    (hi : i < m.n) : (∑ j ∈ Finset.range m.n, elem m i j * solveLeft d b j = b i) ∧ ∑ j ∈ Finset.range m.n, elem m j i * solveRight d b j = b i := by
  unfold decompose at h
  cases hb : betaInverse eps m.n m.diag m.above m.below with
  | none => rw [hb] at h; cases h
  | some bi =>
    rw [hb] at h
    cases h
    have hp := betaInverse_ok heps hb
    rw [← (C45_multiply m _ i hi).1, ← (C45_multiply m _ i hi).2]
    exact ⟨solve_mult b (piv_swap hp) i hi, solve_mult b hp i hi⟩

private theorem mult_solve {n : Nat} {d a c bi : Nat → K} (z : Nat → K) (hp : Piv n d a c bi) (i : Nat) (hi : i < n) :
    triSolve n (triMultiply n z d c a) a c bi i = z i := by
  have hn : 0 < n := by omega
  obtain ⟨y, y0, y1, x1, x2⟩ := solve_rec hn (triMultiply n z d c a) a c bi
  have hy : ∀ k, k < n → y k = z k + (if k + 1 < n then c k * bi k * z (k + 1) else 0) := by
    intro k
    induction k with
    | zero =>
      intro _
      have h0 := hp.first hn
      rw [y0, mult_val _ _ _ _ _ 0 hn, if_neg (lt_irrefl 0)]
      by_cases h : 0 + 1 < n
      · rw [if_pos h, if_pos h]
        linear_combination z 0 * h0
      · rw [if_neg h, if_neg h]
        linear_combination z 0 * h0
    | succ k ih =>
      intro hk
      have h0 := hp.next k hk
      have e := ih (by omega)
      rw [if_pos hk] at e
      rw [y1 k hk, e, mult_val _ _ _ _ _ (k + 1) hk, if_pos (Nat.succ_pos k), Nat.add_sub_cancel]
      by_cases h : k + 1 + 1 < n
      · rw [if_pos h, if_pos h]
        linear_combination z (k + 1) * h0
      · rw [if_neg h, if_neg h]
        linear_combination z (k + 1) * h0
  have hback : ∀ t, t < n → triSolve n (triMultiply n z d c a) a c bi (n - 1 - t) = z (n - 1 - t) := by
    intro t
    induction t with
    | zero =>
      intro _
      rw [Nat.sub_zero, x1, hy (n - 1) (by omega), if_neg (by omega), add_zero]
    | succ t ih =>
      intro ht
      have e := ih (by omega)
      rw [show n - 1 - t = n - 1 - (t + 1) + 1 by omega] at e
      rw [x2 _ (by omega), e, hy _ (by omega), if_pos (by omega)]
      ring
  have := hback (n - 1 - i) (by omega)
  rwa [show n - 1 - (n - 1 - i) = i by omega] at this

/-- C45: and multiplying, then solving, gives back what was multiplied; so the solution is the only one. -/
theorem C45_multiply_then_solve {eps : K} (heps : 0 < eps) {m : Mat K} {d : Decomp K} (h : decompose eps m = some d) (x : Nat → K) (i : Nat)
    (hi : i < m.n) : solveLeft d (multiplyLeft m x) i = x i ∧ solveRight d (multiplyRight m x) i = x i := by
  unfold decompose at h
  cases hb : betaInverse eps m.n m.diag m.above m.below with
  | none => rw [hb] at h; cases h
  | some bi =>
    rw [hb] at h
    cases h
    have hp := betaInverse_ok heps hb
    exact ⟨mult_solve x (piv_swap hp) i hi, mult_solve x hp i hi⟩

/-- C45: a matrix whose diagonal dominates its rows by at least the threshold is decomposed. -/
theorem C45_dominant_decomposes {eps : K} (heps : 0 < eps) (m : Mat K)
    (hn : 0 < m.n) (hd : ∀ i, i < m.n → (if i + 1 < m.n then |m.above i| else 0) + (if 0 < i then |m.below (i - 1)| else 0) + eps ≤ |m.diag i|) : ∃ d, decompose eps m = some d := by
  have key : ∀ (left j : Nat) (g : K) (ret : Nat → K), left + j + 1 = m.n → |g| ≤ (if 0 < j then |m.below (j - 1)| else 0) →
      ∃ bi, betaLoop eps m.diag m.above m.below left j g ret = some bi := by
    intro left
    induction left with
    | zero =>
      intro j g ret hlj hg
      rw [betaLoop]
      dsimp only
      have h1 := hd j (by omega)
      rw [if_neg (by omega)] at h1
      have h2 : |m.diag j| - |g| ≤ |m.diag j - g| := abs_sub_abs_le_abs_sub _ _
      have h3 : eps ≤ |m.diag j - g| := by linarith
      rw [if_neg]
      · exact ⟨_, rfl⟩
      · unfold isZero
        simp only [Bool.and_eq_true, decide_eq_true_eq]
        rintro ⟨h4, h5⟩
        rcases le_total 0 (m.diag j - g) with h | h
        · rw [abs_of_nonneg h] at h3; linarith
        · rw [abs_of_nonpos h] at h3; linarith
    | succ left ih =>
      intro j g ret hlj hg
      rw [betaLoop]
      dsimp only
      have h1 := hd j (by omega)
      rw [if_pos (by omega)] at h1
      have h2 : |m.diag j| - |g| ≤ |m.diag j - g| := abs_sub_abs_le_abs_sub _ _
      have h3 : |m.above j| + eps ≤ |m.diag j - g| := by linarith
      have hpos : 0 < |m.diag j - g| := by linarith [abs_nonneg (m.above j)]
      rw [if_neg]
      · apply ih _ _ _ (by omega)
        rw [upd_self, if_pos (Nat.succ_pos j), Nat.add_sub_cancel, abs_mul, abs_mul, abs_div, abs_one]
        have h4 : |m.above j| * (1 / |m.diag j - g|) ≤ 1 := by
          rw [mul_one_div, div_le_one hpos]
          linarith
        calc |m.above j| * (1 / |m.diag j - g|) * |m.below j| ≤ 1 * |m.below j| := mul_le_mul_of_nonneg_right h4 (abs_nonneg _)
          _ = |m.below j| := one_mul _
      · unfold isZero
        simp only [Bool.and_eq_true, decide_eq_true_eq]
        rintro ⟨h4, h5⟩
        have := abs_nonneg (m.above j)
        rcases le_total 0 (m.diag j - g) with h | h
        · rw [abs_of_nonneg h] at h3; linarith
        · rw [abs_of_nonpos h] at h3; linarith
  obtain ⟨bi, h⟩ := key (m.n - 1) 0 0 (fun _ => 0) (by omega) (by simp)
  exact ⟨⟨m, bi⟩, by unfold decompose betaInverse; rw [h]; rfl⟩

/-- C45: a matrix whose first element vanishes is refused, although it may be regular. -/
theorem C45_zero_pivot_refused {eps : K} (heps : 0 < eps) (m : Mat K) (h : m.diag 0 = 0) : decompose eps m = none := by
  unfold decompose betaInverse
  rw [betaLoop.eq_def]
  dsimp only
  rw [if_pos (by unfold isZero; rw [h]; simp [heps])]
  rfl

/-- C45, not so: the matrix' own multiplication, unlike those of the decomposition, goes wrong when its result is its argument. -/
theorem C45_multiply_in_place_violated : ∃ m : Mat ℚ, m.n = 2 ∧ multiplyLeft m (fun _ => 1) 0 = 3 ∧
    triMultiplyInPlace m.n (fun _ => 1) m.diag m.above m.below 0 = 4 :=
  ⟨⟨2, fun _ => 2, fun _ => 1, fun _ => 1⟩, rfl, by simp [multiplyLeft, triMultiply, addAbove, addBelow, upd]; norm_num,
    by simp [triMultiplyInPlace, triMultiplyInPlace.lower, triMultiplyInPlace.upper, upd]; norm_num⟩

/-! ### The hypotheses hold -/

example : ∃ d, decompose (1 / 100 : ℚ) ⟨5, fun _ => 4, fun _ => 1, fun _ => 2⟩ = some d :=
  C45_dominant_decomposes (by norm_num) _ (by decide) (fun i _ => by
    dsimp only
    split_ifs <;> norm_num [abs_of_pos])

end Dal
