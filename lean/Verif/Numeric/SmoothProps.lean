import Verif.Numeric.SmoothModel
import Mathlib.Algebra.BigOperators.Intervals
import Mathlib.Algebra.BigOperators.Ring.Finset
import Mathlib.Algebra.Order.BigOperators.Group.Finset
import Mathlib.Tactic.Linarith
import Mathlib.Tactic.FieldSimp
import Mathlib.Tactic.NormNum
import Mathlib.Tactic.Positivity
import Mathlib.Tactic.LinearCombination

/-!
# C50: smoothing

Specification: the penalised sum of squares to be made small.
-/

namespace Dal

open Dal.Smooth

variable {K : Type} [Field K] [LinearOrder K] [IsStrictOrderedRing K]

private theorem put_self (v : Nat → K) (i : Nat) (x : K) : put v i x i = x := if_pos rfl
private theorem put_ne (v : Nat → K) {i j : Nat} (x : K) (h : j ≠ i) : put v i x j = v j := if_neg h

/-- The sum of weighted squares of the differences to the data, and of the penalties `p k` for the differences of the neighbours `k` and
`k + 1`. -/
def penalised (n : Nat) (w p y z : Nat → K) : K :=
  ∑ i ∈ Finset.range n, w i * (z i - y i) ^ 2 + ∑ k ∈ Finset.range (n - 1), p k * (z (k + 1) - z k) ^ 2

/-- The penalty that couples each pair of neighbours. -/
def pairPenalty (dxMin lambda : K) (x : Nat → K) (k : Nat) : K := lambda / max (x (k + 1) - x k) dxMin

/-- The penalty the code has in its place: none for the first pair, and for the others the one of the pair before. -/
def shiftedPenalty (dxMin lambda : K) (x : Nat → K) (k : Nat) : K := if k = 0 then 0 else lambda / max (x k - x (k - 1)) dxMin

private theorem couplingLoop_val (dxMin lambda : K) (x : Nat → K) : ∀ (m : Nat) (c : Nat → K) (k : Nat),
    couplingLoop dxMin lambda x m c k = if 0 < k ∧ k ≤ m then lambda / max (x k - x (k - 1)) dxMin else c k := by
  intro m
  induction m with
  | zero => intro c k; rw [if_neg (by omega)]; rfl
  | succ m ih =>
    intro c k
    rw [couplingLoop]
    by_cases h : k = m + 1
    · subst h
      rw [put_self, if_pos (by omega), Nat.add_sub_cancel]
    · rw [put_ne _ _ h, ih]
      by_cases h' : 0 < k ∧ k ≤ m
      · rw [if_pos h', if_pos (by omega)]
      · rw [if_neg h', if_neg (by omega)]

private theorem coupling_val (dxMin lambda : K) (n : Nat) (x : Nat → K) (k : Nat) (hk : k + 1 < n) : coupling dxMin lambda n x k = shiftedPenalty dxMin lambda x k := by
  unfold coupling shiftedPenalty
  rw [put_ne _ _ (by omega), couplingLoop_val]
  by_cases h : k = 0
  · rw [if_neg (by omega), if_pos h]
  · rw [if_pos (by omega), if_neg h]

private theorem coupling_last (dxMin lambda : K) (n : Nat) (x : Nat → K) : coupling dxMin lambda n x (n - 1) = 0 := put_self _ _ _

private structure Fwd (c w y : Nat → K) (i : Nat) (b g : Nat → K) : Prop where
  b0 : b 0 = w 0 + c 0
  g0 : g 0 = w 0 * y 0
  pos : ∀ k, k ≤ i → w k + c k ≤ b k ∧ 0 < b k
  bs : ∀ k, k < i → b (k + 1) = w (k + 1) + c k + c (k + 1) - c k * c k / b k
  gs : ∀ k, k < i → g (k + 1) = w (k + 1) * y (k + 1) + c k * g k / b k

private theorem forward_ok (c w y : Nat → K) (n : Nat) (hc : ∀ k, k < n → 0 ≤ c k) (hw : ∀ k, k < n → 0 < w k) : ∀ i, i < n →
    ∃ b g, forward c w y i = some (b, g) ∧ Fwd c w y i b g := by
  intro i
  induction i with
  | zero =>
    intro hi
    refine ⟨_, _, rfl, put_self _ _ _, put_self _ _ _, fun k hk => ?_, fun k hk => by omega, fun k hk => by omega⟩
    obtain rfl : k = 0 := by omega
    rw [put_self]
    exact ⟨le_refl _, by linarith [hc 0 hi, hw 0 hi]⟩
  | succ i ih =>
    intro hi
    obtain ⟨b, g, he, hF⟩ := ih (by omega)
    obtain ⟨h1, h2⟩ := hF.pos i (Nat.le_refl _)
    rw [forward, he, Option.bind_some]
    dsimp only
    rw [if_neg h2.ne']
    have hpos : w (i + 1) + c (i + 1) ≤ w (i + 1) + c i + c (i + 1) - c i * c i / b i := by
      have : c i * c i / b i ≤ c i := by
        rw [div_le_iff₀ h2]
        nlinarith [hc i (by omega), hw i (by omega)]
      linarith
    refine ⟨_, _, rfl, ?_, ?_, ?_, ?_, ?_⟩
    · rw [put_ne _ _ (by omega)]; exact hF.b0
    · rw [put_ne _ _ (by omega)]; exact hF.g0
    · intro k hk
      by_cases h : k = i + 1
      · rw [h, put_self]
        exact ⟨hpos, by linarith [hc (i + 1) hi, hw (i + 1) hi]⟩
      · rw [put_ne _ _ h]; exact hF.pos k (by omega)
    · intro k hk
      by_cases h : k = i
      · rw [h, put_self, put_ne _ _ (by omega)]
      · rw [put_ne _ _ (by omega), put_ne _ _ (by omega)]; exact hF.bs k (by omega)
    · intro k hk
      by_cases h : k = i
      · rw [h, put_self, put_ne _ _ (by omega), put_ne _ _ (by omega)]
      · rw [put_ne _ _ (by omega), put_ne _ _ (by omega), put_ne _ _ (by omega)]; exact hF.gs k (by omega)

private theorem backward_ok (c b g : Nat → K) : ∀ (j : Nat) (z : Nat → K), (∀ k, k < j → b k ≠ 0) → ∃ z', backward c b g j z = some z' ∧
    (∀ k, j ≤ k → z' k = z k) ∧ ∀ k, k < j → z' k = (g k + c k * z' (k + 1)) / b k := by
  intro j
  induction j with
  | zero => intro z _; exact ⟨z, rfl, fun _ _ => rfl, fun k hk => by omega⟩
  | succ j ih =>
    intro z hb
    rw [backward, if_neg (hb j (by omega))]
    obtain ⟨z', h1, h2, h3⟩ := ih (put z j ((g j + c j * z (j + 1)) / b j)) (fun k hk => hb k (by omega))
    refine ⟨z', h1, fun k hk => by rw [h2 k (by omega), put_ne _ _ (by omega)], fun k hk => ?_⟩
    by_cases h : k = j
    · rw [h, h2 j (Nat.le_refl _), put_self, h2 (j + 1) (by omega), put_ne _ _ (by omega)]
    · exact h3 k (by omega)

/-- The conditions under which something is computed: points in order, at least two of them, positive weights, and a penalty that is not
negative. -/
structure SmoothInput (dxMin : K) (n wn : Nat) (x weight : Nat → K) (lambda : K) : Prop where
  dx : 0 < dxMin
  two : 1 < n
  order : ∀ i, i + 1 < n → x i ≤ x (i + 1)
  weights : wn = 0 ∨ n ≤ wn ∧ ∀ i, i < n → 0 < weight i
  penalty : 0 ≤ lambda

/-- The weights in effect. -/
def effective (wn : Nat) (weight : Nat → K) : Nat → K := if wn = 0 then fun _ => 1 else weight

private theorem run {dxMin : K} {n wn : Nat} {x y weight : Nat → K} {lambda : K} (h : SmoothInput dxMin n wn x weight lambda) :
    ∃ z, smoothed dxMin n n wn x y weight lambda = some z ∧ (∀ i, i < n → 0 < effective wn weight i) ∧ (∀ k, 0 ≤ shiftedPenalty dxMin lambda x k) ∧
      ∀ i, i < n → effective wn weight i * (z i - y i) + (if i = 0 then 0 else shiftedPenalty dxMin lambda x (i - 1) * (z i - z (i - 1)))
        - (if i + 1 < n then shiftedPenalty dxMin lambda x i * (z (i + 1) - z i) else 0) = 0 := by
  obtain ⟨hdx, h2, hord, hwt, hpen⟩ := h
  have hw : ∀ i, i < n → 0 < effective wn weight i := by
    intro i hi
    unfold effective
    rcases hwt with hz | ⟨_, hw⟩
    · rw [if_pos hz]; exact one_pos
    · split
      · exact one_pos
      · exact hw i hi
  have hc : ∀ k, 0 ≤ shiftedPenalty dxMin lambda x k := by
    intro k
    unfold shiftedPenalty
    split
    · exact le_refl _
    · exact div_nonneg hpen (le_trans hdx.le (le_max_right _ _))
  have hcc : ∀ k, k < n → coupling dxMin lambda n x k = if k + 1 < n then shiftedPenalty dxMin lambda x k else 0 := by
    intro k hk
    by_cases h : k + 1 < n
    · rw [if_pos h, coupling_val _ _ _ _ _ h]
    · rw [if_neg h, show k = n - 1 by omega, coupling_last]
  have hcn : ∀ k, k < n → 0 ≤ coupling dxMin lambda n x k := by
    intro k hk
    rw [hcc k hk]
    split
    · exact hc k
    · exact le_refl _
  obtain ⟨b, g, hf, hF⟩ := forward_ok (coupling dxMin lambda n x) (effective wn weight) y n hcn hw (n - 1) (by omega)
  have hlast := (hF.pos (n - 1) (Nat.le_refl _)).2
  obtain ⟨z, hz, hzl, hzk⟩ := backward_ok (coupling dxMin lambda n x) b g (n - 1) (put (fun _ => 0) (n - 1) (g (n - 1) / b (n - 1)))
    (fun k hk => (hF.pos k (by omega)).2.ne')
  refine ⟨z, ?_, hw, hc, ?_⟩
  · unfold smoothed
    have hall : (List.range (n - 1)).all (fun i => decide (x i ≤ x (i + 1))) = true := by
      rw [List.all_eq_true]
      intro i hi
      have := List.mem_range.1 hi
      exact decide_eq_true (hord i (by omega))
    rw [if_pos ⟨hall, rfl, h2⟩, if_neg (by omega)]
    show (forward (coupling dxMin lambda n x) (effective wn weight) y (n - 1)).bind _ = _
    rw [hf, Option.bind_some]
    dsimp only
    rw [if_neg hlast.ne']
    exact hz
  · -- elimination read backwards
    have hall : ∀ k, k < n → b k * z k = g k + coupling dxMin lambda n x k * z (k + 1) := by
      intro k hk
      have hb := (hF.pos k (by omega)).2.ne'
      by_cases h : k = n - 1
      · rw [h, coupling_last, hzl (n - 1) (Nat.le_refl _), put_self, zero_mul, add_zero, mul_comm, div_mul_cancel₀ _ hlast.ne']
      · rw [hzk k (by omega), mul_comm, div_mul_cancel₀ _ hb]
    have hpair : ∀ i, i < n → (if i + 1 < n then shiftedPenalty dxMin lambda x i * (z (i + 1) - z i) else 0) = coupling dxMin lambda n x i * (z (i + 1) - z i) := by
      intro i hi
      rw [hcc i hi]
      split <;> ring
    intro i hi
    rw [hpair i hi]
    cases i with
    | zero =>
      rw [if_pos rfl]
      have := hall 0 hi
      rw [hF.b0, hF.g0] at this
      linear_combination this
    | succ i =>
      rw [if_neg (by omega), Nat.add_sub_cancel]
      have e1 := hall (i + 1) hi
      have e0 := hall i (by omega)
      have hb := (hF.pos i (by omega)).2.ne'
      rw [hF.bs i (by omega), hF.gs i (by omega)] at e1
      have hci : shiftedPenalty dxMin lambda x i = coupling dxMin lambda n x i := by rw [hcc i (by omega), if_pos hi]
      rw [hci]
      have e2 : coupling dxMin lambda n x i * coupling dxMin lambda n x i / b i * z (i + 1) + coupling dxMin lambda n x i * g i / b i = coupling dxMin lambda n x i * z i := by
        rw [show g i = b i * z i - coupling dxMin lambda n x i * z (i + 1) by rw [e0]; ring]
        field_simp
        ring
      linear_combination e1 + e2

private theorem sum_shift (n : Nat) (f : Nat → K) : ∑ k ∈ Finset.range (n - 1), f (k + 1) = ∑ i ∈ Finset.range n, if i = 0 then 0 else f i := by
  cases n with
  | zero => rfl
  | succ n =>
    rw [Finset.sum_range_succ', if_pos rfl, add_zero, Nat.add_sub_cancel]
    exact Finset.sum_congr rfl (fun i _ => by rw [if_neg (by omega)])

private theorem sum_cut (n : Nat) (f : Nat → K) : ∑ k ∈ Finset.range (n - 1), f k = ∑ i ∈ Finset.range n, if i + 1 < n then f i else 0 := by
  cases n with
  | zero => rfl
  | succ n =>
    rw [Finset.sum_range_succ, if_neg (by omega), add_zero, Nat.add_sub_cancel]
    exact Finset.sum_congr rfl (fun i hi => by have := Finset.mem_range.1 hi; rw [if_pos (by omega)])

private theorem penalised_expand (n : Nat) (w p y z v : Nat → K)
    (h : ∀ i, i < n → w i * (z i - y i) + (if i = 0 then 0 else p (i - 1) * (z i - z (i - 1))) - (if i + 1 < n then p i * (z (i + 1) - z i) else 0) = 0) :
    penalised n w p y v = penalised n w p y z + (∑ i ∈ Finset.range n, w i * (v i - z i) ^ 2
      + ∑ k ∈ Finset.range (n - 1), p k * ((v (k + 1) - z (k + 1)) - (v k - z k)) ^ 2) := by
  have hcross : ∑ i ∈ Finset.range n, 2 * (w i * (z i - y i) * (v i - z i))
      + ∑ k ∈ Finset.range (n - 1), 2 * (p k * (z (k + 1) - z k) * ((v (k + 1) - z (k + 1)) - (v k - z k))) = 0 := by
    have e1 : ∑ k ∈ Finset.range (n - 1), 2 * (p k * (z (k + 1) - z k) * ((v (k + 1) - z (k + 1)) - (v k - z k)))
        = ∑ k ∈ Finset.range (n - 1), (fun i => 2 * (p (i - 1) * (z i - z (i - 1)) * (v i - z i))) (k + 1)
          - ∑ k ∈ Finset.range (n - 1), 2 * (p k * (z (k + 1) - z k) * (v k - z k)) := by
      rw [← Finset.sum_sub_distrib]
      exact Finset.sum_congr rfl (fun k _ => by dsimp only; rw [Nat.add_sub_cancel]; ring)
    rw [e1, sum_shift n (fun i => 2 * (p (i - 1) * (z i - z (i - 1)) * (v i - z i))), sum_cut n (fun k => 2 * (p k * (z (k + 1) - z k) * (v k - z k))), ← Finset.sum_sub_distrib, ← Finset.sum_add_distrib]
    apply Finset.sum_eq_zero
    intro i hi
    have := h i (Finset.mem_range.1 hi)
    have e2 : (if i = 0 then 0 else 2 * (p (i - 1) * (z i - z (i - 1)) * (v i - z i))) = 2 * (v i - z i) * (if i = 0 then 0 else p (i - 1) * (z i - z (i - 1))) := by
      split <;> ring
    have e3 : (if i + 1 < n then 2 * (p i * (z (i + 1) - z i) * (v i - z i)) else 0) = 2 * (v i - z i) * (if i + 1 < n then p i * (z (i + 1) - z i) else 0) := by
      split <;> ring
    rw [e2, e3]
    linear_combination 2 * (v i - z i) * this
  unfold penalised
  have e1 : ∑ i ∈ Finset.range n, w i * (v i - y i) ^ 2 = ∑ i ∈ Finset.range n, w i * (z i - y i) ^ 2 + ∑ i ∈ Finset.range n, w i * (v i - z i) ^ 2
      + ∑ i ∈ Finset.range n, 2 * (w i * (z i - y i) * (v i - z i)) := by
    rw [← Finset.sum_add_distrib, ← Finset.sum_add_distrib]
    exact Finset.sum_congr rfl (fun i _ => by ring)
  have e2 : ∑ k ∈ Finset.range (n - 1), p k * (v (k + 1) - v k) ^ 2 = ∑ k ∈ Finset.range (n - 1), p k * (z (k + 1) - z k) ^ 2
      + ∑ k ∈ Finset.range (n - 1), p k * ((v (k + 1) - z (k + 1)) - (v k - z k)) ^ 2
      + ∑ k ∈ Finset.range (n - 1), 2 * (p k * (z (k + 1) - z k) * ((v (k + 1) - z (k + 1)) - (v k - z k))) := by
    rw [← Finset.sum_add_distrib, ← Finset.sum_add_distrib]
    exact Finset.sum_congr rfl (fun k _ => by ring)
  rw [e1, e2]
  linear_combination hcross

/-- C50, in part: the smoothed values make the penalised sum of squares smaller than any others do, but with penalties that belong to the
pair before. What is missing is the right pair, see `C50_first_pair_violated`. -/
theorem C50_minimal_partial {dxMin : K} {n wn : Nat} {x weight : Nat → K} {lambda : K} (y : Nat → K) (h : SmoothInput dxMin n wn x weight lambda) :
    ∃ z, smoothed dxMin n n wn x y weight lambda = some z ∧ ∀ v : Nat → K,
      penalised n (effective wn weight) (shiftedPenalty dxMin lambda x) y z ≤ penalised n (effective wn weight) (shiftedPenalty dxMin lambda x) y v ∧
      (penalised n (effective wn weight) (shiftedPenalty dxMin lambda x) y v = penalised n (effective wn weight) (shiftedPenalty dxMin lambda x) y z →
        ∀ i, i < n → v i = z i) := by
  obtain ⟨z, hz, hw, hc, heq⟩ := run (y := y) h
  refine ⟨z, hz, fun v => ?_⟩
  have he := penalised_expand n (effective wn weight) (shiftedPenalty dxMin lambda x) y z v heq
  have h1 : 0 ≤ ∑ i ∈ Finset.range n, effective wn weight i * (v i - z i) ^ 2 :=
    Finset.sum_nonneg (fun i hi => mul_nonneg (hw i (Finset.mem_range.1 hi)).le (sq_nonneg _))
  have h2 : 0 ≤ ∑ k ∈ Finset.range (n - 1), shiftedPenalty dxMin lambda x k * ((v (k + 1) - z (k + 1)) - (v k - z k)) ^ 2 :=
    Finset.sum_nonneg (fun k _ => mul_nonneg (hc k) (sq_nonneg _))
  refine ⟨by rw [he]; linarith, fun hv i hi => ?_⟩
  have h3 : ∑ i ∈ Finset.range n, effective wn weight i * (v i - z i) ^ 2 = 0 := by linarith
  rw [Finset.sum_eq_zero_iff_of_nonneg (fun i hi => mul_nonneg (hw i (Finset.mem_range.1 hi)).le (sq_nonneg _))] at h3
  have := h3 i (Finset.mem_range.2 hi)
  rcases mul_eq_zero.1 this with h4 | h4
  · exact absurd h4 (hw i hi).ne'
  · exact sub_eq_zero.1 (pow_eq_zero_iff (two_ne_zero) |>.1 h4)

private theorem unique {dxMin : K} {n wn : Nat} {x y weight : Nat → K} {lambda : K} (h : SmoothInput dxMin n wn x weight lambda) (v : Nat → K)
    (hv : ∀ i, i < n → effective wn weight i * (v i - y i) + (if i = 0 then 0 else shiftedPenalty dxMin lambda x (i - 1) * (v i - v (i - 1)))
        - (if i + 1 < n then shiftedPenalty dxMin lambda x i * (v (i + 1) - v i) else 0) = 0) :
    ∃ z, smoothed dxMin n n wn x y weight lambda = some z ∧ ∀ i, i < n → z i = v i := by
  obtain ⟨z, hz, hmin⟩ := C50_minimal_partial y h
  obtain ⟨z', hz', hw, hc, heq⟩ := run (y := y) h
  have he := penalised_expand n (effective wn weight) (shiftedPenalty dxMin lambda x) y v z hv
  have h1 : 0 ≤ ∑ i ∈ Finset.range n, effective wn weight i * (z i - v i) ^ 2 :=
    Finset.sum_nonneg (fun i hi => mul_nonneg (hw i (Finset.mem_range.1 hi)).le (sq_nonneg _))
  have h2 : 0 ≤ ∑ k ∈ Finset.range (n - 1), shiftedPenalty dxMin lambda x k * ((z (k + 1) - v (k + 1)) - (z k - v k)) ^ 2 :=
    Finset.sum_nonneg (fun k _ => mul_nonneg (hc k) (sq_nonneg _))
  refine ⟨z, hz, fun i hi => ((hmin v).2 (le_antisymm ?_ (hmin v).1) i hi).symm⟩
  rw [he]
  linarith

/-- C50: with zero penalty the data are unchanged. -/
theorem C50_zero_penalty {dxMin : K} {n wn : Nat} {x weight : Nat → K} (y : Nat → K) (h : SmoothInput dxMin n wn x weight 0) :
    ∃ z, smoothed dxMin n n wn x y weight 0 = some z ∧ ∀ i, i < n → z i = y i := by
  apply unique h y
  intro i _
  have : ∀ k, shiftedPenalty dxMin 0 x k = 0 := fun k => by unfold shiftedPenalty; rw [zero_div, ite_self]
  rw [this, this, zero_mul, zero_mul, ite_self, ite_self]
  ring

/-- Data that are constant on the points are unchanged. -/
theorem Smooth.smoothed_constant_on {dxMin : K} {n wn : Nat} {x weight : Nat → K} {lambda : K} (y : Nat → K) (a : K) (hy : ∀ i, i < n → y i = a)
    (h : SmoothInput dxMin n wn x weight lambda) : ∃ z, smoothed dxMin n n wn x y weight lambda = some z ∧ ∀ i, i < n → z i = a := by
  apply unique h (fun _ => a)
  intro i hi
  rw [hy i hi, sub_self, mul_zero, mul_zero, mul_zero, ite_self, ite_self]
  ring

/-- C50: constant data are unchanged, whatever the penalty. -/
theorem C50_constant {dxMin : K} {n wn : Nat} {x weight : Nat → K} {lambda : K} (a : K) (h : SmoothInput dxMin n wn x weight lambda) :
    ∃ z, smoothed dxMin n n wn x (fun _ => a) weight lambda = some z ∧ ∀ i, i < n → z i = a := by
  apply unique h (fun _ => a)
  intro i _
  rw [sub_self, mul_zero, mul_zero, mul_zero, ite_self, ite_self]
  ring

/-- C50, not so: the first point is coupled to nothing, so that its value never changes. -/
theorem C50_first_pair_violated {dxMin : K} {n wn : Nat} {x weight : Nat → K} {lambda : K} (y : Nat → K) (h : SmoothInput dxMin n wn x weight lambda) :
    ∃ z, smoothed dxMin n n wn x y weight lambda = some z ∧ z 0 = y 0 := by
  obtain ⟨z, hz, hw, _, heq⟩ := run (y := y) h
  refine ⟨z, hz, ?_⟩
  have hn := h.two
  have := heq 0 (by omega)
  rw [if_pos rfl, if_pos (by omega)] at this
  have hs : shiftedPenalty dxMin lambda x 0 = 0 := if_pos rfl
  rw [hs, zero_mul, add_zero, sub_zero] at this
  rcases mul_eq_zero.1 this with h4 | h4
  · exact absurd h4 (hw 0 (by omega)).ne'
  · exact sub_eq_zero.1 h4

/-- C50, not so: two points at distance 1 with values 0 and 1 and penalty 1 are returned unchanged, though 1/3 and 2/3 make the penalised
sum of squares of the coupled pair smaller. -/
theorem C50_two_points_violated : ∃ z : Nat → ℚ, smoothed (1 / 1000000000) 2 2 0 (fun i => (i : ℚ)) (fun i => (i : ℚ)) (fun _ => 1) 1 = some z ∧
    penalised 2 (fun _ => 1) (pairPenalty (1 / 1000000000) 1 (fun i => (i : ℚ))) (fun i => (i : ℚ)) (fun i => ((i : ℚ) + 1) / 3)
      < penalised 2 (fun _ => 1) (pairPenalty (1 / 1000000000) 1 (fun i => (i : ℚ))) (fun i => (i : ℚ)) z := by
  refine ⟨(smoothed (1 / 1000000000) 2 2 0 (fun i => (i : ℚ)) (fun i => (i : ℚ)) (fun _ => 1) 1).get (by decide +kernel), (Option.some_get _).symm, ?_⟩
  decide +kernel

/-- C50, not so: a weight of zero at the first point makes the recursion divide by zero, though the problem has a solution. -/
theorem C50_zero_weight_violated (x y : Nat → ℚ) (lambda : ℚ) : smoothed (1 / 1000000000) 3 3 3 x y (fun i => if i = 0 then 0 else 1) lambda = none := by
  unfold smoothed
  split
  · rw [if_neg (by decide)]
    dsimp only
    rw [if_neg (by decide)]
    have hf : forward (coupling (1 / 1000000000) lambda 3 x) (fun i => if i = 0 then (0 : ℚ) else 1) y 2 = none := by
      rw [forward, forward, forward, Option.bind_some]
      dsimp only
      rw [put_self, coupling_val _ _ _ _ _ (by decide), show shiftedPenalty (1 / 1000000000) lambda x 0 = 0 from if_pos rfl, if_pos rfl, add_zero, if_pos rfl]
      rfl
    show (forward (coupling (1 / 1000000000) lambda 3 x) (fun i => if i = 0 then (0 : ℚ) else 1) y 2).bind _ = none
    rw [hf]
    rfl
  · rfl

/-! ### The hypotheses hold -/

example : SmoothInput (1 / 1000000000 : ℚ) 3 3 (fun i => (i : ℚ)) (fun i => (i : ℚ) + 1) 2 :=
  ⟨by norm_num, by decide, fun i _ => by push_cast; linarith, Or.inr ⟨by decide, fun i _ => by positivity⟩, by norm_num⟩

example : ∃ z : Nat → ℚ, smoothed (1 / 1000000000) 3 3 0 (fun i => (i : ℚ)) (fun i => (i : ℚ)) (fun _ => 1) 1 = some z ∧ z 1 = 4 / 3 ∧ z 2 = 5 / 3 :=
  ⟨(smoothed (1 / 1000000000) 3 3 0 (fun i => (i : ℚ)) (fun i => (i : ℚ)) (fun _ => 1) 1).get (by decide +kernel), (Option.some_get _).symm, by decide +kernel, by decide +kernel⟩

end Dal
