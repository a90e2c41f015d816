import Verif.Matrix.DecompModel
import Mathlib.Algebra.BigOperators.Intervals
import Mathlib.Algebra.BigOperators.Ring.Finset
import Mathlib.Tactic.Ring
import Mathlib.Tactic.Linarith
import Mathlib.Tactic.LinearCombination
import Mathlib.Tactic.FieldSimp
import Mathlib.Tactic.NormNum

/-!
# C73: diagonal and lower triangular matrices as decompositions

Specification: sums of products over the entries of the matrix.
-/

namespace Dal

open Dal.Decomps
open Dal.Tri (isZero upd)
open Dal.Band (Res)

variable {K : Type} [Field K] [LinearOrder K] [IsStrictOrderedRing K]

private theorem upd_self (v : Nat → K) (i : Nat) (c : K) : upd v i c i = c := if_pos rfl
private theorem upd_ne (v : Nat → K) {i k : Nat} (c : K) (h : k ≠ i) : upd v i c k = v k := if_neg h

private theorem ne_of_not_isZero {eps x : K} (heps : 0 < eps) (h : isZero eps x = false) : x ≠ 0 := by
  rintro rfl
  unfold isZero at h
  simp [heps] at h

private theorem inner_eq (c : K) (f g : Nat → K) (s : Nat) : ∀ n, inner c f g s n = c + ∑ k ∈ Finset.Ico s (s + n), f k * g k := by
  intro n
  induction n with
  | zero => simp [inner]
  | succ n ih => rw [inner, ih, ← Nat.add_assoc, Finset.sum_Ico_succ_top (by omega), add_assoc]

private theorem fillUp_ok {f : (Nat → K) → Nat → Res K} {dst : Nat → K} : ∀ {n : Nat} {d : Nat → K}, fillUp f dst n = .ok d →
    ∀ i, i < n → ∃ e : Nat → K, f e i = .ok (d i) ∧ ∀ k, k < i → e k = d k := by
  intro n
  induction n with
  | zero => intro d _ i hi; omega
  | succ n ih =>
    intro d h i hi
    rw [fillUp] at h
    cases h1 : fillUp f dst n with
    | throws => rw [h1] at h; cases h
    | undefined => rw [h1] at h; cases h
    | ok e =>
      rw [h1] at h
      dsimp only at h
      cases h2 : f e n with
      | throws => rw [h2] at h; cases h
      | undefined => rw [h2] at h; cases h
      | ok y =>
        rw [h2] at h
        cases h
        by_cases hin : i = n
        · subst hin
          exact ⟨e, by rw [h2, upd_self], fun k hk => by rw [upd_ne _ _ (by omega)]⟩
        · obtain ⟨e', h3, h4⟩ := ih h1 i (by omega)
          exact ⟨e', by rw [h3, upd_ne _ _ hin], fun k hk => by rw [h4 k hk, upd_ne _ _ (by omega)]⟩

private theorem fillUp_exists {f : (Nat → K) → Nat → Res K} {dst : Nat → K} : ∀ {n : Nat}, (∀ d i, i < n → ∃ y, f d i = .ok y) →
    ∃ d, fillUp f dst n = .ok d := by
  intro n
  induction n with
  | zero => intro _; exact ⟨dst, rfl⟩
  | succ n ih =>
    intro h
    obtain ⟨d, hd⟩ := ih fun d i hi => h d i (by omega)
    obtain ⟨y, hy⟩ := h d n (by omega)
    exact ⟨upd d n y, by rw [fillUp, hd]; dsimp only; rw [hy]⟩

private theorem fillUp_throws {f : (Nat → K) → Nat → Res K} {dst : Nat → K} : ∀ {n : Nat}, (∀ d i, i < n → f d i ≠ .undefined) →
    (∃ j, j < n ∧ ∀ d, f d j = .throws) → fillUp f dst n = .throws := by
  intro n
  induction n with
  | zero => rintro _ ⟨j, hj, _⟩; omega
  | succ n ih =>
    rintro hu ⟨j, hj, h⟩
    rw [fillUp]
    have hu' : ∀ k, (k ≤ n → fillUp f dst k ≠ .undefined) := by
      intro k
      induction k with
      | zero => intro _ h; cases h
      | succ k ihk =>
        intro hk
        rw [fillUp]
        cases h1 : fillUp f dst k with
        | throws => simp
        | undefined => exact absurd h1 (ihk (by omega))
        | ok d =>
          dsimp only
          cases h2 : f d k with
          | throws => simp
          | undefined => exact absurd h2 (hu d k (by omega))
          | ok y => simp
    cases h1 : fillUp f dst n with
    | throws => rfl
    | undefined => exact absurd h1 (hu' n (Nat.le_refl _))
    | ok d =>
      dsimp only
      by_cases hjn : j = n
      · subst hjn; rw [h d]
      · rw [ih (fun d i hi => hu d i (by omega)) ⟨j, by omega, h⟩] at h1
        cases h1

private theorem fillDown_ok {f : (Nat → K) → Nat → Res K} : ∀ {n : Nat} {dst d : Nat → K}, fillDown f n dst = .ok d →
    (∀ i, i < n → ∃ e : Nat → K, f e i = .ok (d i) ∧ ∀ k, i < k → e k = d k) ∧ ∀ i, n ≤ i → d i = dst i := by
  intro n
  induction n with
  | zero => intro dst d h; cases h; exact ⟨fun i hi => by omega, fun _ _ => rfl⟩
  | succ n ih =>
    intro dst d h
    rw [fillDown] at h
    cases h1 : f dst n with
    | throws => rw [h1] at h; cases h
    | undefined => rw [h1] at h; cases h
    | ok y =>
      rw [h1] at h
      obtain ⟨h2, h3⟩ := ih h
      refine ⟨fun i hi => ?_, fun i hi => by rw [h3 i (by omega), upd_ne _ _ (by omega)]⟩
      by_cases hin : i = n
      · subst hin
        exact ⟨dst, by rw [h1, h3 i (Nat.le_refl _), upd_self], fun k hk => by rw [h3 k (by omega), upd_ne _ _ (by omega)]⟩
      · exact h2 i (by omega)

private theorem fillDown_exists {f : (Nat → K) → Nat → Res K} : ∀ {n : Nat} (dst : Nat → K), (∀ d i, i < n → ∃ y, f d i = .ok y) →
    ∃ d, fillDown f n dst = .ok d := by
  intro n
  induction n with
  | zero => intro dst _; exact ⟨dst, rfl⟩
  | succ n ih =>
    intro dst h
    obtain ⟨y, hy⟩ := h dst n (by omega)
    obtain ⟨d, hd⟩ := ih (upd dst n y) fun d i hi => h d i (by omega)
    exact ⟨d, by rw [fillDown, hy]; exact hd⟩

private theorem fillDown_throws {f : (Nat → K) → Nat → Res K} : ∀ {n : Nat} (dst : Nat → K), (∀ d i, i < n → f d i ≠ .undefined) →
    (∃ j, j < n ∧ ∀ d, f d j = .throws) → fillDown f n dst = .throws := by
  intro n
  induction n with
  | zero => rintro _ _ ⟨j, hj, _⟩; omega
  | succ n ih =>
    rintro dst hu ⟨j, hj, h⟩
    rw [fillDown]
    cases h1 : f dst n with
    | throws => rfl
    | undefined => exact absurd h1 (hu dst n (by omega))
    | ok y =>
      dsimp only
      refine ih _ (fun d i hi => hu d i (by omega)) ⟨j, ?_, h⟩
      by_contra hjn
      rw [show j = n by omega] at h
      rw [h dst] at h1
      cases h1

private theorem transform_fill (op : K → K → Res K) (a b dst : Nat → K) : ∀ n, transformLoop op false a b dst n = fillUp (fun _ i => op (a i) (b i)) dst n := by
  intro n
  induction n with
  | zero => rfl
  | succ n ih => rw [transformLoop, fillUp, ih]; rfl

private theorem forward_eq (imp : Bool → Vec K → Vec K → Res (Vec K)) (al : Bool) (src dst : Vec K) :
    forward imp al src dst = imp false src (if al then src else dst) := by
  cases al <;> rfl

/-! ### Diagonal matrices -/

/-- C73: multiplying by a diagonal matrix, from either side, into another vector or in place: each entry is multiplied, when all sizes agree. -/
theorem C73_diagonal_multiply (vals x b : Vec K) (al : Bool) :
    (x.size = vals.size ∧ (al = false → b.size = vals.size) →
      ∃ r, diagMultiply vals al x b = .ok r ∧ r.size = vals.size ∧ ∀ i, i < vals.size → r.val i = vals.val i * x.val i) ∧
    (¬ (x.size = vals.size ∧ (al = false → b.size = vals.size)) → diagMultiply vals al x b = .throws) := by
  unfold diagMultiply
  rw [forward_eq]
  unfold diagMultiplyAf transform
  obtain ⟨t, ht⟩ : ∃ t : Vec K, t = if al then x else b := ⟨_, rfl⟩
  rw [← ht]
  have hs : (x.size = t.size ∧ vals.size = t.size) ↔ x.size = vals.size ∧ (al = false → b.size = vals.size) := by
    cases al
    · simp only [Bool.false_eq_true, if_false] at ht
      subst ht
      exact ⟨fun h => ⟨by omega, fun _ => by omega⟩, fun h => by have := h.2 rfl; omega⟩
    · simp only [if_true] at ht
      subst ht
      exact ⟨fun h => ⟨by omega, fun h => by cases h⟩, fun h => by omega⟩
  refine ⟨fun h => ?_, fun h => by rw [if_neg (fun h' => h (hs.1 h'))]⟩
  rw [if_pos (hs.2 h), transform_fill]
  obtain ⟨d, hd⟩ : ∃ d, fillUp (fun _ i => (.ok (x.val i * vals.val i) : Res K)) t.val x.size = .ok d := fillUp_exists fun _ i _ => ⟨_, rfl⟩
  refine ⟨⟨t.size, d⟩, by rw [hd], (hs.2 h).2.symm, fun i hi => ?_⟩
  obtain ⟨_, h1, _⟩ := fillUp_ok hd i (by have := h.1; omega)
  have : x.val i * vals.val i = d i := Res.ok.inj h1
  rw [mul_comm]
  exact this.symm

/-- C73: solving with a diagonal matrix: the result multiplied by the matrix is the right-hand side; it fails exactly if sizes differ or
an entry of the diagonal is within the tolerance of zero. -/
theorem C73_diagonal_solve {eps : K} (heps : 0 < eps) (vals b x : Vec K) (al : Bool) :
    (b.size = vals.size ∧ (al = false → x.size = vals.size) ∧ (∀ i, i < vals.size → eps ≤ |vals.val i|) →
      ∃ r, diagSolve eps vals al b x = .ok r ∧ r.size = vals.size ∧ ∀ i, i < vals.size → vals.val i * r.val i = b.val i) ∧
    (¬ (b.size = vals.size ∧ (al = false → x.size = vals.size) ∧ (∀ i, i < vals.size → eps ≤ |vals.val i|)) →
      diagSolve eps vals al b x = .throws) := by
  have hz : ∀ v : K, isZero eps v = false ↔ eps ≤ |v| := by
    intro v
    unfold isZero
    rw [le_abs]
    simp only [Bool.and_eq_false_iff, decide_eq_false_iff_not, not_lt]
  unfold diagSolve
  rw [forward_eq]
  unfold diagSolveAf transform
  obtain ⟨t, ht⟩ : ∃ t : Vec K, t = if al then b else x := ⟨_, rfl⟩
  rw [← ht]
  have hs : (b.size = t.size ∧ vals.size = t.size) ↔ b.size = vals.size ∧ (al = false → x.size = vals.size) := by
    cases al
    · simp only [Bool.false_eq_true, if_false] at ht
      subst ht
      exact ⟨fun h => ⟨by omega, fun _ => by omega⟩, fun h => by have := h.2 rfl; omega⟩
    · simp only [if_true] at ht
      subst ht
      exact ⟨fun h => ⟨by omega, fun h => by cases h⟩, fun h => by omega⟩
  refine ⟨fun h => ?_, fun h => ?_⟩
  · rw [if_pos (hs.2 ⟨h.1, h.2.1⟩), transform_fill]
    have hn : ∀ i, i < b.size → protectedDivide eps (b.val i) (vals.val i) = .ok (b.val i / vals.val i) := by
      intro i hi
      unfold protectedDivide
      rw [(hz _).2 (h.2.2 i (by have := h.1; omega))]
      rfl
    obtain ⟨d, hd⟩ : ∃ d, fillUp (fun _ i => protectedDivide eps (b.val i) (vals.val i)) t.val b.size = .ok d :=
      fillUp_exists fun _ i hi => ⟨_, hn i hi⟩
    refine ⟨⟨t.size, d⟩, by rw [hd], (hs.2 ⟨h.1, h.2.1⟩).2.symm, fun i hi => ?_⟩
    have hi' : i < b.size := by have := h.1; omega
    obtain ⟨_, h1, _⟩ := fillUp_ok hd i hi'
    rw [hn i hi'] at h1
    have h2 : b.val i / vals.val i = d i := Res.ok.inj h1
    have h3 := ne_of_not_isZero heps ((hz _).2 (h.2.2 i hi))
    show vals.val i * d i = b.val i
    rw [← h2]
    field_simp
  · by_cases hsz : b.size = t.size ∧ vals.size = t.size
    · rw [if_pos hsz, transform_fill]
      have : ∃ j, j < b.size ∧ isZero eps (vals.val j) = true := by
        by_contra hcon
        push Not at hcon
        refine h ⟨(hs.1 hsz).1, (hs.1 hsz).2, fun i hi => (hz _).1 ?_⟩
        exact Bool.eq_false_iff.2 (hcon i (by omega))
      obtain ⟨j, hj, hj'⟩ := this
      rw [fillUp_throws (fun _ i _ => by unfold protectedDivide; split <;> simp) ⟨j, hj, fun _ => by unfold protectedDivide; rw [hj']; rfl⟩]
    · rw [if_neg hsz]

/-- C73, not so: a product by a diagonal matrix cannot be put into a new vector, which is not resized; lower triangular matrices resize it. -/
theorem C73_diagonal_into_empty_violated (eps : K) (vals x : Vec K) (hn : 0 < vals.size) (e : Nat → K) :
    diagMultiply vals false x ⟨0, e⟩ = .throws ∧ diagSolve eps vals false x ⟨0, e⟩ = .throws := by
  have h : ¬ (x.size = (⟨0, e⟩ : Vec K).size ∧ vals.size = (⟨0, e⟩ : Vec K).size) := by
    rintro ⟨_, h⟩
    exact absurd h (Nat.pos_iff_ne_zero.1 hn)
  constructor
  · unfold diagMultiply
    rw [forward_eq]
    exact if_neg h
  · unfold diagSolve
    rw [forward_eq]
    exact if_neg h

example : diagMultiply (⟨2, fun _ => (3 : Rat)⟩ : Vec Rat) false ⟨2, fun _ => 1⟩ ⟨0, fun _ => 0⟩ = .throws :=
  (C73_diagonal_into_empty_violated (1 / 1000) ⟨2, fun _ => (3 : Rat)⟩ ⟨2, fun _ => 1⟩ (by decide) _).1

example : ∃ vals x b : Vec Rat, vals.size = 2 ∧ x.size = vals.size ∧ (false = false → b.size = vals.size) ∧
    ∀ i, i < vals.size → 1 / 1000 ≤ |vals.val i| :=
  ⟨⟨2, fun _ => -3⟩, ⟨2, fun _ => 1⟩, ⟨2, fun _ => 0⟩, rfl, rfl, fun _ => rfl, fun i _ => by norm_num [abs_of_neg]⟩

private theorem correlated_fill (sqrt : K → K) (eps : K) (vals : Nat → K) (left : Nat) (iid dst : Nat → K) : ∀ n,
    correlatedLoop sqrt eps vals left iid dst n = fillUp (fun _ i => if vals i ≤ -eps then .throws else if left ≤ i then .undefined
      else .ok (sqrt (max (vals i) 0) * iid i)) dst n := by
  intro n
  induction n with
  | zero => rfl
  | succ n ih =>
    rw [correlatedLoop, fillUp, ih]
    split
    · by_cases h1 : vals n ≤ -eps
      · rw [if_pos h1, if_pos h1]
      · rw [if_neg h1, if_neg h1]
        by_cases h2 : left ≤ n
        · rw [if_pos h2, if_pos h2]
        · rw [if_neg h2, if_neg h2]
    · rfl
    · rfl

/-- C73: correlating with a diagonal matrix takes as many numbers as there are variances, scales each by the square root of its variance,
and says where the next ones start; a negative variance is refused. -/
theorem C73_diagonal_correlated (sqrt : K → K) (hsq : ∀ x, 0 ≤ x → sqrt x * sqrt x = x) {eps : K} (heps : 0 < eps) (vals iids : Vec K) (pos : Nat) (devs : Vec K)
    (hp : pos + vals.size ≤ iids.size) :
    ((∀ i, i < vals.size → -eps < vals.val i) → ∃ (r : Vec K) (s : Nat → K), diagCorrelated sqrt eps vals iids pos devs = .ok (r, pos + vals.size) ∧ r.size = vals.size ∧
      ∀ i, i < vals.size → r.val i = s i * iids.val (pos + i) ∧ s i * s i = if 0 ≤ vals.val i then vals.val i else 0) ∧
    (¬ (∀ i, i < vals.size → -eps < vals.val i) → diagCorrelated sqrt eps vals iids pos devs = .throws) := by
  unfold diagCorrelated
  rw [correlated_fill]
  constructor
  · intro h
    have hn : ∀ i, i < vals.size → (if vals.val i ≤ -eps then (.throws : Res K) else if iids.size - pos ≤ i then .undefined
        else .ok (sqrt (max (vals.val i) 0) * iids.val (pos + i))) = .ok (sqrt (max (vals.val i) 0) * iids.val (pos + i)) := by
      intro i hi
      rw [if_neg (not_le.2 (h i hi)), if_neg (by omega)]
    obtain ⟨d, hd⟩ : ∃ d, fillUp (fun _ i => if vals.val i ≤ -eps then (.throws : Res K) else if iids.size - pos ≤ i then .undefined
        else .ok (sqrt (max (vals.val i) 0) * iids.val (pos + i))) (devs.resize vals.size).val vals.size = .ok d := fillUp_exists fun _ i hi => ⟨_, hn i hi⟩
    refine ⟨⟨vals.size, d⟩, fun i => sqrt (max (vals.val i) 0), by rw [hd]; rfl, rfl, fun i hi => ⟨?_, ?_⟩⟩
    · obtain ⟨_, h1, _⟩ := fillUp_ok hd i hi
      rw [hn i hi] at h1
      have : sqrt (max (vals.val i) 0) * iids.val (pos + i) = d i := Res.ok.inj h1
      exact this.symm
    · dsimp only
      rw [hsq _ (le_max_right _ _)]
      by_cases h0 : 0 ≤ vals.val i
      · rw [if_pos h0, max_eq_left h0]
      · rw [if_neg h0, max_eq_right (le_of_lt (not_le.1 h0))]
  · intro h
    push Not at h
    obtain ⟨j, hj, hj'⟩ := h
    rw [fillUp_throws (fun _ i hi => by
      by_cases h1 : vals.val i ≤ -eps
      · rw [if_pos h1]; simp
      · rw [if_neg h1, if_neg (by omega)]; simp) ⟨j, hj, fun _ => by rw [if_pos hj']⟩]

example : ∃ vals iids : Vec Rat, vals.size = 2 ∧ 1 + vals.size ≤ iids.size ∧ ∀ i, i < vals.size → -(1 / 1000) < vals.val i :=
  ⟨⟨2, fun i => i⟩, ⟨4, fun _ => 1⟩, rfl, by decide, fun i _ => lt_of_lt_of_le (by norm_num) (Nat.cast_nonneg i)⟩

/-! ### Lower triangular matrices -/

/-- C73: solving with a lower triangular matrix from the left, into any vector or in place: the product of the matrix on and below its
diagonal with the result is the right-hand side; refused exactly if an entry of the diagonal is within the tolerance of zero. -/
theorem C73_lower_solve_left {eps : K} (heps : 0 < eps) (m : Sq K) (b x : Vec K) (al : Bool) (hb : b.size = m.n) :
    ((∀ i, i < m.n → isZero eps (m.at' i i) = false) → ∃ r, lowSolveLeft eps m al b x = .ok r ∧ r.size = m.n ∧
      ∀ i, i < m.n → ∑ j ∈ Finset.range (i + 1), m.at' i j * r.val j = b.val i) ∧
    (¬ (∀ i, i < m.n → isZero eps (m.at' i i) = false) → lowSolveLeft eps m al b x = .throws) := by
  unfold lowSolveLeft
  rw [forward_eq]
  unfold lowSolveLeftAf
  constructor
  · intro h
    obtain ⟨d, hd⟩ : ∃ d, fillUp (fun d i => if b.size ≤ i then .undefined
        else protectedDivide eps (-inner (-look false b.val d i) d (m.at' i) 0 i) (m.at' i i)) ((if al then b else x).resize m.n).val m.n = .ok d := by
      apply fillUp_exists
      intro d i hi
      rw [if_neg (by omega)]
      unfold protectedDivide
      rw [h i hi]
      exact ⟨_, rfl⟩
    refine ⟨⟨m.n, d⟩, by rw [hd]; rfl, rfl, fun i hi => ?_⟩
    obtain ⟨e, h1, h2⟩ := fillUp_ok hd i hi
    rw [if_neg (by omega)] at h1
    unfold protectedDivide at h1
    rw [h i hi, inner_eq] at h1
    have h3 : -(-b.val i + ∑ k ∈ Finset.Ico 0 (0 + i), e k * m.at' i k) / m.at' i i = d i := Res.ok.inj h1
    have h4 := ne_of_not_isZero heps (h i hi)
    rw [Finset.sum_range_succ]
    show _ + m.at' i i * d i = _
    rw [← h3, Nat.zero_add, ← Finset.range_eq_Ico]
    have h5 : ∑ j ∈ Finset.range i, m.at' i j * (⟨m.n, d⟩ : Vec K).val j = ∑ k ∈ Finset.range i, e k * m.at' i k :=
      Finset.sum_congr rfl fun k hk => by rw [h2 k (Finset.mem_range.1 hk), mul_comm]
    rw [h5]
    field_simp
    ring
  · intro h
    push Not at h
    obtain ⟨j, hj, hj'⟩ := h
    replace hj' := Bool.eq_true_of_not_eq_false hj'
    rw [fillUp_throws (fun d i hi => by
      rw [if_neg (by omega)]; unfold protectedDivide; split <;> simp) ⟨j, hj, fun d => by rw [if_neg (by omega)]; unfold protectedDivide; rw [hj']; rfl⟩]
    rfl

/-- C73: solving with a lower triangular matrix from the right, that is with its transposed. -/
theorem C73_lower_solve_right {eps : K} (heps : 0 < eps) (m : Sq K) (b x : Vec K) (al : Bool) (hb : b.size = m.n) :
    ((∀ i, i < m.n → isZero eps (m.at' i i) = false) → ∃ r, lowSolveRight eps m al b x = .ok r ∧ r.size = m.n ∧
      ∀ i, i < m.n → ∑ j ∈ Finset.Ico i m.n, m.at' j i * r.val j = b.val i) ∧
    (¬ (∀ i, i < m.n → isZero eps (m.at' i i) = false) → lowSolveRight eps m al b x = .throws) := by
  unfold lowSolveRight
  rw [forward_eq]
  unfold lowSolveRightAf
  constructor
  · intro h
    obtain ⟨d, hd⟩ : ∃ d, fillDown (fun d i => if b.size ≤ i then .undefined
        else protectedDivide eps (-inner (-look false b.val d i) d (fun k => m.at' k i) (i + 1) (m.n - (i + 1))) (m.at' i i)) m.n
          ((if al then b else x).resize m.n).val = .ok d := by
      apply fillDown_exists
      intro d i hi
      rw [if_neg (by omega)]
      unfold protectedDivide
      rw [h i hi]
      exact ⟨_, rfl⟩
    refine ⟨⟨m.n, d⟩, by rw [hd]; rfl, rfl, fun i hi => ?_⟩
    obtain ⟨e, h1, h2⟩ := (fillDown_ok hd).1 i hi
    rw [if_neg (by omega)] at h1
    unfold protectedDivide at h1
    rw [h i hi, inner_eq, show i + 1 + (m.n - (i + 1)) = m.n by omega] at h1
    have h3 : -(-b.val i + ∑ k ∈ Finset.Ico (i + 1) m.n, e k * m.at' k i) / m.at' i i = d i := Res.ok.inj h1
    have h4 := ne_of_not_isZero heps (h i hi)
    rw [Finset.sum_eq_sum_Ico_succ_bot hi]
    show m.at' i i * d i + _ = _
    rw [← h3]
    have h5 : ∑ j ∈ Finset.Ico (i + 1) m.n, m.at' j i * (⟨m.n, d⟩ : Vec K).val j = ∑ k ∈ Finset.Ico (i + 1) m.n, e k * m.at' k i :=
      Finset.sum_congr rfl fun k hk => by rw [h2 k (by have := Finset.mem_Ico.1 hk; omega), mul_comm]
    rw [h5]
    field_simp
    ring
  · intro h
    push Not at h
    obtain ⟨j, hj, hj'⟩ := h
    replace hj' := Bool.eq_true_of_not_eq_false hj'
    rw [fillDown_throws _ (fun d i hi => by
      rw [if_neg (by omega)]; unfold protectedDivide; split <;> simp) ⟨j, hj, fun d => by rw [if_neg (by omega)]; unfold protectedDivide; rw [hj']; rfl⟩]
    rfl

/-- C73: multiplying by a lower triangular matrix from the right, into any vector or in place: the transposed of its entries on and below the
diagonal. -/
theorem C73_lower_multiply_right (m : Sq K) (x b : Vec K) (al : Bool) (hx : x.size = m.n) :
    ∃ r, lowMultiplyRight m al x b = .ok r ∧ r.size = m.n ∧ ∀ i, i < m.n → r.val i = ∑ j ∈ Finset.Ico i m.n, m.at' j i * x.val j := by
  unfold lowMultiplyRight
  rw [forward_eq]
  unfold lowMultiplyRightAf
  have hn : ∀ (d : Nat → K) i, i < m.n → (if x.size < i ∨ m.n < x.size then (.undefined : Res K)
      else .ok (inner 0 (look false x.val d) (fun k => m.at' k i) i (x.size - i))) = .ok (∑ j ∈ Finset.Ico i m.n, x.val j * m.at' j i) := by
    intro d i hi
    rw [if_neg (by omega), inner_eq, show i + (x.size - i) = m.n by omega, zero_add]
    rfl
  obtain ⟨d, hd⟩ : ∃ d, fillUp (fun d i => if x.size < i ∨ m.n < x.size then (.undefined : Res K)
      else .ok (inner 0 (look false x.val d) (fun k => m.at' k i) i (x.size - i))) ((if al then x else b).resize m.n).val m.n = .ok d :=
    fillUp_exists fun d i hi => ⟨_, hn d i hi⟩
  refine ⟨⟨m.n, d⟩, by rw [hd]; rfl, rfl, fun i hi => ?_⟩
  obtain ⟨e, h1, _⟩ := fillUp_ok hd i hi
  rw [hn e i hi] at h1
  have h2 : ∑ j ∈ Finset.Ico i m.n, x.val j * m.at' j i = d i := Res.ok.inj h1
  show d i = _
  rw [← h2]
  exact Finset.sum_congr rfl fun _ _ => mul_comm _ _

/-- C73: from the right, multiplying undoes solving. -/
theorem C73_lower_right_inverse {eps : K} (heps : 0 < eps) (m : Sq K) (b x y : Vec K) (al al' : Bool) (hb : b.size = m.n)
    (h : ∀ i, i < m.n → isZero eps (m.at' i i) = false) : ∃ r r', lowSolveRight eps m al b x = .ok r ∧ lowMultiplyRight m al' r y = .ok r' ∧
      r'.size = b.size ∧ ∀ i, i < m.n → r'.val i = b.val i := by
  obtain ⟨r, h1, h2, h3⟩ := (C73_lower_solve_right heps m b x al hb).1 h
  obtain ⟨r', h4, h5, h6⟩ := C73_lower_multiply_right m r y al' h2
  exact ⟨r, r', h1, h4, by omega, fun i hi => by rw [h6 i hi, h3 i hi]⟩

/-- C73, what multiplying from the left does: only the entries strictly below the diagonal count.  Missing: the diagonal, see
`C73_lower_left_violated`. -/
theorem C73_lower_multiply_left_partial (m : Sq K) (x b : Vec K) (al : Bool) (hx : x.size = m.n) :
    ∃ r, lowMultiplyLeft m al x b = .ok r ∧ r.size = m.n ∧ ∀ i, i < m.n → r.val i = ∑ j ∈ Finset.range i, m.at' i j * x.val j := by
  unfold lowMultiplyLeft
  rw [forward_eq]
  unfold lowMultiplyLeftAf
  have hn : ∀ (d : Nat → K) i, i < m.n → (if x.size < i then (.undefined : Res K)
      else .ok (inner 0 (look false x.val d) (m.at' i) 0 i)) = .ok (∑ j ∈ Finset.range i, x.val j * m.at' i j) := by
    intro d i hi
    rw [if_neg (by omega), inner_eq, Nat.zero_add, zero_add, Finset.range_eq_Ico]
    rfl
  obtain ⟨d, hd⟩ : ∃ d, fillUp (fun d i => if x.size < i then (.undefined : Res K)
      else .ok (inner 0 (look false x.val d) (m.at' i) 0 i)) ((if al then x else b).resize m.n).val m.n = .ok d :=
    fillUp_exists fun d i hi => ⟨_, hn d i hi⟩
  refine ⟨⟨m.n, d⟩, by rw [hd]; rfl, rfl, fun i hi => ?_⟩
  obtain ⟨e, h1, _⟩ := fillUp_ok hd i hi
  rw [hn e i hi] at h1
  have h2 : ∑ j ∈ Finset.range i, x.val j * m.at' i j = d i := Res.ok.inj h1
  show d i = _
  rw [← h2]
  exact Finset.sum_congr rfl fun _ _ => mul_comm _ _

/-- C73, not so: from the left, multiplying never undoes solving: for every matrix that can be solved, the product misses the right-hand side
by the diagonal times the solution, so its first entry is always zero. -/
theorem C73_lower_left_violated {eps : K} (heps : 0 < eps) (m : Sq K) (b x y : Vec K) (al al' : Bool) (hb : b.size = m.n) (hn : 0 < m.n)
    (h : ∀ i, i < m.n → isZero eps (m.at' i i) = false) : ∃ r r', lowSolveLeft eps m al b x = .ok r ∧ lowMultiplyLeft m al' r y = .ok r' ∧
      r'.val 0 = 0 ∧ ∀ i, i < m.n → r'.val i = b.val i - m.at' i i * r.val i := by
  obtain ⟨r, h1, h2, h3⟩ := (C73_lower_solve_left heps m b x al hb).1 h
  obtain ⟨r', h4, _, h6⟩ := C73_lower_multiply_left_partial m r y al' h2
  refine ⟨r, r', h1, h4, by rw [h6 0 hn]; simp, fun i hi => ?_⟩
  have := h3 i hi
  rw [Finset.sum_range_succ] at this
  rw [h6 i hi]
  linear_combination this

example : ∃ (m : Sq Rat) (b : Vec Rat), m.n = 2 ∧ b.size = m.n ∧ b.val 0 ≠ 0 ∧ ∀ i, i < m.n → isZero (1 / 1000) (m.at' i i) = false :=
  ⟨⟨2, fun _ _ => 2⟩, ⟨2, fun _ => 1⟩, rfl, rfl, by decide, fun i _ => by unfold isZero; norm_num⟩

end Dal
