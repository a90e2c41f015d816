import Verif.Interp.LinearModel
import Mathlib.Tactic.Linarith
import Mathlib.Tactic.FieldSimp
import Mathlib.Tactic.NormNum
import Mathlib.Tactic.Positivity

/-!
# C48: linear interpolation

Specification: values at the nodes, and bounds by the values of the neighbouring nodes.
-/

namespace Dal

open Dal.Interp

variable {K : Type} [Field K] [LinearOrder K] [IsStrictOrderedRing K]

/-! ### The searches -/

private theorem search_ok (before : Nat → Bool) : ∀ fuel first len, len ≤ fuel →
    (∀ i j, i ≤ j → j < first + len → before j = true → before i = true) → (∀ i, i < first → before i = true) →
    (∀ i, i < search before fuel first len → before i = true) ∧ first ≤ search before fuel first len ∧
      search before fuel first len ≤ first + len ∧
      (search before fuel first len < first + len → before (search before fuel first len) = false) := by
  intro fuel
  induction fuel with
  | zero =>
    intro first len hl _ hb
    obtain rfl : len = 0 := by omega
    rw [search]
    exact ⟨hb, by omega, by omega, fun h => by omega⟩
  | succ fuel ih =>
    intro first len hl hm hb
    cases len with
    | zero =>
      have he : search before (fuel + 1) first 0 = first := by rw [search]; intro h; omega
      rw [he]
      exact ⟨hb, by omega, by omega, fun h => by omega⟩
    | succ len =>
      rw [search]
      · by_cases h : before (first + (len + 1) / 2) = true
        · rw [if_pos h]
          obtain ⟨h1, h2, h3, h4⟩ := ih (first + (len + 1) / 2 + 1) (len + 1 - (len + 1) / 2 - 1) (by omega)
            (fun i j hij hj => hm i j hij (by omega)) (fun i hi => hm i (first + (len + 1) / 2) (by omega) (by omega) h)
          exact ⟨h1, by omega, by omega, fun hlt => h4 (by omega)⟩
        · rw [if_neg h]
          obtain ⟨h1, h2, h3, h4⟩ := ih first ((len + 1) / 2) (by omega) (fun i j hij hj => hm i j hij (by omega)) hb
          refine ⟨h1, by omega, by omega, fun _ => ?_⟩
          by_cases he : search before fuel first ((len + 1) / 2) = first + (len + 1) / 2
          · rw [he]; exact Bool.eq_false_iff.2 h
          · exact h4 (by omega)
      · intro h; omega

private theorem mono_of {x : Nat → K} {n : Nat} (h : isMonotonic x n = true) : ∀ i j, i ≤ j → j < n → x i ≤ x j := by
  have hs : ∀ i, i + 1 < n → x i ≤ x (i + 1) := by
    intro i hi
    unfold isMonotonic at h
    rw [List.all_eq_true] at h
    exact of_decide_eq_true (h i (List.mem_range.2 (by omega)))
  intro i j hij
  induction j with
  | zero => intro _; obtain rfl : i = 0 := by omega
            exact le_refl _
  | succ j ih =>
    intro hj
    by_cases he : i = j + 1
    · rw [he]
    · exact le_trans (ih (by omega) (by omega)) (hs j hj)

/-- C48: the test of the constructor accepts exactly the vectors in increasing order, equal neighbours allowed. -/
theorem C48_accepted (n m : Nat) (x f : Nat → K) :
    newLinear n m x f = some ⟨n, x, f⟩ ∧ n = m ∧ (∀ i j, i ≤ j → j < n → x i ≤ x j) ∨
    newLinear n m x f = none ∧ ¬ (n = m ∧ ∀ i j, i ≤ j → j < n → x i ≤ x j) := by
  by_cases h : n = m ∧ isMonotonic x n = true
  · exact Or.inl ⟨by unfold newLinear; rw [if_pos h], h.1, mono_of h.2⟩
  · refine Or.inr ⟨by unfold newLinear; rw [if_neg h], fun hc => h ⟨hc.1, ?_⟩⟩
    unfold isMonotonic
    rw [List.all_eq_true]
    intro i hi
    have := List.mem_range.1 hi
    exact decide_eq_true (hc.2 i (i + 1) (by omega) (by omega))

private theorem lower_ok {x : Nat → K} {n : Nat} (hm : ∀ i j, i ≤ j → j < n → x i ≤ x j) (x0 : K) :
    (∀ i, i < lowerBound x n x0 → x i < x0) ∧ lowerBound x n x0 ≤ n ∧ (∀ i, lowerBound x n x0 ≤ i → i < n → x0 ≤ x i) := by
  obtain ⟨h1, _, h3, h4⟩ := search_ok (fun i => decide (x i < x0)) n 0 n (Nat.le_refl _)
    (fun i j hij hj hb => decide_eq_true (lt_of_le_of_lt (hm i j hij (by omega)) (of_decide_eq_true hb))) (fun i hi => by omega)
  refine ⟨fun i hi => of_decide_eq_true (h1 i hi), by unfold lowerBound; omega, fun i hi hin => ?_⟩
  unfold lowerBound at hi
  exact le_trans (not_lt.1 (of_decide_eq_false (h4 (by omega)))) (hm _ i hi hin)

private theorem upper_ok {x : Nat → K} {n : Nat} (hm : ∀ i j, i ≤ j → j < n → x i ≤ x j) (x0 : K) :
    (∀ i, i < upperBound x n x0 → x i ≤ x0) ∧ upperBound x n x0 ≤ n ∧ (∀ i, upperBound x n x0 ≤ i → i < n → x0 < x i) := by
  obtain ⟨h1, _, h3, h4⟩ := search_ok (fun i => decide (¬ x0 < x i)) n 0 n (Nat.le_refl _)
    (fun i j hij hj hb => decide_eq_true (not_lt.2 (le_trans (hm i j hij (by omega)) (not_lt.1 (of_decide_eq_true hb))))) (fun i hi => by omega)
  refine ⟨fun i hi => not_lt.1 (of_decide_eq_true (h1 i hi)), by unfold upperBound; omega, fun i hi hin => ?_⟩
  unfold upperBound at hi
  exact lt_of_lt_of_le (not_not.1 (of_decide_eq_false (h4 (by omega)))) (hm _ i hi hin)

private theorem lower_eq {x : Nat → K} {n : Nat} (hm : ∀ i j, i ≤ j → j < n → x i ≤ x j) {x0 : K} {k : Nat} (hk : k ≤ n)
    (h1 : ∀ i, i < k → x i < x0) (h2 : k < n → x0 ≤ x k) : lowerBound x n x0 = k := by
  obtain ⟨g1, g2, g3⟩ := lower_ok hm x0
  rcases Nat.lt_trichotomy (lowerBound x n x0) k with h | h | h
  · exact absurd (h1 _ h) (not_lt.2 (g3 _ (Nat.le_refl _) (by omega)))
  · exact h
  · exact absurd (g1 k h) (not_lt.2 (h2 (by omega)))

/-! ### One dimension -/

variable {eps : K}

/-- C48: a node that is the first of those at its place gets its value. -/
theorem C48_nodes (heps : 0 < eps) {n m : Nat} {x f : Nat → K} {p : Linear K} (hp : newLinear n m x f = some p) (i : Nat) (hi : i < n)
    (hfirst : ∀ j, j < i → x j < x i) : p.eval eps (x i) = some (f i) := by
  rcases C48_accepted n m x f with ⟨h, _, hm⟩ | ⟨h, _⟩
  · rw [h] at hp
    cases hp
    unfold Linear.eval linear
    dsimp only
    rw [lower_eq hm (by omega) hfirst (fun _ => le_refl _), if_neg (by omega), if_pos]
    right
    unfold isZero
    rw [sub_self, neg_zero]
    exact decide_eq_true ⟨heps, heps⟩
  · rw [h] at hp; cases hp

private theorem cell {n : Nat} {x f : Nat → K} (hm : ∀ i j, i ≤ j → j < n → x i ≤ x j) {k : Nat} (hk : k + 1 < n) {x0 : K} (h1 : x k < x0) (h2 : x0 ≤ x (k + 1)) :
    linear eps n x f x0 = if isZero eps (x0 - x (k + 1)) then some (f (k + 1))
      else some (f k + (x0 - x k) / (x (k + 1) - x k) * (f (k + 1) - f k)) := by
  unfold linear
  dsimp only
  rw [lower_eq hm (k := k + 1) (by omega) (fun i hi => lt_of_le_of_lt (hm i k (by omega) (by omega)) h1) (fun _ => h2), if_neg (by omega),
    Nat.add_sub_cancel]
  by_cases hz : isZero eps (x0 - x (k + 1)) = true
  · rw [if_pos (Or.inr hz), if_pos hz]
  · rw [if_neg (fun h => h.elim (by omega) hz), if_neg hz]

private theorem frac {a b c : K} (h1 : a < c) (h2 : c ≤ b) : 0 < (c - a) / (b - a) ∧ (c - a) / (b - a) ≤ 1 := by
  have hab : 0 < b - a := by linarith
  exact ⟨div_pos (by linarith) hab, (div_le_one hab).2 (by linarith)⟩

/-- C48: between two neighbouring nodes the value is on the line through them, unless the right node is within the tolerance, where it is
the value there. -/
theorem C48_line {n m : Nat} {x f : Nat → K} {p : Linear K} (hp : newLinear n m x f = some p) (k : Nat) (hk : k + 1 < n) (x0 : K)
    (h1 : x k < x0) (h2 : x0 ≤ x (k + 1)) : ∃ v, p.eval eps x0 = some v ∧
      ((v - f k) * (x (k + 1) - x k) = (x0 - x k) * (f (k + 1) - f k) ∨ x (k + 1) - x0 < eps ∧ v = f (k + 1)) := by
  rcases C48_accepted n m x f with ⟨h, _, hm⟩ | ⟨h, _⟩
  · rw [h] at hp
    cases hp
    unfold Linear.eval
    dsimp only
    rw [cell hm hk h1 h2]
    split
    · rename_i hz
      have := (of_decide_eq_true hz).2
      exact ⟨_, rfl, Or.inr ⟨by linarith, rfl⟩⟩
    · have : x (k + 1) - x k ≠ 0 := by
        have : x k < x (k + 1) := lt_of_lt_of_le h1 h2
        exact (sub_pos.2 this).ne'
      refine ⟨_, rfl, Or.inl ?_⟩
      field_simp
      ring
  · rw [h] at hp; cases hp

/-- C48: between two neighbouring nodes the value is between theirs. -/
theorem C48_between {n m : Nat} {x f : Nat → K} {p : Linear K} (hp : newLinear n m x f = some p) (k : Nat) (hk : k + 1 < n) (x0 : K)
    (h1 : x k < x0) (h2 : x0 ≤ x (k + 1)) : ∃ v, p.eval eps x0 = some v ∧ min (f k) (f (k + 1)) ≤ v ∧ v ≤ max (f k) (f (k + 1)) := by
  rcases C48_accepted n m x f with ⟨h, _, hm⟩ | ⟨h, _⟩
  · rw [h] at hp
    cases hp
    unfold Linear.eval
    dsimp only
    rw [cell hm hk h1 h2]
    split
    · exact ⟨_, rfl, min_le_right _ _, le_max_right _ _⟩
    · obtain ⟨g1, g2⟩ := frac h1 h2
      refine ⟨_, rfl, ?_, ?_⟩
      · rcases le_total (f k) (f (k + 1)) with h | h
        · rw [min_eq_left h]; nlinarith
        · rw [min_eq_right h]; nlinarith
      · rcases le_total (f k) (f (k + 1)) with h | h
        · rw [max_eq_right h]; nlinarith
        · rw [max_eq_left h]; nlinarith
  · rw [h] at hp; cases hp

/-- C48: left of the nodes the value is the first, right of them the last. -/
theorem C48_flat {n m : Nat} {x f : Nat → K} {p : Linear K} (hp : newLinear n m x f = some p) (hn : 0 < n) (x0 : K) :
    (x0 ≤ x 0 → p.eval eps x0 = some (f 0)) ∧ (x (n - 1) < x0 → p.eval eps x0 = some (f (n - 1))) := by
  rcases C48_accepted n m x f with ⟨h, _, hm⟩ | ⟨h, _⟩
  · rw [h] at hp
    cases hp
    unfold Linear.eval linear
    dsimp only
    constructor
    · intro h0
      rw [lower_eq hm (k := 0) (by omega) (fun i hi => by omega) (fun _ => h0), if_neg (by omega), if_pos (Or.inl rfl)]
    · intro h0
      rw [lower_eq hm (k := n) (Nat.le_refl _) (fun i hi => lt_of_le_of_lt (hm i (n - 1) (by omega) (by omega)) h0) (fun h => by omega), if_pos rfl,
        if_neg (by omega)]
  · rw [h] at hp; cases hp

private theorem place {n : Nat} {x : Nat → K} (hm : ∀ i j, i ≤ j → j < n → x i ≤ x j) (hn : 0 < n) (x0 : K) :
    x0 ≤ x 0 ∨ x (n - 1) < x0 ∨ ∃ k, k + 1 < n ∧ x k < x0 ∧ x0 ≤ x (k + 1) := by
  obtain ⟨h1, h2, h3⟩ := lower_ok hm x0
  by_cases h0 : lowerBound x n x0 = 0
  · exact Or.inl (h3 0 (by omega) hn)
  · by_cases hl : lowerBound x n x0 = n
    · exact Or.inr (Or.inl (h1 (n - 1) (by omega)))
    · exact Or.inr (Or.inr ⟨lowerBound x n x0 - 1, by omega, h1 _ (by omega), h3 _ (by omega) (by omega)⟩)

/-- C48: where the values at the nodes increase, so does the interpolant. -/
theorem C48_monotone {n m : Nat} {x f : Nat → K} {p : Linear K} (hp : newLinear n m x f = some p) (hn : 0 < n)
    (hf : ∀ i j, i ≤ j → j < n → f i ≤ f j) (a b : K) (hab : a ≤ b) : ∃ va vb, p.eval eps a = some va ∧ p.eval eps b = some vb ∧ va ≤ vb := by
  have hacc := C48_accepted n m x f
  rcases hacc with ⟨h, _, hm⟩ | ⟨h, _⟩
  swap
  · rw [h] at hp; cases hp
  have hlow : ∀ c, ∃ v, p.eval eps c = some v ∧ f 0 ≤ v ∧ v ≤ f (n - 1) := by
    intro c
    rcases place hm hn c with h0 | h0 | ⟨k, hk, h1, h2⟩
    · exact ⟨_, (C48_flat hp hn c).1 h0, le_refl _, hf 0 (n - 1) (by omega) (by omega)⟩
    · exact ⟨_, (C48_flat hp hn c).2 h0, hf 0 (n - 1) (by omega) (by omega), le_refl _⟩
    · obtain ⟨v, hv, h3, h4⟩ := C48_between (eps := eps) hp k hk c h1 h2
      rw [min_eq_left (hf k (k + 1) (by omega) hk)] at h3
      rw [max_eq_right (hf k (k + 1) (by omega) hk)] at h4
      exact ⟨v, hv, le_trans (hf 0 k (by omega) (by omega)) h3, le_trans h4 (hf (k + 1) (n - 1) (by omega) (by omega))⟩
  rcases place hm hn a with h0 | h0 | ⟨k, hk, h1, h2⟩
  · obtain ⟨v, hv, h3, _⟩ := hlow b
    exact ⟨_, v, (C48_flat hp hn a).1 h0, hv, h3⟩
  · exact ⟨_, _, (C48_flat hp hn a).2 h0, (C48_flat hp hn b).2 (lt_of_lt_of_le h0 hab), le_refl _⟩
  rcases place hm hn b with g0 | g0 | ⟨l, hl, g1, g2⟩
  · exact absurd (lt_of_le_of_lt (hm 0 k (by omega) (by omega)) h1) (not_lt.2 (le_trans hab g0))
  · obtain ⟨v, hv, _, h4⟩ := hlow a
    exact ⟨v, _, hv, (C48_flat hp hn b).2 g0, h4⟩
  by_cases hkl : k = l
  · subst hkl
    rw [h] at hp
    cases hp
    unfold Linear.eval
    dsimp only
    rw [cell hm hk h1 h2, cell hm hk g1 g2]
    have hfk := hf k (k + 1) (by omega) hk
    obtain ⟨q1, q2⟩ := frac h1 h2
    obtain ⟨r1, r2⟩ := frac g1 g2
    by_cases hza : isZero eps (a - x (k + 1)) = true
    · have hzb : isZero eps (b - x (k + 1)) = true := by
        have := of_decide_eq_true hza
        exact decide_eq_true ⟨by linarith [this.1, this.2], by linarith [this.2]⟩
      rw [if_pos hza, if_pos hzb]
      exact ⟨_, _, rfl, rfl, le_refl _⟩
    · rw [if_neg hza]
      by_cases hzb : isZero eps (b - x (k + 1)) = true
      · rw [if_pos hzb]
        exact ⟨_, _, rfl, rfl, by nlinarith⟩
      · rw [if_neg hzb]
        refine ⟨_, _, rfl, rfl, ?_⟩
        have : (a - x k) / (x (k + 1) - x k) ≤ (b - x k) / (x (k + 1) - x k) := by
          have : 0 < x (k + 1) - x k := by linarith
          exact div_le_div_of_nonneg_right (by linarith) this.le
        nlinarith
  · obtain ⟨v, hv, _, h4⟩ := C48_between (eps := eps) hp k hk a h1 h2
    obtain ⟨w, hw, g3, _⟩ := C48_between (eps := eps) hp l hl b g1 g2
    rw [max_eq_right (hf k (k + 1) (by omega) hk)] at h4
    rw [min_eq_left (hf l (l + 1) (by omega) hl)] at g3
    refine ⟨v, w, hv, hw, le_trans h4 (le_trans (hf (k + 1) l ?_ (by omega)) g3)⟩
    by_contra hc
    exact absurd (le_trans (le_trans hab g2) (hm (l + 1) k (by omega) (by omega))) (not_le.2 h1)

/-- C48: where the values at the nodes decrease, so does the interpolant. -/
theorem C48_antitone {n m : Nat} {x f : Nat → K} {p : Linear K} (hp : newLinear n m x f = some p) (hn : 0 < n)
    (hf : ∀ i j, i ≤ j → j < n → f j ≤ f i) (a b : K) (hab : a ≤ b) : ∃ va vb, p.eval eps a = some va ∧ p.eval eps b = some vb ∧ vb ≤ va := by
  have hneg : ∀ c v, linear eps n x (fun i => - f i) c = some v → linear eps n x f c = some (-v) := by
    intro c v hv
    unfold linear at hv ⊢
    dsimp only at hv ⊢
    split at hv
    · rename_i hpge
      rw [if_pos hpge]
      split at hv
      · cases hv
      · rename_i hn0
        rw [if_neg hn0]; cases hv; rw [neg_neg]
    · rename_i hpge
      rw [if_neg hpge]
      split at hv
      · rename_i hz
        rw [if_pos hz]; cases hv; rw [neg_neg]
      · rename_i hz
        rw [if_neg hz]; cases hv; congr 1; ring
  rcases C48_accepted n m x f with ⟨h, hnm, hm⟩ | ⟨h, _⟩
  swap
  · rw [h] at hp; cases hp
  rw [h] at hp
  cases hp
  rcases C48_accepted n m x (fun i => -f i) with ⟨h', _, _⟩ | ⟨_, h'⟩
  swap
  · exact absurd ⟨hnm, hm⟩ h'
  obtain ⟨va, vb, h1, h2, h3⟩ := C48_monotone (eps := eps) h' hn (fun i j hij hj => neg_le_neg (hf i j hij hj)) a b hab
  exact ⟨_, _, hneg _ _ h1, hneg _ _ h2, neg_le_neg h3⟩

/-- C48, not so: of two nodes at the same place, which the constructor accepts, the second is not reproduced. -/
theorem C48_repeated_violated : ∃ p : Linear ℚ, newLinear 2 2 (fun _ => 0) (fun i => (i : ℚ)) = some p ∧ p.eval (1 / 10) (p.x 1) ≠ some (p.f 1) :=
  ⟨⟨2, fun _ => 0, fun i => (i : ℚ)⟩, rfl, by decide +kernel⟩

/-- C48, not so: the constructor accepts no data at all, and any evaluation then reads outside the vectors. -/
theorem C48_empty_violated (x f : Nat → K) (x0 : K) : newLinear 0 0 x f = some ⟨0, x, f⟩ ∧ (⟨0, x, f⟩ : Linear K).eval eps x0 = none :=
  ⟨rfl, rfl⟩

/-! ### Two dimensions -/

private theorem linear_total {n : Nat} {x f : Nat → K} (hm : ∀ i j, i ≤ j → j < n → x i ≤ x j) (hn : 0 < n) (x0 : K) : ∃ v, linear eps n x f x0 = some v := by
  unfold linear
  dsimp only
  split
  · rw [if_neg (by omega)]; exact ⟨_, rfl⟩
  · split <;> exact ⟨_, rfl⟩

/-- C48: in two dimensions, a node that is the last of the rows and the first of the columns at its place gets its value. -/
theorem C48_nodes2 (heps : 0 < eps) {n m r c : Nat} {x y : Nat → K} {f : Nat → Nat → K} {p : Linear2 K} (hp : newLinear2 n m r c x y f = some p)
    (i j : Nat) (hi : i < n) (hj : j < m) (hlast : ∀ k, i < k → k < n → x i < x k) (hfirst : ∀ k, k < j → y k < y j) :
    p.eval eps (x i) (y j) = some (f i j) := by
  unfold newLinear2 at hp
  split at hp
  swap
  · cases hp
  rename_i hc
  cases hp
  have hx := mono_of hc.2.1
  have hrow : ∀ g : Nat → K, linear eps m y g (y j) = some (g j) := fun g =>
    C48_nodes heps (n := m) (m := m) (p := ⟨m, y, g⟩) (by unfold newLinear; rw [if_pos ⟨rfl, hc.2.2⟩]) j hj hfirst
  obtain ⟨h1, h2, h3⟩ := upper_ok hx (x i)
  have hu : upperBound x n (x i) = i + 1 := by
    rcases Nat.lt_trichotomy (upperBound x n (x i)) (i + 1) with h | h | h
    · exact absurd (h3 i (by omega) hi) (lt_irrefl _)
    · exact h
    · exact absurd (h1 (i + 1) h) (not_le.2 (hlast (i + 1) (by omega) (by omega)))
  unfold Linear2.eval linear2
  dsimp only
  rw [hu, Nat.add_sub_cancel, hrow]
  by_cases hn : i + 1 = n
  · rw [if_pos hn, if_neg (by omega)]
  · rw [if_neg hn, if_neg (by omega), hrow, Option.bind_some, Option.bind_some, sub_self, zero_div, mul_zero, add_zero]

/-- C48: in two dimensions, a value in a cell is between bounds of the values at its four corners. -/
theorem C48_between2 {n m r c : Nat} {x y : Nat → K} {f : Nat → Nat → K} {p : Linear2 K} (hp : newLinear2 n m r c x y f = some p)
    (k l : Nat) (hk : k + 1 < n) (hl : l + 1 < m) (x0 y0 lo hi : K) (h1 : x k ≤ x0) (h2 : x0 < x (k + 1)) (g1 : y l < y0) (g2 : y0 ≤ y (l + 1))
    (hb : ∀ i j, (i = k ∨ i = k + 1) → (j = l ∨ j = l + 1) → lo ≤ f i j ∧ f i j ≤ hi) :
    ∃ v, p.eval eps x0 y0 = some v ∧ lo ≤ v ∧ v ≤ hi := by
  unfold newLinear2 at hp
  split at hp
  swap
  · cases hp
  rename_i hc
  cases hp
  have hx := mono_of hc.2.1
  have hrow : ∀ i, (i = k ∨ i = k + 1) → ∃ v, linear eps m y (f i) y0 = some v ∧ lo ≤ v ∧ v ≤ hi := by
    intro i hi'
    obtain ⟨v, hv, h3, h4⟩ := C48_between (eps := eps) (n := m) (m := m) (p := ⟨m, y, f i⟩) (by unfold newLinear; rw [if_pos ⟨rfl, hc.2.2⟩]) l hl y0 g1 g2
    exact ⟨v, hv, le_trans (le_min (hb i l hi' (Or.inl rfl)).1 (hb i (l + 1) hi' (Or.inr rfl)).1) h3,
      le_trans h4 (max_le (hb i l hi' (Or.inl rfl)).2 (hb i (l + 1) hi' (Or.inr rfl)).2)⟩
  obtain ⟨q1, q2, q3⟩ := upper_ok hx x0
  have hu : upperBound x n x0 = k + 1 := by
    rcases Nat.lt_trichotomy (upperBound x n x0) (k + 1) with h | h | h
    · exact absurd (q3 k (by omega) (by omega)) (not_lt.2 h1)
    · exact h
    · exact absurd (q1 (k + 1) h) (not_le.2 h2)
  obtain ⟨z1, e1, a1, b1⟩ := hrow k (Or.inl rfl)
  obtain ⟨z2, e2, a2, b2⟩ := hrow (k + 1) (Or.inr rfl)
  unfold Linear2.eval linear2
  dsimp only
  rw [hu, Nat.add_sub_cancel, if_neg (by omega), if_neg (by omega), e1, e2, Option.bind_some, Option.bind_some]
  have hd : 0 < x (k + 1) - x k := by linarith
  have t1 : 0 ≤ (x0 - x k) / (x (k + 1) - x k) := div_nonneg (by linarith) hd.le
  have t2 : (x0 - x k) / (x (k + 1) - x k) ≤ 1 := (div_le_one hd).2 (by linarith)
  refine ⟨_, rfl, ?_, ?_⟩ <;> nlinarith

/-- C48: in two dimensions, beyond the rows the value is that of the nearest row, which is flat beyond the columns. -/
theorem C48_flat2 {n m r c : Nat} {x y : Nat → K} {f : Nat → Nat → K} {p : Linear2 K} (hp : newLinear2 n m r c x y f = some p) (hn : 0 < n) (hm : 0 < m) (x0 y0 : K) :
    (x0 < x 0 → y0 ≤ y 0 → p.eval eps x0 y0 = some (f 0 0)) ∧ (x0 < x 0 → y (m - 1) < y0 → p.eval eps x0 y0 = some (f 0 (m - 1))) ∧
    (x (n - 1) ≤ x0 → y0 ≤ y 0 → p.eval eps x0 y0 = some (f (n - 1) 0)) ∧
    (x (n - 1) ≤ x0 → y (m - 1) < y0 → p.eval eps x0 y0 = some (f (n - 1) (m - 1))) := by
  unfold newLinear2 at hp
  split at hp
  swap
  · cases hp
  rename_i hc
  cases hp
  have hx := mono_of hc.2.1
  have hrow := fun g : Nat → K => C48_flat (eps := eps) (n := m) (m := m) (p := ⟨m, y, g⟩) (f := g) (by unfold newLinear; rw [if_pos ⟨rfl, hc.2.2⟩]) hm y0
  obtain ⟨q1, q2, q3⟩ := upper_ok hx x0
  have hu0 : x0 < x 0 → upperBound x n x0 = 0 := by
    intro h
    by_contra hne
    exact absurd (q1 0 (by omega)) (not_le.2 h)
  have hun : x (n - 1) ≤ x0 → upperBound x n x0 = n := by
    intro h
    by_contra hne
    exact absurd (q3 (n - 1) (by omega) (by omega)) (not_lt.2 h)
  unfold Linear2.eval linear2
  dsimp only
  refine ⟨fun h h' => ?_, fun h h' => ?_, fun h h' => ?_, fun h h' => ?_⟩
  · rw [hu0 h, if_neg (by omega), if_pos rfl]; exact (hrow _).1 h'
  · rw [hu0 h, if_neg (by omega), if_pos rfl]; exact (hrow _).2 h'
  · rw [hun h, if_pos rfl, if_neg (by omega)]; exact (hrow _).1 h'
  · rw [hun h, if_pos rfl, if_neg (by omega)]; exact (hrow _).2 h'

private theorem upper_eq {x : Nat → K} {n : Nat} (hm : ∀ i j, i ≤ j → j < n → x i ≤ x j) {x0 : K} {k : Nat} (hk : k + 1 < n) (h1 : x k ≤ x0) (h2 : x0 < x (k + 1)) :
    upperBound x n x0 = k + 1 := by
  obtain ⟨q1, q2, q3⟩ := upper_ok hm x0
  rcases Nat.lt_trichotomy (upperBound x n x0) (k + 1) with h | h | h
  · exact absurd (q3 k (by omega) (by omega)) (not_lt.2 h1)
  · exact h
  · exact absurd (q1 (k + 1) h) (not_le.2 h2)

/-- C48: in a cell the interpolant is the bilinear one, unless the right node of `y` is within the tolerance. -/
theorem C48_bilinear {n m r c : Nat} {x y : Nat → K} {f : Nat → Nat → K} {p : Linear2 K} (hp : newLinear2 n m r c x y f = some p)
    (k l : Nat) (hk : k + 1 < n) (hl : l + 1 < m) (x0 y0 : K) (h1 : x k ≤ x0) (h2 : x0 < x (k + 1)) (g1 : y l < y0) (g2 : y0 + eps ≤ y (l + 1)) (heps : 0 ≤ eps) :
    ∃ v, p.eval eps x0 y0 = some v ∧ v * ((x (k + 1) - x k) * (y (l + 1) - y l)) =
      f k l * ((x (k + 1) - x0) * (y (l + 1) - y0)) + f (k + 1) l * ((x0 - x k) * (y (l + 1) - y0)) +
      f k (l + 1) * ((x (k + 1) - x0) * (y0 - y l)) + f (k + 1) (l + 1) * ((x0 - x k) * (y0 - y l)) := by
  unfold newLinear2 at hp
  split at hp
  swap
  · cases hp
  rename_i hc
  cases hp
  have hz : ¬ isZero eps (y0 - y (l + 1)) = true := fun hz => by
    have := (of_decide_eq_true hz).2
    linarith
  have hrow : ∀ i, linear eps m y (f i) y0 = some (f i l + (y0 - y l) / (y (l + 1) - y l) * (f i (l + 1) - f i l)) := fun i => by
    rw [cell (mono_of hc.2.2) hl g1 (by linarith), if_neg hz]
  unfold Linear2.eval linear2
  dsimp only
  rw [upper_eq (mono_of hc.2.1) hk h1 h2, Nat.add_sub_cancel, if_neg (by omega), if_neg (by omega), hrow, hrow, Option.bind_some, Option.bind_some]
  refine ⟨_, rfl, ?_⟩
  have hx : x (k + 1) - x k ≠ 0 := (sub_pos.2 (lt_of_le_of_lt h1 h2)).ne'
  have hy : y (l + 1) - y l ≠ 0 := (sub_pos.2 (by linarith)).ne'
  field_simp
  ring

/-- The value of a row is monotone in the values at the nodes. -/
private theorem linear_mono {m : Nat} {y f g : Nat → K} (hm : ∀ i j, i ≤ j → j < m → y i ≤ y j) (hpos : 0 < m) (hfg : ∀ j, j < m → f j ≤ g j) (y0 : K) :
    ∃ v w, linear eps m y f y0 = some v ∧ linear eps m y g y0 = some w ∧ v ≤ w := by
  obtain ⟨q1, q2, q3⟩ := lower_ok hm y0
  unfold linear
  dsimp only
  by_cases h : lowerBound y m y0 = m
  · rw [if_pos h, if_pos h, if_neg (by omega), if_neg (by omega)]
    exact ⟨_, _, rfl, rfl, hfg _ (by omega)⟩
  · rw [if_neg h, if_neg h]
    by_cases h' : lowerBound y m y0 = 0 ∨ isZero eps (y0 - y (lowerBound y m y0)) = true
    · rw [if_pos h', if_pos h']
      exact ⟨_, _, rfl, rfl, hfg _ (by omega)⟩
    · rw [if_neg h', if_neg h']
      have hne : lowerBound y m y0 ≠ 0 := fun e => h' (Or.inl e)
      obtain ⟨t1, t2⟩ := frac (q1 (lowerBound y m y0 - 1) (by omega)) (q3 (lowerBound y m y0) le_rfl (by omega))
      have e : lowerBound y m y0 - 1 + 1 = lowerBound y m y0 := by omega
      refine ⟨_, _, rfl, rfl, ?_⟩
      rw [e]
      have a1 := hfg (lowerBound y m y0 - 1) (by omega)
      have a2 := hfg (lowerBound y m y0) (by omega)
      nlinarith

/-- C48: in two dimensions, where the values at the nodes increase along the rows' direction, so does the interpolant. -/
theorem C48_monotone2_x {n m r c : Nat} {x y : Nat → K} {f : Nat → Nat → K} {p : Linear2 K} (hp : newLinear2 n m r c x y f = some p) (hn : 0 < n) (hm : 0 < m)
    (hf : ∀ i i' j, i ≤ i' → i' < n → j < m → f i j ≤ f i' j) (a b y0 : K) (hab : a ≤ b) : ∃ va vb, p.eval eps a y0 = some va ∧ p.eval eps b y0 = some vb ∧ va ≤ vb := by
  unfold newLinear2 at hp
  split at hp
  swap
  · cases hp
  rename_i hc
  cases hp
  have hx := mono_of hc.2.1
  have hy := mono_of hc.2.2
  have htot : ∀ i, ∃ v, linear eps m y (f i) y0 = some v := fun i => linear_total hy hm y0
  choose g hg using htot
  have hmono : ∀ i i', i ≤ i' → i' < n → g i ≤ g i' := by
    intro i i' h1 h2
    obtain ⟨v, w, e1, e2, h⟩ := linear_mono (eps := eps) hy hm (fun j hj => hf i i' j h1 h2 hj) y0
    rw [hg] at e1 e2
    cases e1; cases e2
    exact h
  have heval : ∀ x0, (⟨n, m, x, y, f⟩ : Linear2 K).eval eps x0 y0 = some (if upperBound x n x0 = n then g (n - 1) else if upperBound x n x0 = 0 then g 0
      else g (upperBound x n x0 - 1) + (g (upperBound x n x0) - g (upperBound x n x0 - 1)) * ((x0 - x (upperBound x n x0 - 1)) / (x (upperBound x n x0) - x (upperBound x n x0 - 1)))) := by
    intro x0
    unfold Linear2.eval linear2
    dsimp only
    by_cases h : upperBound x n x0 = n
    · rw [if_pos h, if_neg (by omega), if_pos h, h, hg]
    · rw [if_neg h, if_neg h]
      by_cases h' : upperBound x n x0 = 0
      · rw [if_pos h', if_pos h', hg]
      · rw [if_neg h', if_neg h', hg, hg, Option.bind_some, Option.bind_some]
  rw [heval a, heval b]
  refine ⟨_, _, rfl, rfl, ?_⟩
  obtain ⟨a1, a2, a3⟩ := upper_ok hx a
  obtain ⟨b1, b2, b3⟩ := upper_ok hx b
  have hle : upperBound x n a ≤ upperBound x n b := by
    by_contra hlt
    have := a1 (upperBound x n b) (by omega)
    exact absurd (b3 (upperBound x n b) le_rfl (by omega)) (not_lt.2 (le_trans this hab))
  have bounds : ∀ x0, upperBound x n x0 ≠ n → upperBound x n x0 ≠ 0 →
      0 < x (upperBound x n x0) - x (upperBound x n x0 - 1) ∧ 0 ≤ (x0 - x (upperBound x n x0 - 1)) / (x (upperBound x n x0) - x (upperBound x n x0 - 1)) ∧
      (x0 - x (upperBound x n x0 - 1)) / (x (upperBound x n x0) - x (upperBound x n x0 - 1)) ≤ 1 ∧ g (upperBound x n x0 - 1) ≤ g (upperBound x n x0) := by
    intro x0 h1 h2
    obtain ⟨q1, q2, q3⟩ := upper_ok hx x0
    have e1 := q1 (upperBound x n x0 - 1) (by omega)
    have e2 := q3 (upperBound x n x0) le_rfl (by omega)
    have hd : 0 < x (upperBound x n x0) - x (upperBound x n x0 - 1) := by linarith
    exact ⟨hd, div_nonneg (by linarith) hd.le, (div_le_one hd).2 (by linarith), hmono _ _ (by omega) (by omega)⟩
  by_cases ha : upperBound x n a = n
  · rw [if_pos ha, if_pos (by omega)]
  · rw [if_neg ha]
    by_cases ha0 : upperBound x n a = 0
    · rw [if_pos ha0]
      by_cases hb : upperBound x n b = n
      · rw [if_pos hb]; exact hmono _ _ (by omega) (by omega)
      · rw [if_neg hb]
        by_cases hb0 : upperBound x n b = 0
        · rw [if_pos hb0]
        · rw [if_neg hb0]
          obtain ⟨-, t1, -, t3⟩ := bounds b hb hb0
          have := hmono 0 (upperBound x n b - 1) (by omega) (by omega)
          nlinarith
    · rw [if_neg ha0]
      obtain ⟨d, t1, t2, t3⟩ := bounds a ha ha0
      by_cases hb : upperBound x n b = n
      · rw [if_pos hb]
        have := hmono (upperBound x n a) (n - 1) (by omega) (by omega)
        nlinarith
      · rw [if_neg hb, if_neg (by omega)]
        by_cases hs : upperBound x n a = upperBound x n b
        · rw [← hs]
          have : (a - x (upperBound x n a - 1)) / (x (upperBound x n a) - x (upperBound x n a - 1)) ≤ (b - x (upperBound x n a - 1)) / (x (upperBound x n a) - x (upperBound x n a - 1)) :=
            div_le_div_of_nonneg_right (by linarith) d.le
          nlinarith
        · obtain ⟨-, u1, -, u3⟩ := bounds b hb (by omega)
          have := hmono (upperBound x n a) (upperBound x n b - 1) (by omega) (by omega)
          nlinarith

/-- C48: and along the columns' direction. -/
theorem C48_monotone2_y {n m r c : Nat} {x y : Nat → K} {f : Nat → Nat → K} {p : Linear2 K} (hp : newLinear2 n m r c x y f = some p) (hn : 0 < n) (hm : 0 < m)
    (hf : ∀ i j j', i < n → j ≤ j' → j' < m → f i j ≤ f i j') (x0 a b : K) (hab : a ≤ b) : ∃ va vb, p.eval eps x0 a = some va ∧ p.eval eps x0 b = some vb ∧ va ≤ vb := by
  unfold newLinear2 at hp
  split at hp
  swap
  · cases hp
  rename_i hc
  cases hp
  have hrow : ∀ i, i < n → ∃ va vb, linear eps m y (f i) a = some va ∧ linear eps m y (f i) b = some vb ∧ va ≤ vb := fun i hi =>
    C48_monotone (eps := eps) (n := m) (m := m) (p := ⟨m, y, f i⟩) (by unfold newLinear; rw [if_pos ⟨rfl, hc.2.2⟩]) hm (fun j j' h1 h2 => hf i j j' hi h1 h2) a b hab
  obtain ⟨q1, q2, q3⟩ := upper_ok (mono_of hc.2.1) x0
  unfold Linear2.eval linear2
  dsimp only
  by_cases h : upperBound x n x0 = n
  · rw [if_pos h, if_neg (by omega), if_pos h, if_neg (by omega)]
    exact hrow _ (by omega)
  · rw [if_neg h, if_neg h]
    by_cases h' : upperBound x n x0 = 0
    · rw [if_pos h', if_pos h']
      exact hrow 0 hn
    · rw [if_neg h', if_neg h']
      obtain ⟨v1, w1, e1, e2, e3⟩ := hrow (upperBound x n x0 - 1) (by omega)
      obtain ⟨v2, w2, e4, e5, e6⟩ := hrow (upperBound x n x0) (by omega)
      rw [e1, e2, e4, e5]
      refine ⟨_, _, rfl, rfl, ?_⟩
      have d1 := q1 (upperBound x n x0 - 1) (by omega)
      have d2 := q3 (upperBound x n x0) le_rfl (by omega)
      have hd : 0 < x (upperBound x n x0) - x (upperBound x n x0 - 1) := by linarith
      have t1 : 0 ≤ (x0 - x (upperBound x n x0 - 1)) / (x (upperBound x n x0) - x (upperBound x n x0 - 1)) := div_nonneg (by linarith) hd.le
      have t2 : (x0 - x (upperBound x n x0 - 1)) / (x (upperBound x n x0) - x (upperBound x n x0 - 1)) ≤ 1 := (div_le_one hd).2 (by linarith)
      nlinarith

/-! ### The hypotheses hold -/

example : newLinear 3 3 (fun i => (i : ℚ)) (fun i => (i : ℚ) * i) = some ⟨3, fun i => (i : ℚ), fun i => (i : ℚ) * i⟩ ∧
    (⟨3, fun i => (i : ℚ), fun i => (i : ℚ) * i⟩ : Linear ℚ).eval (1 / 100) (3 / 2) = some (5 / 2) := by
  constructor
  · rfl
  · decide +kernel

example : newLinear2 2 3 2 3 (fun i => (i : ℚ)) (fun i => (i : ℚ)) (fun i j => (i : ℚ) * j) = some ⟨2, 3, fun i => (i : ℚ), fun i => (i : ℚ), fun i j => (i : ℚ) * j⟩ := rfl

example : (⟨2, 3, fun i => (i : ℚ), fun i => (i : ℚ), fun i j => (i : ℚ) * j⟩ : Linear2 ℚ).eval (1 / 100) (1 / 2) (3 / 2) = some (3 / 4) := by decide +kernel

end Dal
