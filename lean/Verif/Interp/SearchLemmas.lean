import Verif.Interp.LinearModel

/-!
# The halving search

A lemma for the files that use `LowerBound` and `UpperBound`.
-/

namespace Dal.Interp

theorem search_ok (before : Nat → Bool) : ∀ fuel first len, len ≤ fuel →
    (∀ i j, i ≤ j → j < first + len → before j = true → before i = true) → (∀ i, i < first → before i = true) →
    (∀ i, i < search before fuel first len → before i = true) ∧ first ≤ search before fuel first len ∧
      search before fuel first len ≤ first + len ∧
      (search before fuel first len < first + len → before (search before fuel first len) = false) := by
  intro fuel
  induction fuel with
  | zero =>
    intro first len hl _ hb
    obtain rfl : len = 0 := by omega
    rw [search]
    exact ⟨hb, by omega, by omega, fun h => by omega⟩
  | succ fuel ih =>
    intro first len hl hm hb
    cases len with
    | zero =>
      have he : search before (fuel + 1) first 0 = first := by rw [search]; intro h; omega
      rw [he]
      exact ⟨hb, by omega, by omega, fun h => by omega⟩
    | succ len =>
      rw [search]
      · by_cases h : before (first + (len + 1) / 2) = true
        · rw [if_pos h]
          obtain ⟨h1, h2, h3, h4⟩ := ih (first + (len + 1) / 2 + 1) (len + 1 - (len + 1) / 2 - 1) (by omega)
            (fun i j hij hj => hm i j hij (by omega)) (fun i hi => hm i (first + (len + 1) / 2) (by omega) (by omega) h)
          exact ⟨h1, by omega, by omega, fun hlt => h4 (by omega)⟩
        · rw [if_neg h]
          obtain ⟨h1, h2, h3, h4⟩ := ih first ((len + 1) / 2) (by omega) (fun i j hij hj => hm i j hij (by omega)) hb
          refine ⟨h1, by omega, by omega, fun _ => ?_⟩
          by_cases he : search before fuel first ((len + 1) / 2) = first + (len + 1) / 2
          · rw [he]; exact Bool.eq_false_iff.2 h
          · exact h4 (by omega)
      · intro h; omega

theorem search_le (before : Nat → Bool) : ∀ fuel first len, search before fuel first len ≤ first + len := by
  intro fuel
  induction fuel with
  | zero => intro first len; rw [search]; omega
  | succ fuel ih =>
    intro first len
    cases len with
    | zero => rw [search]; omega; intro h; omega
    | succ len =>
      rw [search]
      · split_ifs with h
        · have := ih (first + (len + 1) / 2 + 1) (len + 1 - (len + 1) / 2 - 1); omega
        · have := ih first ((len + 1) / 2); omega
      · intro h; omega

variable {K : Type} [Field K] [LinearOrder K]

theorem lowerBound_le (x : Nat → K) (n : Nat) (x0 : K) : lowerBound x n x0 ≤ n := by
  have := search_le (fun i => decide (x i < x0)) n 0 n
  rwa [Nat.zero_add] at this

/-- In an increasing vector the search finds the place with smaller elements before it and no smaller one at it. -/
theorem lowerBound_eq {x : Nat → K} {n : Nat} (hm : ∀ i j, i ≤ j → j < n → x i ≤ x j) {x0 : K} {k : Nat} (hk : k ≤ n) (h1 : ∀ i, i < k → x i < x0)
    (h2 : k < n → ¬ x k < x0) : lowerBound x n x0 = k := by
  obtain ⟨a, _, c, d⟩ := search_ok (fun i => decide (x i < x0)) n 0 n (Nat.le_refl n)
    (fun i j hij hj hb => by
      rw [decide_eq_true_eq] at hb ⊢
      exact lt_of_le_of_lt (hm i j hij (by omega)) hb) (fun i hi => by omega)
  rw [Nat.zero_add] at c d
  change lowerBound x n x0 ≤ n at c
  change lowerBound x n x0 < n → _ at d
  change ∀ i, i < lowerBound x n x0 → _ at a
  rcases Nat.lt_trichotomy (lowerBound x n x0) k with h | h | h
  · have := d (by omega)
    have h3 := h1 _ h
    exact absurd (decide_eq_true h3) (by rw [show decide (x (lowerBound x n x0) < x0) = false from this]; decide)
  · exact h
  · have := a k h
    rw [decide_eq_true_eq] at this
    exact absurd this (h2 (by omega))

end Dal.Interp
