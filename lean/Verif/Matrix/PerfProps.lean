import Verif.Matrix.PerfLemmas
import Mathlib.Tactic.IntervalCases

/-!
# C121: the matrix products of `examples/matrix_perf`

Specification: the elements of matrices as functions of row and column, and sums of products.
-/

namespace Dal
open Dal.Perf
variable {α : Type}

/-- A matrix of some rows and columns whose elements are given by a function. -/
def HasElements (m : Mat α) (r c : Nat) (f : Nat → Nat → α) : Prop :=
  m.rows = r ∧ m.cols = c ∧ m.vec.length = r * c ∧ ∀ i j, i < r → j < c → m.at i j = some (f i j)

private theorem elements_table (m : Mat α) (r c : Nat) (f : Nat → Nat → α) (h : HasElements m r c f) : m = table r c f := by
  obtain ⟨rows, cols, vec⟩ := m
  obtain ⟨rfl, rfl, h3, h4⟩ := h
  dsimp only at h3 h4 ⊢
  rw [table]
  congr 1
  apply List.ext_getElem?
  intro x
  by_cases hx : x < rows * cols
  · have hc : 0 < cols := Nat.pos_of_ne_zero (by rintro rfl; omega)
    have := h4 (x / cols) (x % cols) (Nat.div_lt_of_lt_mul (by rwa [Nat.mul_comm])) (Nat.mod_lt _ hc)
    rw [Mat.at] at this
    dsimp only at this
    rw [Nat.div_add_mod'] at this
    rw [this, List.getElem?_map, List.getElem?_range hx]; rfl
  · rw [List.getElem?_eq_none (by omega), List.getElem?_eq_none (by simpa using hx)]

private theorem table_elements (r c : Nat) (f : Nat → Nat → α) : HasElements (table r c f) r c f :=
  ⟨rfl, rfl, by simp [table], fun _ _ hi hj => table_at r c f hi hj⟩

/-- C121, `MultiV1`: whatever the arithmetic, each element is the sum of products in the order of `k` from zero. -/
theorem C121_V1 (o : Arith α) (r n c : Nat) (a b m : Mat α) (A B C : Nat → Nat → α) (ha : HasElements a r n A) (hb : HasElements b n c B) (hm : HasElements m r c C) :
    ∃ m', multiV1 o a b m = some m' ∧ HasElements m' r c fun i j => (List.range n).foldl (fun s k => o.add s (o.mul (A i k) (B k j))) o.zero := by
  rw [elements_table a r n A ha, elements_table b n c B hb, elements_table m r c C hm]
  exact ⟨_, multiV1_spec o r n c A B C, table_elements r c _⟩

/-- C121, `MultiV3` and `MultiV4`: the products are added to what the result holds, in the same order. -/
theorem C121_V3 (o : Arith α) (r n c : Nat) (a b m : Mat α) (A B C : Nat → Nat → α) (ha : HasElements a r n A) (hb : HasElements b n c B) (hm : HasElements m r c C) :
    ∃ m', multiV3 o a b m = some m' ∧ HasElements m' r c fun i j => (List.range n).foldl (fun s k => o.add s (o.mul (A i k) (B k j))) (C i j) := by
  rw [elements_table a r n A ha, elements_table b n c B hb, elements_table m r c C hm]
  exact ⟨_, multiV3_spec o r n c A B C, table_elements r c _⟩

/-- C121, `MultiV5`: every execution, reads and writes of the rows interleaved in any way, ends with the same result as `MultiV4`, to the last bit. -/
theorem C121_V5 (o : Arith α) (r n c : Nat) (a b m : Mat α) (A B C : Nat → Nat → α) (ha : HasElements a r n A) (hb : HasElements b n c B) (hm : HasElements m r c C) (reg : Nat → α) :
    (∀ steps, Execution r n c steps → multiV5 o a b m reg steps = multiV3 o a b m) ∧ ∃ steps, Execution r n c steps := by
  rw [elements_table a r n A ha, elements_table b n c B hb, elements_table m r c C hm]
  exact ⟨fun steps h => (multiV5_spec o r n c A B C reg steps h).trans (multiV3_spec o r n c A B C).symm, _, sequential n c r⟩

/-- C121: on a cleared result `MultiV1`, `MultiV3`, `MultiV4` and every execution of `MultiV5` give the same, to the last bit; for a square result `MultiV2` too. -/
theorem C121_same_partial (o : Arith α) (r n c : Nat) (a b m : Mat α) (A B C : Nat → Nat → α) (ha : HasElements a r n A) (hb : HasElements b n c B) (hm : HasElements m r c C) (reg : Nat → α)
    (steps : List Step) (h : Execution r n c steps) :
    (∃ m', multiV1 o a b m = some m') ∧ multiV3 o a b (m.clear o) = multiV1 o a b m ∧ multiV5 o a b (m.clear o) reg steps = multiV1 o a b m ∧ (r = c → multiV2 o a b m = multiV1 o a b m) := by
  rw [elements_table a r n A ha, elements_table b n c B hb, elements_table m r c C hm, table_clear, multiV3_spec, multiV5_spec o r n c A B _ reg steps h, multiV1_spec]
  refine ⟨⟨_, rfl⟩, rfl, rfl, ?_⟩
  rintro rfl
  exact multiV2_square o r n A B C

/-- Ordinary arithmetic. -/
def ringArith (R : Type) [CommSemiring R] : Arith R := ⟨(· + ·), (· * ·), 0⟩

private theorem dot_sum {R : Type} [CommSemiring R] (A B : Nat → Nat → R) (i j : Nat) : ∀ (n : Nat) (s : R),
    (List.range n).foldl (fun s k => (ringArith R).add s ((ringArith R).mul (A i k) (B k j))) s = s + ∑ k ∈ Finset.range n, A i k * B k j := by
  intro n
  induction n with
  | zero => intro s; simp
  | succ n ih => intro s; rw [List.range_succ, List.foldl_append, ih, Finset.sum_range_succ, ← add_assoc]; rfl

/-- C121: in exact arithmetic the elements are those of the matrix product, which `MultiV3` and its kin add to the result. -/
theorem C121_product_partial {R : Type} [CommSemiring R] (r n c : Nat) (a b m : Mat R) (A B C : Nat → Nat → R) (ha : HasElements a r n A) (hb : HasElements b n c B) (hm : HasElements m r c C) :
    (∃ m', multiV1 (ringArith R) a b m = some m' ∧ HasElements m' r c fun i j => ∑ k ∈ Finset.range n, A i k * B k j) ∧
    (∃ m', multiV3 (ringArith R) a b m = some m' ∧ HasElements m' r c fun i j => C i j + ∑ k ∈ Finset.range n, A i k * B k j) ∧
    (r = c → ∃ m', multiV2 (ringArith R) a b m = some m' ∧ HasElements m' r c fun i j => ∑ k ∈ Finset.range n, A i k * B k j) := by
  obtain ⟨m1, h1, h2⟩ := C121_V1 (ringArith R) r n c a b m A B C ha hb hm
  obtain ⟨m3, h3, h4⟩ := C121_V3 (ringArith R) r n c a b m A B C ha hb hm
  have e1 : HasElements m1 r c fun i j => ∑ k ∈ Finset.range n, A i k * B k j := by
    convert h2 using 3
    rw [dot_sum]
    exact (zero_add _).symm
  refine ⟨⟨m1, h1, e1⟩, ⟨m3, h3, ?_⟩, fun hrc => ⟨m1, ?_, e1⟩⟩
  · convert h4 using 3
    rw [dot_sum]
  · rw [(C121_same_partial (ringArith R) r n c a b m A B C ha hb hm (fun _ => 0) _ (sequential n c r)).2.2.2 hrc, h1]

/-- `MultiV2` moves through a column of `b` by the rows of `a`, not the columns of `b`: with more rows than columns it always reads outside of `b`; with fewer it gives another matrix, for all
dimensions with at least two products to add. -/
theorem C121_V2_violated :
    (∀ (α : Type) (o : Arith α) (r n c : Nat) (a b m : Mat α) (A B : Nat → Nat → α), HasElements a r n A → HasElements b n c B → 0 < c → c < r → 2 ≤ n → multiV2 o a b m = none) ∧
    (∀ r n c, 0 < r → r < c → 2 ≤ n → ∃ (a b m : Mat ℕ) (A B C : Nat → Nat → ℕ) (m₁ m₂ : Mat ℕ), HasElements a r n A ∧ HasElements b n c B ∧ HasElements m r c C ∧
      multiV1 (ringArith ℕ) a b m = some m₁ ∧ multiV2 (ringArith ℕ) a b m = some m₂ ∧ m₁.at 0 0 = some 1 ∧ m₂.at 0 0 = some 0) ∧
    multiV2 (ringArith ℕ) ⟨1, 2, [1, 1]⟩ ⟨2, 2, [1, 2, 3, 4]⟩ ⟨1, 2, [0, 0]⟩ = some ⟨1, 2, [3, 5]⟩ ∧
    multiV1 (ringArith ℕ) ⟨1, 2, [1, 1]⟩ ⟨2, 2, [1, 2, 3, 4]⟩ ⟨1, 2, [0, 0]⟩ = some ⟨1, 2, [4, 6]⟩ := by
  refine ⟨fun α o r n c a b m A B ha hb hc hcr hn => ?_, fun r n c hr hrc hn => ?_, by decide +kernel, by decide +kernel⟩
  swap
  · refine ⟨table r n fun _ k => if k = 1 then 1 else 0, table n c fun k j => if k = 1 ∧ j = 0 then 1 else 0, table r c fun _ _ => 0, _, _, _, _, _, table_elements r n _, table_elements n c _,
      table_elements r c _, multiV1_spec _ r n c _ _ _, multiV2_wide _ r n c _ _ _ hrc.le, ?_, ?_⟩
    · rw [table_at r c _ hr (by omega), dot, dot_sum (fun _ k => if k = 1 then 1 else 0) (fun k j => if k = 1 ∧ j = 0 then 1 else 0) 0 0, Finset.sum_eq_single 1 (fun k _ hk => by rw [if_neg hk, zero_mul]) fun h => absurd (Finset.mem_range.2 (by omega)) h]
      rfl
    · rw [table_at r c _ hr (by omega), flatDot, dot_sum (fun _ k => if k = 1 then 1 else 0) (fun k j => if (k * r + j) / c = 1 ∧ (k * r + j) % c = 0 then 1 else 0) 0 0,
        Finset.sum_eq_single 1 (fun k _ hk => by rw [if_neg hk, zero_mul]) fun h => absurd (Finset.mem_range.2 (by omega)) h, if_pos rfl, if_neg (by
          rw [one_mul, add_zero, Nat.div_eq_of_lt hrc]; omega)]
      rfl
  rw [elements_table a r n A ha, elements_table b n c B hb]
  refine loop_none r _ 0 (by omega) (fun M => loop_none c _ (c - 1) (by omega) (fun M => ?_) M) m
  have key : ∀ k, k ≤ n → ∀ s, (List.range k).foldlM (fun (s : α × Nat) k => ((table r n A).at 0 k).bind fun x => ((table n c B).vec[s.2]?).bind fun y => some (o.add s.1 (o.mul x y), s.2 + r))
      (o.zero, c - 1) = some s → s.2 = c - 1 + k * r := by
    intro k
    induction k with
    | zero => intro _ s h; rw [← Option.some.inj h]; simp
    | succ k ih =>
      intro hk s h
      rw [List.range_succ, List.foldlM_append, Option.bind_eq_bind, Option.bind_eq_some_iff] at h
      obtain ⟨t, h1, h2⟩ := h
      rw [List.foldlM_cons, Option.bind_eq_bind, Option.bind_eq_some_iff] at h2
      obtain ⟨u, h2, h3⟩ := h2
      obtain rfl : u = s := Option.some.inj h3
      rw [Option.bind_eq_some_iff] at h2
      obtain ⟨x, -, h2⟩ := h2
      rw [Option.bind_eq_some_iff] at h2
      obtain ⟨y, -, h2⟩ := h2
      rw [← Option.some.inj h2, ih (by omega) t h1]
      ring
  have hnone : loop n (fun (s : α × Nat) k => ((table r n A).at 0 k).bind fun x => ((table n c B).vec[s.2]?).bind fun y => some (o.add s.1 (o.mul x y), s.2 + r)) (o.zero, c - 1) = none := by
    obtain ⟨k, rfl⟩ : ∃ k, n = k + 1 := ⟨n - 1, by omega⟩
    rw [loop, List.range_succ, List.foldlM_append, Option.bind_eq_bind, Option.bind_eq_none_iff]
    intro t ht
    have h2 := key k (by omega) t ht
    have hout : ¬ t.2 < (k + 1) * c := by
      rw [h2]
      have : k * (c + 1) ≤ k * r := Nat.mul_le_mul_left k hcr
      have e : k * (c + 1) = k * c + k := by ring
      have e' : (k + 1) * c = k * c + c := by ring
      omega
    rw [List.foldlM_cons, table_at r (k + 1) A (by omega) (by omega), Option.bind_some, table_flat, if_neg hout]
    rfl
  exact congrArg (fun x => x.bind fun s : α × Nat => M.store 0 (c - 1) s.1) hnone

/-! ### Examples -/

/-- A row and a column of two, and the two rows of a product in an execution that alternates between them. -/
example : multiV5 (ringArith ℕ) ⟨2, 1, [2, 3]⟩ ⟨1, 1, [5]⟩ ⟨2, 1, [0, 1]⟩ (fun _ => 0) [.load 0 0 0, .load 1 0 0, .write 1 0 0, .write 0 0 0] = some ⟨2, 1, [10, 16]⟩ ∧
    Execution 2 1 1 [.load 0 0 0, .load 1 0 0, .write 1 0 0, .write 0 0 0] := by
  refine ⟨by decide +kernel, fun i => ?_⟩
  match i with
  | 0 => decide
  | 1 => decide
  | i + 2 => simp [Step.row]

/-- The hypotheses hold for a matrix that is not square. -/
example : HasElements (⟨2, 3, [0, 1, 2, 10, 11, 12]⟩ : Mat ℕ) 2 3 fun i j => 10 * i + j := by
  refine ⟨rfl, rfl, rfl, fun i j hi hj => ?_⟩
  interval_cases i <;> interval_cases j <;> rfl

end Dal
