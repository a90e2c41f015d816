import Verif.Matrix.PerfModel
import Mathlib.Tactic.Ring
import Mathlib.Tactic.NormNum
import Mathlib.Algebra.BigOperators.Group.Finset.Basic

/-! # Lemmas about the matrix products of `examples/matrix_perf` -/

namespace Dal.Perf
variable {α : Type}

/-- The matrix with the given elements. -/
def table (r c : Nat) (f : Nat → Nat → α) : Mat α := ⟨r, c, (List.range (r * c)).map fun x => f (x / c) (x % c)⟩

theorem place_lt {r c i j : Nat} (hi : i < r) (hj : j < c) : i * c + j < r * c :=
  calc i * c + j < i * c + c := by omega
    _ = (i + 1) * c := by ring
    _ ≤ r * c := Nat.mul_le_mul_right c hi

theorem place_div {c i j : Nat} (hj : j < c) : (i * c + j) / c = i := by
  rw [Nat.mul_comm, Nat.mul_add_div (by omega), Nat.div_eq_of_lt hj, Nat.add_zero]

theorem place_mod {c i j : Nat} (hj : j < c) : (i * c + j) % c = j := by
  rw [Nat.mul_comm, Nat.mul_add_mod, Nat.mod_eq_of_lt hj]

theorem table_at (r c : Nat) (f : Nat → Nat → α) {i j : Nat} (hi : i < r) (hj : j < c) : (table r c f).at i j = some (f i j) := by
  rw [Mat.at, table]
  dsimp only
  rw [List.getElem?_map, List.getElem?_range (place_lt hi hj), Option.map_some, place_div hj, place_mod hj]

/-- An element replaced. -/
def put (f : Nat → Nat → α) (i j : Nat) (v : α) : Nat → Nat → α := fun i' j' => if i' = i ∧ j' = j then v else f i' j'

theorem table_store (r c : Nat) (f : Nat → Nat → α) {i j : Nat} (hi : i < r) (hj : j < c) (v : α) : (table r c f).store i j v = some (table r c (put f i j v)) := by
  have hl : i * c + j < ((List.range (r * c)).map fun x => f (x / c) (x % c)).length := by rw [List.length_map, List.length_range]; exact place_lt hi hj
  rw [Mat.store, table]
  dsimp only
  rw [if_pos hl, table]
  congr 2
  apply List.ext_getElem?
  intro x
  rw [List.getElem?_set, List.getElem?_map, List.getElem?_map]
  by_cases hx : i * c + j = x
  · subst hx
    rw [if_pos rfl, if_pos hl, List.getElem?_range (place_lt hi hj), Option.map_some, place_div hj, place_mod hj, put, if_pos ⟨rfl, rfl⟩]
  · rw [if_neg hx]
    by_cases hr : x < r * c
    · rw [List.getElem?_range hr, Option.map_some, Option.map_some, put, if_neg]
      rintro ⟨h1, h2⟩
      have := Nat.div_add_mod' x c
      rw [h1, h2] at this
      exact hx this
    · rw [List.getElem?_eq_none (by simpa using hr)]; rfl

theorem table_congr (r c : Nat) (f g : Nat → Nat → α) (h : ∀ i j, i < r → j < c → f i j = g i j) : table r c f = table r c g := by
  rw [table, table]
  congr 1
  apply List.map_congr_left
  intro x hx
  rw [List.mem_range] at hx
  have hc : 0 < c := Nat.pos_of_ne_zero (by rintro rfl; omega)
  exact h _ _ (Nat.div_lt_of_lt_mul (by rwa [Nat.mul_comm])) (Nat.mod_lt _ hc)

theorem table_clear (o : Arith α) (r c : Nat) (f : Nat → Nat → α) : (table r c f).clear o = table r c fun _ _ => o.zero := by
  rw [Mat.clear, table, table]
  dsimp only
  rw [List.map_map]
  rfl

/-- A loop whose states are all of one form. -/
theorem foldlM_pure {σ τ β : Type} (F : τ → σ) (g : τ → β → τ) (step : σ → β → Option σ) : ∀ (l : List β), (∀ x ∈ l, ∀ t, step (F t) x = some (F (g t x))) → ∀ t,
    l.foldlM step (F t) = some (F (l.foldl g t)) := by
  intro l
  induction l with
  | nil => intro _ t; rfl
  | cons x l ih =>
    intro h t
    rw [List.foldlM_cons, h x (by simp) t]
    exact ih (fun y hy => h y (by simp [hy])) _

theorem loop_pure {σ τ : Type} (F : τ → σ) (g : τ → Nat → τ) (n : Nat) (body : σ → Nat → Option σ) (h : ∀ k, k < n → ∀ t, body (F t) k = some (F (g t k))) (t : τ) :
    loop n body (F t) = some (F ((List.range n).foldl g t)) :=
  foldlM_pure F g body _ (fun x hx => h x (List.mem_range.1 hx)) t

/-- The sum of products in the order of `k`, from `s`. -/
def dot (o : Arith α) (n : Nat) (A B : Nat → Nat → α) (i j : Nat) (s : α) : α := (List.range n).foldl (fun s k => o.add s (o.mul (A i k) (B k j))) s

theorem put_row (E : Nat → α) (i : Nat) : ∀ (n : Nat) (f : Nat → Nat → α), (List.range n).foldl (fun f j => put f i j (E j)) f = fun i' j' => if i' = i ∧ j' < n then E j' else f i' j' := by
  intro n
  induction n with
  | zero => intro f; funext i' j'; simp
  | succ n ih =>
    intro f
    rw [List.range_succ, List.foldl_append, ih]
    funext i' j'
    simp only [List.foldl_cons, List.foldl_nil, put]
    by_cases h1 : i' = i
    · by_cases h2 : j' = n
      · simp [h1, h2]
      · have : j' < n + 1 ↔ j' < n := by omega
        simp [h1, h2, this]
    · simp [h1]

theorem put_rows (E : Nat → Nat → α) (m : Nat) : ∀ (n : Nat) (f : Nat → Nat → α),
    (List.range n).foldl (fun f i => (List.range m).foldl (fun f j => put f i j (E i j)) f) f = fun i j => if i < n ∧ j < m then E i j else f i j := by
  intro n
  induction n with
  | zero => intro f; funext i j; simp
  | succ n ih =>
    intro f
    rw [List.range_succ, List.foldl_append, ih]
    simp only [List.foldl_cons, List.foldl_nil]
    rw [put_row]
    funext i j
    by_cases h1 : i = n
    · subst h1; by_cases h2 : j < m <;> simp [h2]
    · have : i < n + 1 ↔ i < n := by omega
      simp [h1, this]

theorem multiV1_spec (o : Arith α) (r n c : Nat) (A B C : Nat → Nat → α) : multiV1 o (table r n A) (table n c B) (table r c C) = some (table r c fun i j => dot o n A B i j o.zero) := by
  have h := loop_pure (table r c) (fun f i => (List.range c).foldl (fun f j => put f i j (dot o n A B i j o.zero)) f) r
    (fun M i => loop c (fun M j => (loop n (fun res k => ((table r n A).at i k).bind fun x => ((table n c B).at k j).bind fun y => some (o.add res (o.mul x y))) o.zero).bind fun res =>
      M.store i j res) M) (fun i hi f => loop_pure (table r c) (fun f j => put f i j (dot o n A B i j o.zero)) c _ (fun j hj f => by
        rw [loop_pure (fun s => s) (fun s k => o.add s (o.mul (A i k) (B k j))) n _ (fun k hk s => by
          rw [table_at r n A hi hk, table_at n c B hk hj]; rfl) o.zero, Option.bind_some, table_store r c f hi hj]
        rfl) f) C
  rw [put_rows] at h
  exact h.trans (congrArg some (table_congr _ _ _ _ fun i j hi hj => if_pos ⟨hi, hj⟩))

/-- The pure form of a step of `MultiV3`. -/
def macc (o : Arith α) (A B : Nat → Nat → α) (f : Nat → Nat → α) (i k j : Nat) : Nat → Nat → α := put f i j (o.add (f i j) (o.mul (A i k) (B k j)))

theorem macc_row (o : Arith α) (A B : Nat → Nat → α) (i k : Nat) : ∀ (c : Nat) (f : Nat → Nat → α),
    (List.range c).foldl (fun f j => macc o A B f i k j) f = fun i' j' => if i' = i ∧ j' < c then o.add (f i' j') (o.mul (A i k) (B k j')) else f i' j' := by
  intro c
  induction c with
  | zero => intro f; funext i' j'; simp
  | succ c ih =>
    intro f
    rw [List.range_succ, List.foldl_append, ih]
    funext i' j'
    simp only [List.foldl_cons, List.foldl_nil, macc, put]
    by_cases h1 : i' = i
    · subst h1
      by_cases h2 : j' = c
      · subst h2; simp
      · have : j' < c + 1 ↔ j' < c := by omega
        simp [h2, this]
    · simp [h1]

theorem macc_rows (o : Arith α) (A B : Nat → Nat → α) (i c : Nat) : ∀ (n : Nat) (f : Nat → Nat → α),
    (List.range n).foldl (fun f k => (List.range c).foldl (fun f j => macc o A B f i k j) f) f = fun i' j' => if i' = i ∧ j' < c then dot o n A B i j' (f i' j') else f i' j' := by
  intro n
  induction n with
  | zero => intro f; funext i' j'; simp [dot]
  | succ n ih =>
    intro f
    rw [List.range_succ, List.foldl_append, ih]
    simp only [List.foldl_cons, List.foldl_nil]
    rw [macc_row]
    funext i' j'
    by_cases h : i' = i ∧ j' < c
    · rw [if_pos h, if_pos h, if_pos h, dot, dot, List.range_succ, List.foldl_append]; rfl
    · rw [if_neg h, if_neg h, if_neg h]

theorem macc_all (o : Arith α) (A B : Nat → Nat → α) (n c : Nat) : ∀ (r : Nat) (f : Nat → Nat → α),
    (List.range r).foldl (fun f i => (List.range n).foldl (fun f k => (List.range c).foldl (fun f j => macc o A B f i k j) f) f) f =
      fun i j => if i < r ∧ j < c then dot o n A B i j (f i j) else f i j := by
  intro r
  induction r with
  | zero => intro f; funext i j; simp
  | succ r ih =>
    intro f
    rw [List.range_succ, List.foldl_append, ih]
    simp only [List.foldl_cons, List.foldl_nil]
    rw [macc_rows]
    funext i j
    by_cases h1 : i = r
    · subst h1; by_cases h2 : j < c <;> simp [h2]
    · have : i < r + 1 ↔ i < r := by omega
      simp [h1, this]

theorem multiV3_spec (o : Arith α) (r n c : Nat) (A B C : Nat → Nat → α) : multiV3 o (table r n A) (table n c B) (table r c C) = some (table r c fun i j => dot o n A B i j (C i j)) := by
  have h := loop_pure (table r c) (fun f i => (List.range n).foldl (fun f k => (List.range c).foldl (fun f j => macc o A B f i k j) f) f) r
    (fun M i => loop n (fun M k => ((table r n A).at i k).bind fun x => loop c (fun M j => ((table n c B).at k j).bind fun y => (M.at i j).bind fun z => M.store i j (o.add z (o.mul x y))) M) M)
    (fun i hi f => loop_pure (table r c) (fun f k => (List.range c).foldl (fun f j => macc o A B f i k j) f) n _ (fun k hk f => by
      rw [table_at r n A hi hk, Option.bind_some]
      exact loop_pure (table r c) (fun f j => macc o A B f i k j) c _ (fun j hj f => by
        rw [table_at n c B hk hj, Option.bind_some, table_at r c f hi hj, Option.bind_some, table_store r c f hi hj]; rfl) f) f) C
  rw [macc_all] at h
  exact h.trans (congrArg some (table_congr _ _ _ _ fun i j hi hj => if_pos ⟨hi, hj⟩))

/-! ### The pointer of `MultiV2` -/

theorem table_flat (n c : Nat) (B : Nat → Nat → α) (x : Nat) : (table n c B).vec[x]? = if x < n * c then some (B (x / c) (x % c)) else none := by
  rw [table]
  dsimp only
  rw [List.getElem?_map]
  by_cases h : x < n * c
  · rw [List.getElem?_range h, if_pos h]; rfl
  · rw [List.getElem?_eq_none (by simpa using h), if_neg h]; rfl

/-- The sum of products that `MultiV2` takes: elements of `b` by their place in the storage. -/
def flatDot (o : Arith α) (r c n : Nat) (A B : Nat → Nat → α) (i j : Nat) : α :=
  (List.range n).foldl (fun s k => o.add s (o.mul (A i k) (B ((k * r + j) / c) ((k * r + j) % c)))) o.zero

theorem pointer_wide (o : Arith α) (r n c : Nat) (A B : Nat → Nat → α) (hrc : r ≤ c) {i j : Nat} (hi : i < r) (hj : j < c) : ∀ m, m ≤ n →
    (List.range m).foldlM (fun (s : α × Nat) k => ((table r n A).at i k).bind fun x => ((table n c B).vec[s.2]?).bind fun y => some (o.add s.1 (o.mul x y), s.2 + r)) (o.zero, j) =
      some (flatDot o r c m A B i j, m * r + j) := by
  intro m
  induction m with
  | zero => intro _; simp [flatDot]
  | succ m ih =>
    intro hm
    have hin : m * r + j < n * c := lt_of_le_of_lt (Nat.add_le_add_right (Nat.mul_le_mul_left m hrc) j) (place_lt (by omega) hj)
    rw [List.range_succ, List.foldlM_append, ih (by omega)]
    rw [Option.bind_eq_bind, Option.bind_some, List.foldlM_cons, table_at r n A hi (by omega), Option.bind_some, table_flat, if_pos hin]
    show some _ = some _
    rw [flatDot, flatDot, List.range_succ, List.foldl_append, show (m + 1) * r + j = m * r + j + r by ring]
    rfl

theorem multiV2_wide (o : Arith α) (r n c : Nat) (A B C : Nat → Nat → α) (hrc : r ≤ c) : multiV2 o (table r n A) (table n c B) (table r c C) = some (table r c fun i j => flatDot o r c n A B i j) := by
  have h := loop_pure (table r c) (fun f i => (List.range c).foldl (fun f j => put f i j (flatDot o r c n A B i j)) f) r
    (fun M i => loop c (fun M j => (loop n (fun (s : α × Nat) k => ((table r n A).at i k).bind fun x => ((table n c B).vec[s.2]?).bind fun y => some (o.add s.1 (o.mul x y), s.2 + r)) (o.zero, j)).bind fun s =>
      M.store i j s.1) M) (fun i hi f => loop_pure (table r c) (fun f j => put f i j (flatDot o r c n A B i j)) c _ (fun j hj f => by
        rw [loop, pointer_wide o r n c A B hrc hi hj n le_rfl, Option.bind_some, table_store r c f hi hj]) f) C
  rw [put_rows] at h
  exact h.trans (congrArg some (table_congr _ _ _ _ fun i j hi hj => if_pos ⟨hi, hj⟩))

theorem multiV2_square (o : Arith α) (r n : Nat) (A B C : Nat → Nat → α) : multiV2 o (table r n A) (table n r B) (table r r C) = some (table r r fun i j => dot o n A B i j o.zero) := by
  rw [multiV2_wide o r n r A B C le_rfl]
  refine congrArg some (table_congr _ _ _ _ fun i j _ hj => ?_)
  rw [flatDot, dot]
  congr 1
  funext s k
  rw [place_div hj, place_mod hj]

/-! ### Executions of `MultiV5` -/

/-- The pure form of a step. -/
def Step.pure (o : Arith α) (A B : Nat → Nat → α) (s : (Nat → Nat → α) × (Nat → α)) : Step → (Nat → Nat → α) × (Nat → α)
  | .load i _ j => (s.1, fun r => if r = i then s.1 i j else s.2 r)
  | .write i k j => (put s.1 i j (o.add (s.2 i) (o.mul (A i k) (B k j))), s.2)

/-- Row `i` of the result and its register. -/
def ofRow (i : Nat) (s : (Nat → Nat → α) × (Nat → α)) : (Nat → α) × α := (s.1 i, s.2 i)

theorem pure_other (o : Arith α) (A B : Nat → Nat → α) (i : Nat) (s : (Nat → Nat → α) × (Nat → α)) (p : Step) (h : p.row ≠ i) : ofRow i (p.pure o A B s) = ofRow i s := by
  cases p with
  | load i' k j =>
    have h' : i ≠ i' := fun e => h e.symm
    simp [ofRow, Step.pure, h']
  | write i' k j =>
    have h' : i ≠ i' := fun e => h e.symm
    refine Prod.ext ?_ rfl
    funext j'
    simp [ofRow, Step.pure, put, h']

theorem pure_same (o : Arith α) (A B : Nat → Nat → α) (i : Nat) (s t : (Nat → Nat → α) × (Nat → α)) (hst : ofRow i s = ofRow i t) (p : Step) (h : p.row = i) :
    ofRow i (p.pure o A B s) = ofRow i (p.pure o A B t) := by
  have h1 : s.1 i = t.1 i := congrArg Prod.fst hst
  have h2 : s.2 i = t.2 i := congrArg Prod.snd hst
  subst h
  cases p with
  | load i' k j => 
    simp only [Step.row] at h1 h2
    simp [ofRow, Step.pure, Step.row, h1]
  | write i' k j =>
    simp only [Step.row] at h1 h2
    refine Prod.ext ?_ h2
    funext j'
    simp [ofRow, Step.pure, Step.row, put, h1, h2]

/-- A row sees its own steps only. -/
theorem row_alone (o : Arith α) (A B : Nat → Nat → α) (i : Nat) : ∀ (l : List Step) (s t : (Nat → Nat → α) × (Nat → α)), ofRow i s = ofRow i t →
    ofRow i (l.foldl (Step.pure o A B) s) = ofRow i ((l.filter fun p => p.row == i).foldl (Step.pure o A B) t) := by
  intro l
  induction l with
  | nil => intro s t h; exact h
  | cons p l ih =>
    intro s t h
    rw [List.foldl_cons, List.filter_cons]
    by_cases hp : p.row = i
    · rw [if_pos (by simpa using hp), List.foldl_cons]
      exact ih _ _ (pure_same o A B i s t h p hp)
    · rw [if_neg (by simpa using hp)]
      exact ih _ _ ((pure_other o A B i s p hp).trans h)

theorem row_steps (o : Arith α) (A B : Nat → Nat → α) (n c i : Nat) (s : (Nat → Nat → α) × (Nat → α)) (j : Nat) (hj : j < c) :
    ((rowSteps n c i).foldl (Step.pure o A B) s).1 i j = dot o n A B i j (s.1 i j) := by
  have h2 : ∀ (k m : Nat) (s : (Nat → Nat → α) × (Nat → α)),
      (((List.range m).flatMap fun j => [Step.load i k j, Step.write i k j]).foldl (Step.pure o A B) s).1 = (List.range m).foldl (fun f j => macc o A B f i k j) s.1 := by
    intro k m
    induction m with
    | zero => intro s; rfl
    | succ m ih =>
      intro s
      rw [List.range_succ, List.flatMap_append, List.foldl_append, List.foldl_append, ← ih]
      simp [Step.pure, macc]
  have h3 : ∀ (m : Nat) (s : (Nat → Nat → α) × (Nat → α)), ((rowSteps m c i).foldl (Step.pure o A B) s).1 = (List.range m).foldl (fun f k => (List.range c).foldl (fun f j => macc o A B f i k j) f) s.1 := by
    intro m
    induction m with
    | zero => intro s; rfl
    | succ m ih =>
      intro s
      rw [rowSteps, List.range_succ, List.flatMap_append, List.foldl_append, List.foldl_append, ← ih, List.flatMap_singleton, h2]
      rfl
  rw [h3, macc_rows]
  exact if_pos ⟨rfl, hj⟩

theorem run_pure (o : Arith α) (r n c : Nat) (A B : Nat → Nat → α) (p : Step) (hp : p ∈ rowSteps n c p.row) (hr : p.row < r) (s : (Nat → Nat → α) × (Nat → α)) :
    Step.run o (table r n A) (table n c B) (table r c s.1, s.2) p = some (table r c (p.pure o A B s).1, (p.pure o A B s).2) := by
  cases p with
  | load i k j =>
    simp only [rowSteps, List.mem_flatMap, List.mem_range, Step.row] at hp hr
    obtain ⟨k', hk, j', hj, h⟩ := hp
    obtain ⟨rfl, rfl⟩ : k = k' ∧ j = j' := by simpa using h
    rw [Step.run]
    dsimp only
    rw [table_at r c s.1 hr hj, Option.bind_some]
    rfl
  | write i k j =>
    simp only [rowSteps, List.mem_flatMap, List.mem_range, Step.row] at hp hr
    obtain ⟨k', hk, j', hj, h⟩ := hp
    obtain ⟨rfl, rfl⟩ : k = k' ∧ j = j' := by simpa using h
    rw [Step.run]
    dsimp only
    rw [table_at r n A hr hk, Option.bind_some, table_at n c B hk hj, Option.bind_some, table_store r c s.1 hr hj, Option.bind_some]
    rfl

theorem multiV5_spec (o : Arith α) (r n c : Nat) (A B C : Nat → Nat → α) (reg : Nat → α) (steps : List Step) (h : Execution r n c steps) :
    multiV5 o (table r n A) (table n c B) (table r c C) reg steps = some (table r c fun i j => dot o n A B i j (C i j)) := by
  have hmem : ∀ p ∈ steps, p.row < r ∧ p ∈ rowSteps n c p.row := by
    intro p hp
    have hf : p ∈ steps.filter fun s => s.row == p.row := List.mem_filter.2 ⟨hp, by simp⟩
    rw [h p.row] at hf
    by_cases hr : p.row < r
    · rw [if_pos hr] at hf; exact ⟨hr, hf⟩
    · rw [if_neg hr] at hf; simp at hf
  rw [multiV5, foldlM_pure (fun s : (Nat → Nat → α) × (Nat → α) => (table r c s.1, s.2)) (Step.pure o A B) _ steps (fun p hp s => run_pure o r n c A B p (hmem p hp).2 (hmem p hp).1 s) (C, reg)]
  refine congrArg some (table_congr _ _ _ _ fun i j hi hj => ?_)
  have h1 := congrArg Prod.fst (row_alone o A B i steps (C, reg) (C, reg) rfl)
  rw [h i, if_pos hi] at h1
  exact (congrFun h1 j).trans (row_steps o A B n c i (C, reg) j hj)

/-- The rows one after the other are an execution. -/
theorem sequential (n c : Nat) : ∀ r, Execution r n c ((List.range r).flatMap (rowSteps n c)) := by
  have hrow : ∀ i, ∀ p ∈ rowSteps n c i, p.row = i := by
    intro i p hp
    simp only [rowSteps, List.mem_flatMap, List.mem_range] at hp
    obtain ⟨k, _, j, _, h⟩ := hp
    rcases (by simpa using h : p = .load i k j ∨ p = .write i k j) with rfl | rfl <;> rfl
  intro r
  induction r with
  | zero => intro i; rfl
  | succ r ih =>
    intro i
    rw [List.range_succ, List.flatMap_append, List.filter_append, ih i, List.flatMap_singleton]
    by_cases h : i = r
    · subst h
      rw [if_neg (by omega), if_pos (by omega), List.nil_append, List.filter_eq_self.2]
      intro p hp
      simpa using hrow _ p hp
    · rw [List.filter_eq_nil_iff.2 (fun p hp => by rw [hrow r p hp]; simpa using fun e : r = i => h e.symm), List.append_nil]
      by_cases h' : i < r
      · rw [if_pos h', if_pos (by omega)]
      · rw [if_neg h', if_neg (by omega)]

/-- A fold that fails somewhere fails. -/
theorem foldlM_none {σ β : Type} (step : σ → β → Option σ) (x : β) (l₁ l₂ : List β) (h : ∀ s, step s x = none) (s : σ) : (l₁ ++ x :: l₂).foldlM step s = none := by
  rw [List.foldlM_append]
  cases hs : l₁.foldlM step s with
  | none => rfl
  | some t => rw [Option.bind_eq_bind, Option.bind_some, List.foldlM_cons, h]; rfl

theorem loop_none {σ : Type} (n : Nat) (body : σ → Nat → Option σ) (k : Nat) (hk : k < n) (h : ∀ s, body s k = none) (s : σ) : loop n body s = none := by
  have e : List.range n = List.range k ++ k :: (List.range (n - k - 1)).map (k + 1 + ·) := by
    obtain ⟨d, rfl⟩ : ∃ d, n = k + 1 + d := ⟨n - (k + 1), by omega⟩
    rw [List.range_add, List.range_succ, List.append_assoc, List.singleton_append, show k + 1 + d - k - 1 = d by omega]
  rw [loop, e]
  exact foldlM_none body k _ _ h s

end Dal.Perf
