import Verif.Matrix.ContainerLemmas

/-! # C58: matrix containers -/

namespace Dal
open MatC

variable {E : Type}

/-- The specification: what a user of a matrix sees. `MatShows m r c f`: the matrix has `r` rows and `c` columns, and reading any element inside is
defined and gives `f i j`. -/
def MatShows (m : Mat E) (r c : Nat) (f : Nat → Nat → E) : Prop :=
  m.rows = r ∧ m.cols = c ∧ ∀ i j, i < r → j < c → m.get i j = some (f i j)

/-- The operations on one matrix. -/
inductive MatOp (E : Type) where
  | fresh (block rows cols : Nat) (v : E)
  | copyOf (block : Nat)
  | put (i j : Nat) (v : E)
  | resize (rows cols : Nat) (moved : Bool) (fresh : Nat)
  | fill (v : E)
  | scale (f : E → E)
  | clear

/-- One operation; a write outside the matrix is not made by a correct user. -/
def MatOp.run (d : E) (m : Mat E) : MatOp E → Option (Mat E)
  | .fresh b r c v => some (mkMat b r c v)
  | .copyOf b => some (copyMat b m)
  | .put i j v => if i < m.rows ∧ j < m.cols then m.put i j v else some m
  | .resize r c moved nb => m.resize r c moved nb d
  | .fill v => some (m.fill v)
  | .scale f => some (m.scale f)
  | .clear => some m.clear

theorem MatC.WF_clear (m : Mat E) : WF m.clear := ⟨by simp [Mat.clear, Mat.rows], fun i hi => by simp [Mat.clear, Mat.rows] at hi⟩

theorem MatC.run_WF (d : E) {m : Mat E} (h : WF m) (op : MatOp E) : ∃ m', op.run d m = some m' ∧ WF m' := by
  cases op with
  | fresh b r c v => exact ⟨_, rfl, WF_mkMat b r c v⟩
  | copyOf b => exact ⟨_, rfl, WF_copyMat b h⟩
  | put i j v =>
    by_cases hb : i < m.rows ∧ j < m.cols
    · obtain ⟨m', e, hw, _⟩ := put_spec h hb.1 hb.2 v
      exact ⟨m', by simp [MatOp.run, hb, e], hw⟩
    · exact ⟨m, by simp only [MatOp.run, if_neg hb], h⟩
  | resize r c moved nb =>
    obtain ⟨m', e, hw, _⟩ := resize_spec h r c moved nb d
    exact ⟨m', e, hw⟩
  | fill v => exact ⟨_, rfl, ⟨h.1, h.2⟩⟩
  | scale f => exact ⟨_, rfl, ⟨h.1, h.2⟩⟩
  | clear => exact ⟨_, rfl, WF_clear m⟩

/-- **C58.** Whatever has been done to a matrix (from the default constructor on, and wherever the library puts the blocks), nothing undefined happens, and
every element inside its shape can be read. -/
theorem C58_any_history (d : E) (b : Nat) (ops : List (MatOp E)) :
    ∃ m, ops.foldlM (MatOp.run d) (mkEmpty b d) = some m ∧ ∀ i j, i < m.rows → j < m.cols → (m.get i j).isSome := by
  suffices h : ∀ m0 : Mat E, WF m0 → ∃ m, ops.foldlM (MatOp.run d) m0 = some m ∧ WF m by
    obtain ⟨m, e, hw⟩ := h (mkEmpty b d) ⟨by simp [mkEmpty, Mat.rows], fun i hi => by simp [mkEmpty, Mat.rows] at hi⟩
    exact ⟨m, e, fun i j hi hj => by rw [get_of_WF hw hi hj]; rfl⟩
  induction ops with
  | nil => exact fun m0 h => ⟨m0, rfl, h⟩
  | cons op ops ih =>
    intro m0 h
    obtain ⟨m1, e1, h1⟩ := run_WF d h op
    obtain ⟨m2, e2, h2⟩ := ih m1 h1
    exact ⟨m2, by simp [List.foldlM_cons, e1, e2], h2⟩

example : ∃ m, [MatOp.fresh 1 2 2 (5 : Int), .put 1 1 7, .resize 3 2 true 2].foldlM (MatOp.run 0) (mkEmpty 0 0) = some m ∧ m.get 1 1 = some 7 := by
  refine ⟨_, rfl, by decide⟩

/-- **C58.** A new matrix shows its value everywhere. -/
theorem C58_new (b r c : Nat) (v : E) : WF (mkMat b r c v) ∧ MatShows (mkMat b r c v) r c fun _ _ => v := by
  refine ⟨WF_mkMat b r c v, mkMat_rows b r c v, rfl, fun i j hi hj => ?_⟩
  rw [get_of_WF (WF_mkMat b r c v) (by rw [mkMat_rows]; exact hi) hj]
  rfl

/-- **C58.** Filling sets every element, scaling applies to every element, clearing leaves no rows and no columns. -/
theorem C58_fill_scale_clear {m : Mat E} {r c : Nat} {f : Nat → Nat → E} (h : WF m) (hm : MatShows m r c f) (v : E) (g : E → E) :
    (WF (m.fill v) ∧ MatShows (m.fill v) r c fun _ _ => v) ∧ (WF (m.scale g) ∧ MatShows (m.scale g) r c fun i j => g (f i j)) ∧
    (WF m.clear ∧ MatShows m.clear 0 0 f) := by
  obtain ⟨rfl, rfl, hf⟩ := hm
  have w1 : WF (m.fill v) := ⟨h.1, h.2⟩
  have w2 : WF (m.scale g) := ⟨h.1, h.2⟩
  refine ⟨⟨w1, rfl, rfl, fun i j hi hj => ?_⟩, ⟨w2, rfl, rfl, fun i j hi hj => ?_⟩, WF_clear m, rfl, rfl, fun i j hi _ => absurd hi (Nat.not_lt_zero i)⟩
  · rw [get_of_WF w1 hi hj]
    rfl
  · have e := hf i j hi hj
    rw [get_of_WF h hi hj] at e
    rw [get_of_WF w2 hi hj]
    exact congrArg (fun x => some (g x)) (Option.some.inj e)

example : ((mkMat 0 2 3 (5 : Int)).scale (· * 2)).get 1 2 = some 10 ∧ ((mkMat 0 2 3 (5 : Int)).fill 4).get 1 2 = some 4 := by decide

/-- **C58.** Writing an element changes that element and no other. -/
theorem C58_put {m : Mat E} {r c : Nat} {f : Nat → Nat → E} (h : WF m) (hm : MatShows m r c f) {i j : Nat} (hi : i < r) (hj : j < c) (v : E) :
    ∃ m', m.put i j v = some m' ∧ WF m' ∧ MatShows m' r c fun i' j' => if i' = i ∧ j' = j then v else f i' j' := by
  obtain ⟨rfl, rfl, hf⟩ := hm
  obtain ⟨m', e, hw, hr, hc, hg⟩ := put_spec h hi hj v
  refine ⟨m', e, hw, hr, hc, fun i' j' hi' hj' => ?_⟩
  rw [hg i' j' hi' hj', hf i' j' hi' hj']
  beta_reduce
  by_cases hc : i' = i ∧ j' = j
  · rw [if_pos hc, if_pos hc]
  · rw [if_neg hc, if_neg hc]

example : MatShows (mkMat 0 2 3 (1 : Int)) 2 3 fun _ _ => 1 := (C58_new 0 2 3 1).2

/-- **C58.** A copy shows the same matrix, whatever becomes of the original. -/
theorem C58_copy {m : Mat E} {r c : Nat} {f : Nat → Nat → E} (h : WF m) (hm : MatShows m r c f) (b : Nat) :
    WF (copyMat b m) ∧ MatShows (copyMat b m) r c f := by
  obtain ⟨rfl, rfl, hf⟩ := hm
  have hr : (copyMat b m).rows = m.rows := by simp [copyMat, Mat.setHook, Mat.rows]
  refine ⟨WF_copyMat b h, hr, rfl, fun i j hi hj => ?_⟩
  rw [get_of_WF (WF_copyMat b h) (by rw [hr]; exact hi) hj, ← hf i j hi hj, get_of_WF h hi hj]
  rfl

/-- **C58.** Resizing gives the new shape and keeps every element valid in both shapes, wherever the elements are moved. -/
theorem C58_resize_keeps {m : Mat E} {r c : Nat} {f : Nat → Nat → E} (h : WF m) (hm : MatShows m r c f) (r' c' : Nat) (moved : Bool) (fresh : Nat) (d : E) :
    ∃ m' g, m.resize r' c' moved fresh d = some m' ∧ WF m' ∧ MatShows m' r' c' g ∧ ∀ i j, i < r → j < c → i < r' → j < c' → g i j = f i j := by
  obtain ⟨rfl, rfl, hf⟩ := hm
  obtain ⟨m', e, hw, hr, hc, hg⟩ := resize_spec h r' c' moved fresh d
  refine ⟨m', _, e, hw, ⟨hr, hc, fun i j hi hj => hg i j hi hj⟩, fun i j hi hj hi' hj' => ?_⟩
  have hv : m.vals (i * m.cols + j) = f i j := by
    have := hf i j hi hj
    rw [get_of_WF h hi hj] at this
    injection this
  by_cases hb : c' = m.cols ∧ r' * m.rows > 0
  · rw [if_pos hb, hb.1, if_pos (h.lt_size hi hj), hv]
  · rw [if_neg hb, if_pos ⟨hi, hj⟩, hv]

example : ∃ m' g, (mkMat 0 2 2 (4 : Int)).resize 3 1 false 9 0 = some m' ∧ WF m' ∧ MatShows m' 3 1 g ∧
    ∀ i j, i < 2 → j < 2 → i < 3 → j < 1 → g i j = 4 :=
  C58_resize_keeps (C58_new 0 2 2 4).1 (C58_new 0 2 2 4).2 3 1 false 9 0

/-- **C58.** When the number of columns changes (or the matrix had no rows), the new elements are value-initialised. -/
theorem C58_resize_new_elements_partial {m : Mat E} {r c : Nat} {f : Nat → Nat → E} (h : WF m) (hm : MatShows m r c f) (r' c' : Nat) (moved : Bool)
    (fresh : Nat) (d : E) (hb : c' ≠ c ∨ r = 0) :
    ∃ m', m.resize r' c' moved fresh d = some m' ∧ MatShows m' r' c' fun i j => if i < r ∧ j < c then f i j else d := by
  obtain ⟨rfl, rfl, hf⟩ := hm
  obtain ⟨m', e, hw, hr, hc, hg⟩ := resize_spec h r' c' moved fresh d
  have hn : ¬(c' = m.cols ∧ r' * m.rows > 0) := by
    rintro ⟨h1, h2⟩
    rcases hb with hb | hb
    · exact hb h1
    · rw [hb] at h2
      simp at h2
  refine ⟨m', e, hr, hc, fun i j hi hj => ?_⟩
  rw [hg i j hi hj, if_neg hn]
  beta_reduce
  by_cases hi' : i < m.rows ∧ j < m.cols
  · rw [if_pos hi', if_pos hi', ← get_of_WF h hi'.1 hi'.2, hf i j hi'.1 hi'.2]
  · rw [if_neg hi', if_neg hi']

example : ∃ m', (mkMat 0 1 2 (4 : Int)).resize 2 3 true 9 0 = some m' ∧ MatShows m' 2 3 fun i j => if i < 1 ∧ j < 2 then 4 else 0 :=
  C58_resize_new_elements_partial (C58_new 0 1 2 4).1 (C58_new 0 1 2 4).2 2 3 true 9 0 (Or.inl (by decide))

/-- **C58, violated** for the new elements: adding a row and keeping the columns exposes the spare row, so a matrix constructed with the value 7 shows 7, not 0, in
the new row, whereas adding the row and a column shows 0 there. -/
theorem C58_resize_new_elements_violated :
    (∃ m', (mkMat 0 1 1 (7 : Int)).resize 2 1 false 1 0 = some m' ∧ m'.get 1 0 = some 7) ∧
    (∃ m', (mkMat 0 1 1 (7 : Int)).resize 2 2 false 1 0 = some m' ∧ m'.get 1 0 = some 0) :=
  ⟨⟨_, rfl, by decide⟩, ⟨_, rfl, by decide⟩⟩

/-- **C58.** The transpose shows the transposed elements (for a matrix with columns, or without rows). -/
theorem C58_transpose {m : Mat E} {r c : Nat} {f : Nat → Nat → E} (h : WF m) (hm : MatShows m r c f) (b : Nat) (d : E) (hc : 0 < c ∨ r = 0) :
    ∃ t, transpose b m d = some t ∧ WF t ∧ MatShows t c r fun i j => f j i := by
  obtain ⟨rfl, rfl, hf⟩ := hm
  let P (n : Nat) (t : Mat E) : Prop := WF t ∧ t.rows = m.cols ∧ t.cols = m.rows ∧
    ∀ i j, i < m.cols → j < m.rows → j < n → t.get i j = some (f j i)
  obtain ⟨t, e, ht⟩ := loop_inv
    (fun ir (t : Mat E) => (t.hooks[0]?).bind fun _ => loop (fun k t => (m.get ir k).bind fun v => t.putCol ir k v) m.cols 0 t)
    P m.rows 0 (mkMat b m.cols m.rows d) ⟨WF_mkMat b _ _ d, mkMat_rows b _ _ d, rfl, fun _ _ _ _ h0 => absurd h0 (Nat.not_lt_zero _)⟩ (by
      intro ir t _ hir ht
      obtain ⟨hw, hr, hc', hg⟩ := ht
      have hir' : ir < m.rows := by omega
      have hpos : 0 < m.cols := by omega
      have h0 : t.hooks[0]? = some (some (t.block, 0)) := by
        rw [hw.2 0 (by omega)]; simp
      let Q (k : Nat) (s : Mat E) : Prop := WF s ∧ s.rows = m.cols ∧ s.cols = m.rows ∧
        ∀ i j, i < m.cols → j < m.rows → (j < ir ∨ (j = ir ∧ i < k)) → s.get i j = some (f j i)
      obtain ⟨s, e, hs⟩ := loop_inv (fun k t => (m.get ir k).bind fun v => t.putCol ir k v) Q m.cols 0 t
        ⟨hw, hr, hc', fun i j hi hj hlt => hg i j hi hj (by omega)⟩ (by
          intro k s _ hk hs
          obtain ⟨hw, hr, hc', hg⟩ := hs
          have hk' : k < m.cols := by omega
          obtain ⟨s', e', hw', hr', hc'', hg'⟩ := put_spec hw (i := k) (j := ir) (by omega) (by omega) (f ir k)
          refine ⟨s', ?_, hw', by omega, by omega, fun i j hi hj hlt => ?_⟩
          · simp only [hf ir k hir' hk', Option.bind_some]
            rw [putCol_of_WF hw (by omega) (by omega), e']
          · rw [hg' i j (by omega) (by omega)]
            by_cases hij : i = k ∧ j = ir
            · rw [if_pos hij, hij.1, hij.2]
            · rw [if_neg hij]
              exact hg i j hi hj (by omega))
      refine ⟨s, by simp only [h0, Option.bind_some]; exact e, hs.1, hs.2.1, hs.2.2.1, fun i j hi hj hlt => ?_⟩
      exact hs.2.2.2 i j hi hj (by omega))
  exact ⟨t, e, ht.1, ht.2.1, ht.2.2.1, fun i j hi hj => ht.2.2.2 i j hi hj (by omega)⟩

/-- **C58.** Transposing twice gives the matrix back. -/
theorem C58_transpose_twice {m : Mat E} {r c : Nat} {f : Nat → Nat → E} (h : WF m) (hm : MatShows m r c f) (b b' : Nat) (d : E) (hc : 0 < c) (hr : 0 < r) :
    ∃ t t', transpose b m d = some t ∧ transpose b' t d = some t' ∧ MatShows t' r c f := by
  obtain ⟨t, e, hw, ht⟩ := C58_transpose h hm b d (Or.inl hc)
  obtain ⟨t', e', _, ht'⟩ := C58_transpose hw ht b' d (Or.inl hr)
  exact ⟨t, t', e, e', ht'⟩

example : ∃ t t', transpose 1 (mkMat 0 2 3 (5 : Int)) 0 = some t ∧ transpose 2 t 0 = some t' ∧ MatShows t' 2 3 fun _ _ => 5 :=
  C58_transpose_twice (C58_new 0 2 3 5).1 (C58_new 0 2 3 5).2 1 2 0 (by decide) (by decide)

/-- **C58, violated** without columns: transposing a matrix with rows but no columns takes the first hook of a matrix which has none. -/
theorem C58_transpose_no_columns_violated (b b' r : Nat) (v d : E) : transpose b' (mkMat b (r + 1) 0 v) d = none := by
  rw [transpose, mkMat_rows, mkMat_cols]
  simp [loop, mkMat, Mat.setHook]

/-- **C58.** Appending puts the rows of the second matrix below those of the first, when it is at least as wide; the first matrix keeps its elements. -/
theorem C58_append {m n : Mat E} {r c r' c' : Nat} {f g : Nat → Nat → E} (hm : WF m) (h : MatShows m r c f) (hn : MatShows n r' c' g)
    (hc : c ≤ c') (moved : Bool) (fresh : Nat) (d : E) :
    ∃ t u, append m n moved fresh d = .ok t ∧ WF t ∧ MatShows t (r + r') c' u ∧ (∀ i j, i < r → j < c → u i j = f i j) ∧
      (∀ i j, i < r' → j < c' → u (r + i) j = g i j) := by
  obtain ⟨rfl, rfl, hg⟩ := hn
  obtain ⟨a, u, e, hw, hs, hk⟩ := C58_resize_keeps hm h (m.rows + n.rows) (max m.cols n.cols) moved fresh d
  obtain ⟨rfl, rfl, hf⟩ := h
  rw [Nat.max_eq_right hc] at e hs hk
  by_cases h0 : n.rows = 0
  · refine ⟨a, u, ?_, hw, hs, fun i j hi hj => hk i j hi hj (by omega) (by omega), fun i j hi _ => by omega⟩
    simp only [append, Nat.max_eq_right hc, e, if_pos h0]
  · let P (k : Nat) (t : Mat E) : Prop := WF t ∧ MatShows t (m.rows + n.rows) n.cols
      fun i j => if m.rows ≤ i ∧ i < m.rows + k then g (i - m.rows) j else u i j
    obtain ⟨t, e', ht⟩ := loop_inv (fun ir (t : Mat E) => loop (fun k t => (n.get ir k).bind fun v => t.put (ir + m.rows) k v) n.cols 0 t)
      P n.rows 0 a ⟨hw, hs.1, hs.2.1, fun i j hi hj => by rw [hs.2.2 i j hi hj]; beta_reduce; rw [if_neg (by omega)]⟩ (by
        intro ir t _ hir ht
        let Q (k : Nat) (t : Mat E) : Prop := WF t ∧ MatShows t (m.rows + n.rows) n.cols
          fun i j => if (m.rows ≤ i ∧ i < m.rows + ir) ∨ (i = m.rows + ir ∧ j < k) then g (i - m.rows) j else u i j
        obtain ⟨s, e, hs⟩ := loop_inv (fun k t => (n.get ir k).bind fun v => t.put (ir + m.rows) k v) Q n.cols 0 t
          ⟨ht.1, ht.2.1, ht.2.2.1, fun i j hi hj => by rw [ht.2.2.2 i j hi hj]; simp⟩ (by
            intro k s _ hk hs
            obtain ⟨s', e', hw', hs'⟩ := C58_put hs.1 hs.2 (i := ir + m.rows) (j := k) (by omega) (by omega) (g ir k)
            refine ⟨s', by simp only [hg ir k (by omega) (by omega), Option.bind_some]; exact e', hw', hs'.1, hs'.2.1, fun i j hi hj => ?_⟩
            rw [hs'.2.2 i j hi hj]
            beta_reduce
            congr 1
            by_cases hij : i = ir + m.rows ∧ j = k
            · rw [if_pos hij, if_pos (by omega), hij.1, hij.2]
              congr 1
              omega
            · rw [if_neg hij]
              have : ((m.rows ≤ i ∧ i < m.rows + ir) ∨ (i = m.rows + ir ∧ j < k)) ↔
                ((m.rows ≤ i ∧ i < m.rows + ir) ∨ (i = m.rows + ir ∧ j < k + 1)) := by omega
              simp only [this])
        refine ⟨s, e, hs.1, hs.2.1, hs.2.2.1, fun i j hi hj => ?_⟩
        rw [hs.2.2.2 i j hi hj]
        beta_reduce
        congr 1
        have : ((m.rows ≤ i ∧ i < m.rows + ir) ∨ (i = m.rows + ir ∧ j < 0 + n.cols)) ↔ (m.rows ≤ i ∧ i < m.rows + (ir + 1)) := by omega
        simp only [this])
    refine ⟨t, _, ?_, ht.1, ⟨ht.2.1, ht.2.2.1, ht.2.2.2⟩, fun i j hi hj => ?_, fun i j hi hj => ?_⟩
    · simp only [append, Nat.max_eq_right hc, e, if_neg h0]
      rw [if_pos hs.2.1.symm]
      simp only [e']
    · beta_reduce
      rw [if_neg (by omega)]
      exact hk i j hi hj (by omega) (by omega)
    · rw [if_pos (by omega)]
      congr 1
      omega

example : ∃ t u, append (mkMat 0 1 1 (3 : Int)) (mkMat 1 2 2 8) true 5 0 = .ok t ∧ WF t ∧ MatShows t 3 2 u ∧ (∀ i j, i < 1 → j < 1 → u i j = 3) ∧
    (∀ i j, i < 2 → j < 2 → u (1 + i) j = 8) :=
  C58_append (C58_new 0 1 1 3).1 (C58_new 0 1 1 3).2 (C58_new 1 2 2 8).2 (by decide) true 5 0

/-- **C58.** Appending a narrower matrix throws, and leaves the first matrix with rows added whose content is not that of the second. -/
theorem C58_append_narrower_throws {m n : Mat E} {r c r' c' : Nat} {f g : Nat → Nat → E} (hm : WF m) (h : MatShows m r c f) (hn : MatShows n r' c' g)
    (hc : c' < c) (hr : 0 < r') (moved : Bool) (fresh : Nat) (d : E) :
    ∃ t, append m n moved fresh d = .throws t ∧ t.rows = r + r' := by
  obtain ⟨a, u, e, hw, hs, _⟩ := C58_resize_keeps hm h (r + r') (max c c') moved fresh d
  refine ⟨a, ?_, hs.1⟩
  have : max c c' = c := by omega
  simp only [append, h.1, h.2.1, hn.1, hn.2.1, e]
  rw [if_neg (by omega), if_neg (by rw [hs.2.1]; omega)]

theorem MatC.mapM_some {α β : Type} {f : α → Option β} {g : α → β} : ∀ {l : List α}, (∀ a ∈ l, f a = some (g a)) → l.mapM f = some (l.map g)
  | [], _ => rfl
  | a :: l, h => by
    rw [List.mapM_cons, h a (by simp), mapM_some fun x hx => h x (by simp [hx])]
    rfl

/-- **C58.** Taking a matrix apart gives its rows, or its columns. -/
theorem C58_toVectors {m : Mat E} {r c : Nat} {f : Nat → Nat → E} (h : WF m) (hm : MatShows m r c f) :
    toVectors m = some ((List.range r).map fun i => (List.range c).map fun j => f i j) ∧
    (0 < r → toVectorsByCols m = some ((List.range c).map fun j => (List.range r).map fun i => f i j)) := by
  obtain ⟨rfl, rfl, hf⟩ := hm
  refine ⟨mapM_some fun i hi => mapM_some fun j hj => hf i j (by simpa using hi) (by simpa using hj), fun h0 => mapM_some fun j hj => ?_⟩
  rw [h.2 0 h0]
  refine mapM_some fun i hi => ?_
  have hi' : i < m.rows := by simpa using hi
  have hj' : j < m.cols := by simpa using hj
  rw [getCol_of_WF h hi' hj', hf i j hi' hj']

/-- **C58.** A matrix made of vectors of one length comes apart into the same vectors. -/
theorem C58_fromVectors_roundtrip (b c : Nat) (v0 : List E) (vv : List (List E)) (hv : ∀ v ∈ v0 :: vv, v.length = c) (d : E) :
    ∃ m, fromVectors b (v0 :: vv) d = some m ∧ WF m ∧ m.rows = vv.length + 1 ∧ m.cols = c ∧ toVectors m = some (v0 :: vv) := by
  obtain ⟨l, hl⟩ : ∃ l, l = v0 :: vv := ⟨_, rfl⟩
  have h0 : v0.length = c := hv v0 (by simp)
  have hlen : ∀ i (hi : i < l.length), l[i].length = c := fun i hi => hv _ (by rw [← hl]; exact List.getElem_mem hi)
  let F (i j : Nat) : E := ((l[i]?.getD [])[j]?).getD d
  have hF : ∀ i j (hi : i < l.length) (hj : j < c), (l[i])[j]'(by rw [hlen i hi]; exact hj) = F i j := by
    intro i j hi hj
    simp [F, List.getElem?_eq_getElem hi, List.getElem?_eq_getElem (show j < (l[i]).length by rw [hlen i hi]; exact hj)]
  let P (n : Nat) (t : Mat E) : Prop := WF t ∧ MatShows t l.length c fun i j => if i < n then F i j else d
  have hinit : WF (mkMat b l.length c d) ∧ MatShows (mkMat b l.length c d) l.length c fun _ _ => d := C58_new b l.length c d
  obtain ⟨t, e, ht⟩ := loop_inv
    (fun i (t : Mat E) => (l[i]?).bind fun v => loop (fun k t => (v[k]?).bind fun x => t.put i k x) v.length 0 t)
    P l.length 0 (mkMat b l.length c d) ⟨hinit.1, hinit.2.1, hinit.2.2.1, fun i j hi hj => by rw [hinit.2.2.2 i j hi hj]; simp⟩ (by
      intro i t _ hi ht
      have hi' : i < l.length := by omega
      let Q (k : Nat) (t : Mat E) : Prop := WF t ∧ MatShows t l.length c fun i' j => if i' < i ∨ (i' = i ∧ j < k) then F i' j else d
      obtain ⟨s, e, hs⟩ := loop_inv (fun k t => ((l[i])[k]?).bind fun x => t.put i k x) Q (l[i]).length 0 t
        ⟨ht.1, ht.2.1, ht.2.2.1, fun i' j hi hj => by rw [ht.2.2.2 i' j hi hj]; simp⟩ (by
          intro k s _ hk hs
          rw [hlen i hi'] at hk
          have hk' : k < c := by omega
          obtain ⟨s', e', hw', hs'⟩ := C58_put hs.1 hs.2 hi' hk' (F i k)
          refine ⟨s', ?_, hw', hs'.1, hs'.2.1, fun i' j hi'' hj => ?_⟩
          · rw [List.getElem?_eq_getElem (show k < (l[i]).length by rw [hlen i hi']; exact hk'), hF i k hi' hk']
            exact e'
          · rw [hs'.2.2 i' j hi'' hj]
            beta_reduce
            congr 1
            by_cases hij : i' = i ∧ j = k
            · rw [if_pos hij, if_pos (by omega), hij.1, hij.2]
            · rw [if_neg hij]
              have : (i' < i ∨ (i' = i ∧ j < k)) ↔ (i' < i ∨ (i' = i ∧ j < k + 1)) := by omega
              simp only [this])
      refine ⟨s, by rw [List.getElem?_eq_getElem hi']; exact e, hs.1, hs.2.1, hs.2.2.1, fun i' j hi'' hj => ?_⟩
      rw [hs.2.2.2 i' j hi'' hj]
      beta_reduce
      congr 1
      have : (i' < i ∨ (i' = i ∧ j < 0 + (l[i]).length)) ↔ i' < i + 1 := by
        rw [hlen i hi']
        omega
      simp only [this])
  refine ⟨t, ?_, ht.1, by rw [ht.2.1, hl]; simp, ht.2.2.1, ?_⟩
  · simp only [fromVectors]
    rw [← hl, h0]
    exact e
  · rw [(C58_toVectors ht.1 ht.2).1, ← hl]
    congr 1
    apply List.ext_getElem (by simp)
    intro i h1 h2
    simp only [List.getElem_map, List.getElem_range]
    apply List.ext_getElem (by simp [hlen i h2])
    intro j h3 h4
    simp only [List.getElem_map, List.getElem_range]
    rw [if_pos (by omega), hF i j h2 (by rw [← hlen i h2]; exact h4)]

example : ∃ m, fromVectors 0 [[1, 2], [3, 4], [5, (6 : Int)]] 0 = some m ∧ toVectors m = some [[1, 2], [3, 4], [5, 6]] :=
  let ⟨m, e, _, _, _, h⟩ := C58_fromVectors_roundtrip 0 2 [1, 2] [[3, 4], [5, (6 : Int)]] (by decide) 0
  ⟨m, e, h⟩

/-- **C58, violated** for vectors longer than the first: by default the sizes are not checked, and the excess goes into the next row (third row of the first
example) or beyond the storage. -/
theorem C58_fromVectors_longer_violated :
    (∃ m, fromVectors 0 [[1, 2], [3, 4, (5 : Int)], []] 0 = some m ∧ toVectors m = some [[1, 2], [3, 4], [5, 0]]) ∧
    fromVectors 0 [[1], [2, 3, (4 : Int)]] 0 = none :=
  ⟨⟨_, rfl, by decide⟩, by decide⟩

end Dal
