import Mathlib.Tactic.Ring
import Mathlib.Tactic.Linarith
import Verif.Matrix.ContainerModel

/-! # Lemmas on the matrix container -/

namespace Dal.MatC

variable {E : Type}

/-- The class invariant: room for one row more, and every hook at the beginning of its row. -/
def WF (m : Mat E) : Prop :=
  m.size = (m.rows + 1) * m.cols ∧ ∀ i < m.rows, m.hooks[i]? = some (some (m.block, i * m.cols))

theorem cell_lt {r c i j : Nat} (hi : i < r) (hj : j < c) : i * c + j < r * c := by
  have : (i + 1) * c ≤ r * c := Nat.mul_le_mul_right c hi
  have e : (i + 1) * c = i * c + c := by ring
  omega

theorem cell_inj {c i j i' j' : Nat} (hj : j < c) (hj' : j' < c) (h : i * c + j = i' * c + j') : i = i' ∧ j = j' := by
  have hc : 0 < c := by omega
  have e1 : (i * c + j) / c = i := by rw [Nat.add_comm, Nat.add_mul_div_right _ _ hc, Nat.div_eq_of_lt hj, Nat.zero_add]
  have e2 : (i' * c + j') / c = i' := by rw [Nat.add_comm, Nat.add_mul_div_right _ _ hc, Nat.div_eq_of_lt hj', Nat.zero_add]
  have : i = i' := by rw [← e1, ← e2, h]
  subst this
  exact ⟨rfl, by omega⟩

theorem WF.lt_size {m : Mat E} (h : WF m) {i j : Nat} (hi : i < m.rows) (hj : j < m.cols) : i * m.cols + j < m.size := by
  have := cell_lt hi hj
  rw [h.1]
  have e : (m.rows + 1) * m.cols = m.rows * m.cols + m.cols := by ring
  omega

theorem get_of_WF {m : Mat E} (h : WF m) {i j : Nat} (hi : i < m.rows) (hj : j < m.cols) :
    m.get i j = some (m.vals (i * m.cols + j)) := by
  simp [Mat.get, h.2 i hi, Mat.deref, h.lt_size hi hj]

theorem setHook_rows (m : Mat E) (s : Nat) : (m.setHook s).rows = m.rows := by simp [Mat.setHook, Mat.rows]
theorem setHook_get (m : Mat E) (s i : Nat) :
    (m.setHook s).hooks[i]? = (m.hooks[i]?).map fun h => if s ≤ i then some (m.block, i * m.cols) else h := by
  simp [Mat.setHook]

theorem WF_setHook_zero {m : Mat E} (h : m.size = (m.rows + 1) * m.cols) : WF (m.setHook 0) := by
  refine ⟨by simpa [Mat.setHook, Mat.rows] using h, fun i hi => ?_⟩
  rw [setHook_rows] at hi
  rw [setHook_get]
  have : i < m.hooks.length := hi
  simp [this, Mat.setHook]

theorem WF_mkMat (b r c : Nat) (v : E) : WF (mkMat b r c v) := by
  apply WF_setHook_zero
  simp [Mat.rows]

theorem mkMat_rows (b r c : Nat) (v : E) : (mkMat b r c v).rows = r := by simp [mkMat, Mat.setHook, Mat.rows]
theorem mkMat_cols (b r c : Nat) (v : E) : (mkMat b r c v).cols = c := rfl

theorem WF_copyMat (b : Nat) {m : Mat E} (h : WF m) : WF (copyMat b m) := by
  apply WF_setHook_zero
  simpa [Mat.rows] using h.1

/-- What a write does to an invariant matrix. -/
theorem put_of_WF {m : Mat E} (h : WF m) {i j : Nat} (hi : i < m.rows) (hj : j < m.cols) (v : E) :
    m.put i j v = some { m with vals := fun k => if k = i * m.cols + j then v else m.vals k } := by
  simp [Mat.put, h.2 i hi, Mat.store, h.lt_size hi hj]

theorem putCol_of_WF {m : Mat E} (h : WF m) {i j : Nat} (hi : i < m.rows) (hj : j < m.cols) (v : E) :
    m.putCol j i v = m.put i j v := by
  have h0 : 0 < m.rows := by omega
  have hl := h.lt_size hi hj
  have hl' : j + i * m.cols < m.size := by omega
  rw [put_of_WF h hi hj, Mat.putCol, h.2 0 h0]
  simp only [Option.bind_some, Mat.store, Nat.zero_mul, Nat.zero_add]
  rw [if_pos ⟨trivial, hl'⟩, Nat.add_comm j]

theorem getCol_of_WF {m : Mat E} (h : WF m) {i j : Nat} (hi : i < m.rows) (hj : j < m.cols) :
    m.getCol j i = m.get i j := by
  have h0 : 0 < m.rows := by omega
  have hl := h.lt_size hi hj
  have hl' : j + i * m.cols < m.size := by omega
  rw [get_of_WF h hi hj, Mat.getCol, h.2 0 h0]
  simp only [Option.bind_some, Mat.deref, Nat.zero_mul, Nat.zero_add]
  rw [if_pos ⟨trivial, hl'⟩, Nat.add_comm j]

/-- Writing keeps the invariant and the shape, and changes the one element. -/
theorem put_spec {m : Mat E} (h : WF m) {i j : Nat} (hi : i < m.rows) (hj : j < m.cols) (v : E) :
    ∃ m', m.put i j v = some m' ∧ WF m' ∧ m'.rows = m.rows ∧ m'.cols = m.cols ∧
      ∀ i' j', i' < m.rows → j' < m.cols → m'.get i' j' = if i' = i ∧ j' = j then some v else m.get i' j' := by
  refine ⟨_, put_of_WF h hi hj v, ⟨h.1, h.2⟩, rfl, rfl, fun i' j' hi' hj' => ?_⟩
  have hw : WF ({ m with vals := fun k => if k = i * m.cols + j then v else m.vals k } : Mat E) := ⟨h.1, h.2⟩
  rw [get_of_WF hw hi' hj', get_of_WF h hi' hj']
  by_cases hc : i' = i ∧ j' = j
  · simp [hc.1, hc.2]
  · rw [if_neg hc]
    simp only
    rw [if_neg]
    intro he
    exact hc (cell_inj hj' hj he)

/-- Invariants of loops. -/
theorem loop_inv {S : Type} (body : Nat → S → Option S) (P : Nat → S → Prop) :
    ∀ (n start : Nat) (s : S), P start s →
      (∀ i s, start ≤ i → i < start + n → P i s → ∃ s', body i s = some s' ∧ P (i + 1) s') →
      ∃ s', loop body n start s = some s' ∧ P (start + n) s'
  | 0, start, s, h, _ => ⟨s, rfl, h⟩
  | n + 1, start, s, h, hs => by
    obtain ⟨s1, e1, h1⟩ := hs start s (Nat.le_refl _) (by omega) h
    obtain ⟨s2, e2, h2⟩ := loop_inv body P n (start + 1) s1 h1 (fun i t a b c => hs i t (by omega) (by omega) c)
    refine ⟨s2, by simp [loop, e1, e2], ?_⟩
    rwa [show start + (n + 1) = start + 1 + n by omega]

/-- Copying rows: nothing undefined happens, and the copied cells hold the elements of the old matrix. -/
theorem copyRows_spec {m : Mat E} (h : WF m) {cols nCopy : Nat} (hn : nCopy ≤ m.cols) (hc : nCopy ≤ cols) (d : E) :
    ∀ (n ir : Nat) (out : Nat → E), ir + n ≤ m.rows →
      (∀ i j, j < cols → out (i * cols + j) = if i < ir ∧ j < nCopy then m.vals (i * m.cols + j) else d) →
      ∃ out', copyRows m cols nCopy n ir out = some out' ∧
        ∀ i j, j < cols → out' (i * cols + j) = if i < ir + n ∧ j < nCopy then m.vals (i * m.cols + j) else d
  | 0, ir, out, _, ho => ⟨out, rfl, fun i j hj => by rw [ho i j hj]; simp⟩
  | n + 1, ir, out, hr, ho => by
    have hi : ir < m.rows := by omega
    have hs : nCopy = 0 ∨ ir * m.cols + nCopy ≤ m.size := by
      by_cases h0 : nCopy = 0
      · exact Or.inl h0
      · right
        have := h.lt_size hi (j := nCopy - 1) (by omega)
        omega
    obtain ⟨out', e, hout⟩ := copyRows_spec h hn hc d n (ir + 1)
      (fun k => if ir * cols ≤ k ∧ k < ir * cols + nCopy then m.vals (ir * m.cols + (k - ir * cols)) else out k) (by omega) (by
        intro i j hj
        by_cases hb : ir * cols ≤ i * cols + j ∧ i * cols + j < ir * cols + nCopy
        · obtain ⟨x, hx⟩ : ∃ x, i * cols + j = ir * cols + x := ⟨i * cols + j - ir * cols, by omega⟩
          obtain ⟨e1, e2⟩ := cell_inj hj (show x < cols by omega) hx
          subst e1; subst e2
          rw [if_pos hb, if_pos ⟨by omega, by omega⟩]
          congr 1
          omega
        · rw [if_neg hb, ho i j hj]
          by_cases hj' : j < nCopy
          · have hne : i ≠ ir := by
              rintro rfl
              exact hb ⟨by omega, by omega⟩
            have : (i < ir + 1 ∧ j < nCopy) ↔ (i < ir ∧ j < nCopy) := by omega
            simp only [this]
          · simp [hj'])
    refine ⟨out', ?_, fun i j hj => by rw [hout i j hj, show ir + 1 + n = ir + (n + 1) by omega]⟩
    rw [copyRows]
    simp only [h.2 ir hi]
    rw [if_pos (by tauto)]
    exact e

theorem resizeHooks_length (n : Nat) (l : List (Option (Nat × Nat))) : (resizeHooks n l).length = n := by
  simp only [resizeHooks, List.length_append, List.length_take, List.length_replicate]
  omega

theorem resizeHooks_get {n i : Nat} {l : List (Option (Nat × Nat))} (hi : i < n) (hl : i < l.length) :
    (resizeHooks n l)[i]? = l[i]? := by
  rw [resizeHooks, List.getElem?_append_left (by simp; omega), List.getElem?_take]
  simp [hi]

/-- Everything about `Resize` of an invariant matrix. -/
theorem resize_spec {m : Mat E} (h : WF m) (r c : Nat) (moved : Bool) (fresh : Nat) (d : E) :
    ∃ m', m.resize r c moved fresh d = some m' ∧ WF m' ∧ m'.rows = r ∧ m'.cols = c ∧
      ∀ i j, i < r → j < c → m'.get i j = some (if c = m.cols ∧ r * m.rows > 0 then (if i * c + j < m.size then m.vals (i * c + j) else d)
        else if i < m.rows ∧ j < m.cols then m.vals (i * m.cols + j) else d) := by
  unfold Mat.resize
  simp only
  by_cases hb : c = m.cols ∧ r * m.rows > 0
  · rw [if_pos hb]
    have hr : 0 < r := Nat.pos_of_ne_zero (by rintro rfl; simp at hb)
    have ho : 0 < m.rows := Nat.pos_of_ne_zero (by intro h0; rw [h0] at hb; simp at hb)
    have hh : (resizeHooks r m.hooks)[0]? = some (some (m.block, 0)) := by
      rw [resizeHooks_get hr ho, h.2 0 ho]; simp
    simp only [hh]
    let b := if moved then fresh else m.block
    let m1 : Mat E := ⟨b, (r + 1) * c, fun k => if k < m.size then m.vals k else d, c, resizeHooks r m.hooks⟩
    have hwf : WF (m1.setHook (if some (m.block, 0) = some (b, 0) then m.rows else 0)) := by
      refine ⟨by simp [Mat.setHook, Mat.rows, m1, resizeHooks_length], fun i hi => ?_⟩
      have hi' : i < r := by
        simpa [Mat.setHook, Mat.rows, m1, resizeHooks_length] using hi
      rw [setHook_get]
      have hl : i < m1.hooks.length := by simp [m1, resizeHooks_length, hi']
      rw [List.getElem?_eq_getElem hl]
      simp only [Option.map_some]
      congr 1
      by_cases hmv : some (m.block, 0) = some (b, 0)
      · simp only [if_pos hmv]
        by_cases hge : m.rows ≤ i
        · rw [if_pos hge]; rfl
        · rw [if_neg hge]
          have hbb : m.block = b := by injection hmv with h1; injection h1
          have e := resizeHooks_get (n := r) hi' (show i < m.hooks.length by unfold Mat.rows at hge; omega)
          have e2 : m1.hooks[i]? = some (some (m.block, i * m.cols)) := by
            show (resizeHooks r m.hooks)[i]? = _
            rw [e, h.2 i (by omega)]
          rw [List.getElem?_eq_getElem hl] at e2
          injection e2 with e2
          rw [e2, hbb, ← hb.1]
          rfl
      · simp only [if_neg hmv]
        rw [if_pos (Nat.zero_le i)]; rfl
    refine ⟨_, rfl, hwf, by simp [Mat.setHook, Mat.rows, resizeHooks_length], rfl, fun i j hi hj => ?_⟩
    rw [if_pos hb]
    have := get_of_WF hwf (i := i) (j := j) (by simpa [Mat.setHook, Mat.rows, m1, resizeHooks_length] using hi) hj
    exact this
  · rw [if_neg hb]
    obtain ⟨out, e, ho⟩ := copyRows_spec h (cols := c) (nCopy := min c m.cols) (Nat.min_le_right _ _) (Nat.min_le_left _ _) d
      (min r m.rows) 0 (fun _ => d) (by omega) (by intro i j _; simp)
    rw [e]
    have hwf : WF (Mat.setHook (⟨fresh, (r + 1) * c, out, c, resizeHooks r m.hooks⟩ : Mat E) 0) := by
      apply WF_setHook_zero
      simp [Mat.rows, resizeHooks_length]
    refine ⟨_, rfl, hwf, by simp [Mat.setHook, Mat.rows, resizeHooks_length], rfl, fun i j hi hj => ?_⟩
    rw [if_neg hb, get_of_WF hwf (by simpa [Mat.setHook, Mat.rows, resizeHooks_length] using hi) hj]
    show some (out (i * c + j)) = _
    rw [ho i j hj]
    congr 1
    have : (i < 0 + min r m.rows ∧ j < min c m.cols) ↔ (i < m.rows ∧ j < m.cols) := by omega
    simp only [this]

end Dal.MatC
