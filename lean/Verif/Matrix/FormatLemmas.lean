import Mathlib.Tactic.Ring
import Mathlib.Tactic.Linarith
import Verif.Matrix.FormatModel
import Verif.Matrix.ContainerLemmas

/-! # Lemmas on the matrix format language: what the writers write -/

namespace Dal.Fmt
open MatC

variable {E : Type}

/-- Destination row of an input coordinate. -/
def View.row (v : View) (i j : Int) : Int := v.rowOffset + v.r2r * i + v.c2r * j
/-- Destination column of an input coordinate. -/
def View.col (v : View) (i j : Int) : Int := v.colOffset + v.r2c * i + v.c2c * j

theorem transpose_row (v : View) (i j : Int) : v.transpose.row i j = v.row j i := by simp only [View.transpose, View.row]; ring
theorem transpose_col (v : View) (i j : Int) : v.transpose.col i j = v.col j i := by simp only [View.transpose, View.col]; ring
theorem invert_row (v : View) (r c i j : Int) : (v.invert r c).row i j = v.row (r - 1 - i) (c - 1 - j) := by simp only [View.invert, View.row]; ring
theorem invert_col (v : View) (r c i j : Int) : (v.invert r c).col i j = v.col (r - 1 - i) (c - 1 - j) := by simp only [View.invert, View.col]; ring
theorem shift_row (v : View) (x y i j : Int) : (v.shift x y).row i j = v.row (i + x) (j + y) := by simp only [View.shift, View.row]; ring
theorem shift_col (v : View) (x y i j : Int) : (v.shift x y).col i j = v.col (i + x) (j + y) := by simp only [View.shift, View.col]; ring
theorem flatten_row (v : View) (n i j : Int) : (v.flatten n).row i j = v.row 0 (n * i + j) := by simp only [View.flatten, View.row]; ring
theorem flatten_col (v : View) (n i j : Int) : (v.flatten n).col i j = v.col 0 (n * i + j) := by simp only [View.flatten, View.col]; ring

/-- The view maps the shape into the table, one to one. -/
structure Good (v : View) (r c : Nat) (dst : Table E) : Prop where
  inside : ∀ i j : Nat, i < r → j < c → 0 ≤ v.row i j ∧ v.row i j < dst.rows ∧ 0 ≤ v.col i j ∧ v.col i j < dst.cols
  inj : ∀ i j i' j' : Nat, i < r → j < c → i' < r → j' < c → v.row i j = v.row i' j' → v.col i j = v.col i' j' → i = i' ∧ j = j'

/-- The view sends `(i, j)` to `(p, q)`. -/
def Hits (v : View) (i j p q : Nat) : Prop := v.row i j = p ∧ v.col i j = q

/-- The table `dst'` is `dst` with the cells of the shape written where `f` gives something. -/
structure Done (v : View) (r c : Nat) (f : Nat → Nat → Option E) (dst dst' : Table E) : Prop where
  rows : dst'.rows = dst.rows
  cols : dst'.cols = dst.cols
  on : ∀ i j p q : Nat, i < r → j < c → Hits v i j p q → dst'.at' p q = (f i j).getD (dst.at' p q)
  off : ∀ p q : Nat, (∀ i j : Nat, i < r → j < c → ¬Hits v i j p q) → dst'.at' p q = dst.at' p q

theorem Good.congr {v : View} {r c : Nat} {dst dst' : Table E} (h : Good v r c dst) (hr : dst'.rows = dst.rows) (hc : dst'.cols = dst.cols) :
    Good v r c dst' := ⟨fun i j hi hj => by rw [hr, hc]; exact h.inside i j hi hj, h.inj⟩

theorem Good.sub {u v : View} {r c r' c' : Nat} {dst : Table E} (h : Good v r c dst) (φ ψ : Nat → Nat → Nat)
    (hrow : ∀ i j, i < r' → j < c' → u.row i j = v.row (φ i j) (ψ i j)) (hcol : ∀ i j, i < r' → j < c' → u.col i j = v.col (φ i j) (ψ i j))
    (hin : ∀ i j, i < r' → j < c' → φ i j < r ∧ ψ i j < c)
    (hinj : ∀ i j i' j', i < r' → j < c' → i' < r' → j' < c' → φ i j = φ i' j' → ψ i j = ψ i' j' → i = i' ∧ j = j') : Good u r' c' dst := by
  refine ⟨fun i j hi hj => ?_, fun i j i' j' hi hj hi' hj' h1 h2 => ?_⟩
  · rw [hrow i j hi hj, hcol i j hi hj]
    exact h.inside _ _ (hin i j hi hj).1 (hin i j hi hj).2
  · rw [hrow i j hi hj, hrow i' j' hi' hj'] at h1
    rw [hcol i j hi hj, hcol i' j' hi' hj'] at h2
    obtain ⟨a, b⟩ := h.inj _ _ _ _ (hin i j hi hj).1 (hin i j hi hj).2 (hin i' j' hi' hj').1 (hin i' j' hi' hj').2 h1 h2
    exact hinj i j i' j' hi hj hi' hj' a b

theorem Done.of_bij {u v : View} {r c r' c' : Nat} {f g : Nat → Nat → Option E} {dst dst' : Table E} (h : Done u r' c' f dst dst')
    (φ ψ φ' ψ' : Nat → Nat → Nat)
    (hrow : ∀ i j, i < r' → j < c' → u.row i j = v.row (φ i j) (ψ i j)) (hcol : ∀ i j, i < r' → j < c' → u.col i j = v.col (φ i j) (ψ i j))
    (hin : ∀ i j, i < r' → j < c' → φ i j < r ∧ ψ i j < c)
    (hback : ∀ i j, i < r → j < c → φ' i j < r' ∧ ψ' i j < c' ∧ φ (φ' i j) (ψ' i j) = i ∧ ψ (φ' i j) (ψ' i j) = j ∧ g i j = f (φ' i j) (ψ' i j)) :
    Done v r c g dst dst' := by
  refine ⟨h.rows, h.cols, fun i j p q hi hj hh => ?_, fun p q hn => ?_⟩
  · obtain ⟨h1, h2, h3, h4, h5⟩ := hback i j hi hj
    rw [h5]
    refine h.on _ _ p q h1 h2 ⟨?_, ?_⟩
    · rw [hrow _ _ h1 h2, h3, h4]; exact hh.1
    · rw [hcol _ _ h1 h2, h3, h4]; exact hh.2
  · refine h.off p q fun i j hi hj hh => hn (φ i j) (ψ i j) (hin i j hi hj).1 (hin i j hi hj).2 ⟨?_, ?_⟩
    · rw [← hrow i j hi hj]; exact hh.1
    · rw [← hcol i j hi hj]; exact hh.2

theorem Done.congr_fun {v : View} {r c : Nat} {f g : Nat → Nat → Option E} {dst dst' : Table E} (h : Done v r c f dst dst')
    (hfg : ∀ i j, i < r → j < c → g i j = f i j) : Done v r c g dst dst' :=
  ⟨h.rows, h.cols, fun i j p q hi hj hh => by rw [hfg i j hi hj]; exact h.on i j p q hi hj hh, h.off⟩

/-- One write. -/
theorem write_cell {v : View} {dst : Table E} {i j : Nat} (x : E)
    (h : 0 ≤ v.row i j ∧ v.row i j < dst.rows ∧ 0 ≤ v.col i j ∧ v.col i j < dst.cols) :
    ∃ dst', v.write i j x dst = some dst' ∧ dst'.rows = dst.rows ∧ dst'.cols = dst.cols ∧
      (∀ p q, Hits v i j p q → dst'.at' p q = x) ∧ (∀ p q, ¬Hits v i j p q → dst'.at' p q = dst.at' p q) := by
  refine ⟨⟨dst.rows, dst.cols, fun p q => if p = (v.row i j).toNat ∧ q = (v.col i j).toNat then x else dst.at' p q⟩, ?_, rfl, rfl,
    fun p q hh => ?_, fun p q hn => ?_⟩
  · exact if_pos h
  · show (if p = (v.row i j).toNat ∧ q = (v.col i j).toNat then x else dst.at' p q) = x
    rw [if_pos]
    rw [hh.1, hh.2]
    simp
  · show (if p = (v.row i j).toNat ∧ q = (v.col i j).toNat then x else dst.at' p q) = dst.at' p q
    rw [if_neg]
    rintro ⟨h1, h2⟩
    refine hn ⟨?_, ?_⟩
    · rw [h1, Int.toNat_of_nonneg h.1]
    · rw [h2, Int.toNat_of_nonneg h.2.2.1]

/-- The loops of `ArgWriter_::Write`. -/
theorem write_arg {v : View} {dst : Table E} (t : Table E) (h : Good v t.rows t.cols dst) :
    ∃ dst', loop (fun ir dst => loop (fun ic dst => v.write ir ic (t.at' ir ic) dst) t.cols 0 dst) t.rows 0 dst = some dst' ∧
      Done v t.rows t.cols (fun i j => some (t.at' i j)) dst dst' := by
  -- after rows below `n` and in row `n` the columns below `m`
  let P (n m : Nat) (s : Table E) : Prop := Done v t.rows t.cols (fun i j => if i < n ∨ (i = n ∧ j < m) then some (t.at' i j) else none) dst s
  obtain ⟨s, e, hs⟩ := loop_inv (fun ir dst => loop (fun ic dst => v.write ir ic (t.at' ir ic) dst) t.cols 0 dst) (fun n s => P n 0 s) t.rows 0 dst
    ⟨rfl, rfl, fun i j p q _ _ _ => by rw [if_neg (by omega)]; rfl, fun _ _ _ => rfl⟩ (by
      intro n s _ hn hs
      have hn' : n < t.rows := by omega
      obtain ⟨s', e', hs'⟩ := loop_inv (fun ic dst => v.write n ic (t.at' n ic) dst) (fun m s => P n m s) t.cols 0 s hs (by
        intro m s _ hm hs
        have hm' : m < t.cols := by omega
        obtain ⟨s', e', hr, hc, hon, hoff⟩ := write_cell (v := v) (dst := s) (i := n) (j := m) (t.at' n m) (by
          rw [hs.rows, hs.cols]; exact h.inside n m hn' hm')
        refine ⟨s', e', by rw [hr, hs.rows], by rw [hc, hs.cols], fun i j p q hi hj hh => ?_, fun p q hno => ?_⟩
        · by_cases hij : i = n ∧ j = m
          · obtain ⟨rfl, rfl⟩ := hij
            rw [if_pos (by omega), hon p q hh]; rfl
          · rw [hoff p q, hs.on i j p q hi hj hh]
            · have : (i < n ∨ (i = n ∧ j < m)) ↔ (i < n ∨ (i = n ∧ j < m + 1)) := by omega
              simp only [this]
            · intro hh'
              exact hij (h.inj i j n m hi hj hn' hm' (by rw [hh.1, hh'.1]) (by rw [hh.2, hh'.2]))
        · rw [hoff p q (hno n m hn' hm'), hs.off p q hno])
      refine ⟨s', e', hs'.congr_fun fun i j hi hj => ?_⟩
      have : (i < n + 1 ∨ (i = n + 1 ∧ j < 0)) ↔ (i < n ∨ (i = n ∧ j < 0 + t.cols)) := by omega
      simp only [this])
  refine ⟨s, e, hs.congr_fun fun i j hi hj => ?_⟩
  rw [if_pos (by omega)]

mutual
/-- The specification: the cell of a layout at `(i, j)`, if the layout has something there. -/
def W.sem (d : E) (args : List (Table E)) : W → Nat → Nat → Option E
  | .arg k, i, j => (args[k]?).map fun t => t.at' i j
  | .cell, _, _ => some d
  | .tr b, i, j => b.sem d args j i
  | .inv b, i, j => b.sem d args (b.rows args - 1 - i) (b.cols args - 1 - j)
  | .lin b, _, j => b.sem d args (j / b.cols args) (j % b.cols args)
  | .hor bottom es, i, j => es.semH d args bottom (es.maxRows args) i j
  | .ver right es, i, j => es.semV d args right (es.maxCols args) i j
/-- Elements side by side, at the top or at the bottom of the height. -/
def Ws.semH (d : E) (args : List (Table E)) (bottom : Bool) (height : Nat) : Ws → Nat → Nat → Option E
  | .nil, _, _ => none
  | .cons e es, i, j =>
    let top := if bottom then height - e.rows args else 0
    if j < e.cols args then (if top ≤ i ∧ i < top + e.rows args then e.sem d args (i - top) j else none)
    else es.semH d args bottom height i (j - e.cols args)
/-- Elements below one another, at the left or at the right of the width. -/
def Ws.semV (d : E) (args : List (Table E)) (right : Bool) (width : Nat) : Ws → Nat → Nat → Option E
  | .nil, _, _ => none
  | .cons e es, i, j =>
    let left := if right then width - e.cols args else 0
    if i < e.rows args then (if left ≤ j ∧ j < left + e.cols args then e.sem d args i (j - left) else none)
    else es.semV d args right width (i - e.rows args) j
end

mutual
theorem W.write_spec (d : E) (args : List (Table E)) : ∀ (w : W) (v : View) (dst : Table E), Good v (w.rows args) (w.cols args) dst →
    ∃ dst', w.write d args v dst = some dst' ∧ Done v (w.rows args) (w.cols args) (w.sem d args) dst dst'
  | .arg k, v, dst, h => by
    cases ht : args[k]? with
    | none =>
      refine ⟨dst, by simp [W.write, ht], rfl, rfl, fun i j p q hi => ?_, fun _ _ _ => rfl⟩
      simp [W.rows, ht] at hi
    | some t =>
      have hr : (W.arg k).rows args = t.rows := by simp [W.rows, ht]
      have hc : (W.arg k).cols args = t.cols := by simp [W.cols, ht]
      rw [hr, hc] at h ⊢
      obtain ⟨dst', e, hd⟩ := write_arg t h
      refine ⟨dst', by simp only [W.write, ht]; exact e, hd.congr_fun fun i j _ _ => by simp [W.sem, ht]⟩
  | .cell, v, dst, h => by
    obtain ⟨s', e', hr, hc, hon, hoff⟩ := write_cell (v := v) (dst := dst) (i := 0) (j := 0) d (h.inside 0 0 (by simp [W.rows]) (by simp [W.cols]))
    refine ⟨s', by simp only [W.write]; exact e', hr, hc, fun i j p q hi hj hh => ?_, fun p q hno => ?_⟩
    · have hi' : i = 0 := by simp [W.rows] at hi; exact hi
      have hj' : j = 0 := by simp [W.cols] at hj; exact hj
      subst hi'; subst hj'
      rw [hon p q hh]
      simp [W.sem]
    · exact hoff p q (hno 0 0 (by simp [W.rows]) (by simp [W.cols]))
  | .tr b, v, dst, h => by
    have hr : (W.tr b).rows args = b.cols args := by simp [W.rows]
    have hc : (W.tr b).cols args = b.rows args := by simp [W.cols]
    rw [hr, hc] at h ⊢
    obtain ⟨dst', e, hd⟩ := b.write_spec d args v.transpose dst (h.sub (fun _ j => j) (fun i _ => i) (fun i j _ _ => transpose_row v i j)
      (fun i j _ _ => transpose_col v i j) (fun i j hi hj => ⟨hj, hi⟩) (fun i j i' j' _ _ _ _ a b => ⟨b, a⟩))
    refine ⟨dst', by simp only [W.write]; exact e, hd.of_bij (fun _ j => j) (fun i _ => i) (fun _ j => j) (fun i _ => i)
      (fun i j _ _ => transpose_row v i j) (fun i j _ _ => transpose_col v i j) (fun i j hi hj => ⟨hj, hi⟩)
      (fun i j hi hj => ⟨hj, hi, rfl, rfl, by simp [W.sem]⟩)⟩
  | .inv b, v, dst, h => by
    have hr : (W.inv b).rows args = b.rows args := by simp [W.rows]
    have hc : (W.inv b).cols args = b.cols args := by simp [W.cols]
    rw [hr, hc] at h ⊢
    have e1 : ∀ i j, i < b.rows args → j < b.cols args → (v.invert (b.rows args) (b.cols args)).row i j =
        v.row ((b.rows args - 1 - i : Nat) : Int) ((b.cols args - 1 - j : Nat) : Int) := fun i j hi hj => by
      rw [invert_row]; congr 1 <;> omega
    have e2 : ∀ i j, i < b.rows args → j < b.cols args → (v.invert (b.rows args) (b.cols args)).col i j =
        v.col ((b.rows args - 1 - i : Nat) : Int) ((b.cols args - 1 - j : Nat) : Int) := fun i j hi hj => by
      rw [invert_col]; congr 1 <;> omega
    obtain ⟨dst', e, hd⟩ := b.write_spec d args (v.invert (b.rows args) (b.cols args)) dst
      (h.sub (fun i _ => b.rows args - 1 - i) (fun _ j => b.cols args - 1 - j) e1 e2 (fun i j hi hj => ⟨by omega, by omega⟩)
        (fun i j i' j' _ _ _ _ a b => ⟨by omega, by omega⟩))
    refine ⟨dst', by simp only [W.write]; exact e, hd.of_bij (fun i _ => b.rows args - 1 - i) (fun _ j => b.cols args - 1 - j)
      (fun i _ => b.rows args - 1 - i) (fun _ j => b.cols args - 1 - j) e1 e2 (fun i j hi hj => ⟨by omega, by omega⟩)
      (fun i j hi hj => ⟨by omega, by omega, by omega, by omega, by simp [W.sem]⟩)⟩
  | .lin b, v, dst, h => by
    have hr : (W.lin b).rows args = 1 := by simp [W.rows]
    have hc : (W.lin b).cols args = b.rows args * b.cols args := by simp [W.cols]
    rw [hr, hc] at h ⊢
    have e1 : ∀ i j, i < b.rows args → j < b.cols args → (v.flatten (b.cols args)).row i j =
        v.row ((0 : Nat) : Int) ((i * b.cols args + j : Nat) : Int) := fun i j hi hj => by
      rw [flatten_row]; congr 1; push_cast; ring
    have e2 : ∀ i j, i < b.rows args → j < b.cols args → (v.flatten (b.cols args)).col i j =
        v.col ((0 : Nat) : Int) ((i * b.cols args + j : Nat) : Int) := fun i j hi hj => by
      rw [flatten_col]; congr 1; push_cast; ring
    obtain ⟨dst', e, hd⟩ := b.write_spec d args (v.flatten (b.cols args)) dst
      (h.sub (fun _ _ => 0) (fun i j => i * b.cols args + j) e1 e2 (fun i j hi hj => ⟨by omega, cell_lt hi hj⟩)
        (fun i j i' j' _ hj _ hj' _ b => cell_inj hj hj' b))
    refine ⟨dst', by simp only [W.write]; exact e, hd.of_bij (fun _ _ => 0) (fun i j => i * b.cols args + j)
      (fun _ j => j / b.cols args) (fun _ j => j % b.cols args) e1 e2 (fun i j hi hj => ⟨by omega, cell_lt hi hj⟩)
      (fun i j hi hj => ?_)⟩
    have hpos : 0 < b.cols args := Nat.pos_of_ne_zero (by intro h0; rw [h0, Nat.mul_zero] at hj; omega)
    refine ⟨Nat.div_lt_of_lt_mul (by rw [Nat.mul_comm]; exact hj), Nat.mod_lt _ hpos, by omega, ?_, by simp [W.sem]⟩
    rw [Nat.mul_comm]
    exact Nat.div_add_mod j (b.cols args)
  | .hor bottom es, v, dst, h => by
    have hr : (W.hor bottom es).rows args = es.maxRows args := by simp [W.rows]
    have hc : (W.hor bottom es).cols args = es.sumCols args := by simp [W.cols]
    rw [hr, hc] at h ⊢
    obtain ⟨dst', e, hd⟩ := es.writeH_spec d args bottom (es.maxRows args) (le_refl _) v dst h
    exact ⟨dst', by simp only [W.write]; exact e, hd.congr_fun fun i j _ _ => by simp [W.sem]⟩
  | .ver right es, v, dst, h => by
    have hr : (W.ver right es).rows args = es.sumRows args := by simp [W.rows]
    have hc : (W.ver right es).cols args = es.maxCols args := by simp [W.cols]
    rw [hr, hc] at h ⊢
    obtain ⟨dst', e, hd⟩ := es.writeV_spec d args right (es.maxCols args) (le_refl _) v dst h
    exact ⟨dst', by simp only [W.write]; exact e, hd.congr_fun fun i j _ _ => by simp [W.sem]⟩
theorem Ws.writeH_spec (d : E) (args : List (Table E)) (bottom : Bool) (H : Nat) : ∀ (es : Ws), es.maxRows args ≤ H → ∀ (v : View) (dst : Table E),
    Good v H (es.sumCols args) dst →
    ∃ dst', es.writeH d args bottom (if bottom then H else 0) v dst = some dst' ∧ Done v H (es.sumCols args) (es.semH d args bottom H) dst dst'
  | .nil, _, v, dst, h => by
    refine ⟨dst, by simp [Ws.writeH], rfl, rfl, fun i j p q _ hj => ?_, fun _ _ _ => rfl⟩
    simp [Ws.sumCols] at hj
  | .cons e es, hm, v, dst, h => by
    have hc : (Ws.cons e es).sumCols args = e.cols args + es.sumCols args := by simp [Ws.sumCols]
    have hmax : (Ws.cons e es).maxRows args = max (e.rows args) (es.maxRows args) := by simp [Ws.maxRows]
    rw [hmax] at hm
    have hm1 : e.rows args ≤ H := by omega
    rw [hc] at h ⊢
    obtain ⟨top, htop⟩ : ∃ top : Nat, top = if bottom then H - e.rows args else 0 := ⟨_, rfl⟩
    have htop' : (if bottom then ((if bottom then H else 0 : Nat) : Int) - e.rows args else 0) = (top : Int) := by
      cases bottom <;> simp [htop] <;> omega
    have htH : top + e.rows args ≤ H := by cases bottom <;> simp [htop] <;> omega
    have e1 : ∀ i j, i < e.rows args → j < e.cols args → (v.shift top 0).row i j = v.row ((i + top : Nat) : Int) ((j : Nat) : Int) := fun i j _ _ => by
      rw [shift_row]; congr 1 <;> omega
    have e2 : ∀ i j, i < e.rows args → j < e.cols args → (v.shift top 0).col i j = v.col ((i + top : Nat) : Int) ((j : Nat) : Int) := fun i j _ _ => by
      rw [shift_col]; congr 1 <;> omega
    obtain ⟨dst1, w1, hd1⟩ := e.write_spec d args (v.shift top 0) dst
      (h.sub (fun i _ => i + top) (fun _ j => j) e1 e2 (fun i j hi hj => ⟨by omega, by omega⟩) (fun i j i' j' _ _ _ _ a b => ⟨by omega, b⟩))
    have e3 : ∀ i j, i < H → j < es.sumCols args → ((v.shift top 0).shift (-(top : Int)) (e.cols args)).row i j =
        v.row ((i : Nat) : Int) ((j + e.cols args : Nat) : Int) := fun i j _ _ => by
      rw [shift_row, shift_row]; congr 1 <;> omega
    have e4 : ∀ i j, i < H → j < es.sumCols args → ((v.shift top 0).shift (-(top : Int)) (e.cols args)).col i j =
        v.col ((i : Nat) : Int) ((j + e.cols args : Nat) : Int) := fun i j _ _ => by
      rw [shift_col, shift_col]; congr 1 <;> omega
    obtain ⟨dst2, w2, hd2⟩ := es.writeH_spec d args bottom H (by omega) ((v.shift top 0).shift (-(top : Int)) (e.cols args)) dst1
      ((h.congr hd1.rows hd1.cols).sub (fun i _ => i) (fun _ j => j + e.cols args) e3 e4 (fun i j hi hj => ⟨hi, by omega⟩)
        (fun i j i' j' _ _ _ _ a b => ⟨a, by omega⟩))
    refine ⟨dst2, ?_, by rw [hd2.rows, hd1.rows], by rw [hd2.cols, hd1.cols], fun i j p q hi hj hh => ?_, fun p q hno => ?_⟩
    · simp only [Ws.writeH, htop', w1, Option.bind_some]
      exact w2
    · simp only [Ws.semH]
      rw [← htop]
      by_cases hje : j < e.cols args
      · rw [if_pos hje, hd2.off p q]
        · by_cases hie : top ≤ i ∧ i < top + e.rows args
          · rw [if_pos hie]
            refine hd1.on (i - top) j p q (by omega) hje ⟨?_, ?_⟩
            · rw [e1 _ _ (by omega) hje, Nat.sub_add_cancel hie.1]; exact hh.1
            · rw [e2 _ _ (by omega) hje, Nat.sub_add_cancel hie.1]; exact hh.2
          · rw [if_neg hie, hd1.off p q]
            · rfl
            · intro i' j' hi' hj' hh'
              have := h.inj i j (i' + top) j' hi hj (by omega) (by omega) (by rw [hh.1, ← e1 i' j' hi' hj', hh'.1])
                (by rw [hh.2, ← e2 i' j' hi' hj', hh'.2])
              omega
        · intro i' j' hi' hj' hh'
          have := h.inj i j i' (j' + e.cols args) hi hj hi' (by omega) (by rw [hh.1, ← e3 i' j' hi' hj', hh'.1])
            (by rw [hh.2, ← e4 i' j' hi' hj', hh'.2])
          omega
      · rw [if_neg hje]
        have h1 : dst1.at' p q = dst.at' p q := hd1.off p q fun i' j' hi' hj' hh' => by
          have := h.inj i j (i' + top) j' hi hj (by omega) (by omega) (by rw [hh.1, ← e1 i' j' hi' hj', hh'.1])
            (by rw [hh.2, ← e2 i' j' hi' hj', hh'.2])
          omega
        rw [← h1]
        refine hd2.on i (j - e.cols args) p q hi (by omega) ⟨?_, ?_⟩
        · rw [e3 _ _ hi (by omega), Nat.sub_add_cancel (by omega)]; exact hh.1
        · rw [e4 _ _ hi (by omega), Nat.sub_add_cancel (by omega)]; exact hh.2
    · rw [hd2.off p q, hd1.off p q]
      · intro i' j' hi' hj' hh'
        exact hno (i' + top) j' (by omega) (by omega) ⟨by rw [← e1 i' j' hi' hj']; exact hh'.1, by rw [← e2 i' j' hi' hj']; exact hh'.2⟩
      · intro i' j' hi' hj' hh'
        exact hno i' (j' + e.cols args) hi' (by omega) ⟨by rw [← e3 i' j' hi' hj']; exact hh'.1, by rw [← e4 i' j' hi' hj']; exact hh'.2⟩
theorem Ws.writeV_spec (d : E) (args : List (Table E)) (right : Bool) (H : Nat) : ∀ (es : Ws), es.maxCols args ≤ H → ∀ (v : View) (dst : Table E),
    Good v (es.sumRows args) H dst →
    ∃ dst', es.writeV d args right (if right then H else 0) v dst = some dst' ∧ Done v (es.sumRows args) H (es.semV d args right H) dst dst'
  | .nil, _, v, dst, h => by
    refine ⟨dst, by simp [Ws.writeV], rfl, rfl, fun i j p q hi => ?_, fun _ _ _ => rfl⟩
    simp [Ws.sumRows] at hi
  | .cons e es, hm, v, dst, h => by
    have hc : (Ws.cons e es).sumRows args = e.rows args + es.sumRows args := by simp [Ws.sumRows]
    have hmax : (Ws.cons e es).maxCols args = max (e.cols args) (es.maxCols args) := by simp [Ws.maxCols]
    rw [hmax] at hm
    have hm1 : e.cols args ≤ H := by omega
    rw [hc] at h ⊢
    obtain ⟨top, htop⟩ : ∃ top : Nat, top = if right then H - e.cols args else 0 := ⟨_, rfl⟩
    have htop' : (if right then ((if right then H else 0 : Nat) : Int) - e.cols args else 0) = (top : Int) := by
      cases right <;> simp [htop] <;> omega
    have htH : top + e.cols args ≤ H := by cases right <;> simp [htop] <;> omega
    have e1 : ∀ i j, i < e.rows args → j < e.cols args → (v.shift 0 top).row i j = v.row ((i : Nat) : Int) ((j + top : Nat) : Int) := fun i j _ _ => by
      rw [shift_row]; congr 1 <;> omega
    have e2 : ∀ i j, i < e.rows args → j < e.cols args → (v.shift 0 top).col i j = v.col ((i : Nat) : Int) ((j + top : Nat) : Int) := fun i j _ _ => by
      rw [shift_col]; congr 1 <;> omega
    obtain ⟨dst1, w1, hd1⟩ := e.write_spec d args (v.shift 0 top) dst
      (h.sub (fun i _ => i) (fun _ j => j + top) e1 e2 (fun i j hi hj => ⟨by omega, by omega⟩) (fun i j i' j' _ _ _ _ a b => ⟨a, by omega⟩))
    have e3 : ∀ i j, i < es.sumRows args → j < H → ((v.shift 0 top).shift (e.rows args) (-(top : Int))).row i j =
        v.row ((i + e.rows args : Nat) : Int) ((j : Nat) : Int) := fun i j _ _ => by
      rw [shift_row, shift_row]; congr 1 <;> omega
    have e4 : ∀ i j, i < es.sumRows args → j < H → ((v.shift 0 top).shift (e.rows args) (-(top : Int))).col i j =
        v.col ((i + e.rows args : Nat) : Int) ((j : Nat) : Int) := fun i j _ _ => by
      rw [shift_col, shift_col]; congr 1 <;> omega
    obtain ⟨dst2, w2, hd2⟩ := es.writeV_spec d args right H (by omega) ((v.shift 0 top).shift (e.rows args) (-(top : Int))) dst1
      ((h.congr hd1.rows hd1.cols).sub (fun i _ => i + e.rows args) (fun _ j => j) e3 e4 (fun i j hi hj => ⟨by omega, hj⟩)
        (fun i j i' j' _ _ _ _ a b => ⟨by omega, b⟩))
    refine ⟨dst2, ?_, by rw [hd2.rows, hd1.rows], by rw [hd2.cols, hd1.cols], fun i j p q hi hj hh => ?_, fun p q hno => ?_⟩
    · simp only [Ws.writeV, htop', w1, Option.bind_some]
      exact w2
    · simp only [Ws.semV]
      rw [← htop]
      by_cases hje : i < e.rows args
      · rw [if_pos hje, hd2.off p q]
        · by_cases hie : top ≤ j ∧ j < top + e.cols args
          · rw [if_pos hie]
            refine hd1.on i (j - top) p q hje (by omega) ⟨?_, ?_⟩
            · rw [e1 _ _ hje (by omega), Nat.sub_add_cancel hie.1]; exact hh.1
            · rw [e2 _ _ hje (by omega), Nat.sub_add_cancel hie.1]; exact hh.2
          · rw [if_neg hie, hd1.off p q]
            · rfl
            · intro i' j' hi' hj' hh'
              have := h.inj i j i' (j' + top) hi hj (by omega) (by omega) (by rw [hh.1, ← e1 i' j' hi' hj', hh'.1])
                (by rw [hh.2, ← e2 i' j' hi' hj', hh'.2])
              omega
        · intro i' j' hi' hj' hh'
          have := h.inj i j (i' + e.rows args) j' hi hj (by omega) hj' (by rw [hh.1, ← e3 i' j' hi' hj', hh'.1])
            (by rw [hh.2, ← e4 i' j' hi' hj', hh'.2])
          omega
      · rw [if_neg hje]
        have h1 : dst1.at' p q = dst.at' p q := hd1.off p q fun i' j' hi' hj' hh' => by
          have := h.inj i j i' (j' + top) hi hj (by omega) (by omega) (by rw [hh.1, ← e1 i' j' hi' hj', hh'.1])
            (by rw [hh.2, ← e2 i' j' hi' hj', hh'.2])
          omega
        rw [← h1]
        refine hd2.on (i - e.rows args) j p q (by omega) hj ⟨?_, ?_⟩
        · rw [e3 _ _ (by omega) hj, Nat.sub_add_cancel (by omega)]; exact hh.1
        · rw [e4 _ _ (by omega) hj, Nat.sub_add_cancel (by omega)]; exact hh.2
    · rw [hd2.off p q, hd1.off p q]
      · intro i' j' hi' hj' hh'
        exact hno i' (j' + top) (by omega) (by omega) ⟨by rw [← e1 i' j' hi' hj']; exact hh'.1, by rw [← e2 i' j' hi' hj']; exact hh'.2⟩
      · intro i' j' hi' hj' hh'
        exact hno (i' + e.rows args) j' (by omega) hj' ⟨by rw [← e3 i' j' hi' hj']; exact hh'.1, by rw [← e4 i' j' hi' hj']; exact hh'.2⟩
end

end Dal.Fmt
