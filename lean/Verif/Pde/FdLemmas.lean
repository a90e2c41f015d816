import Verif.Pde.FdModel
import Verif.Matrix.TridiagProps
import Mathlib.Tactic.FieldSimp
import Mathlib.Tactic.Linarith
import Mathlib.Tactic.LinearCombination

/-! # Lemmas on finite differences in one dimension -/

namespace Dal.Fd
open Dal.Tri

variable {K : Type} [Field K] [LinearOrder K] [IsStrictOrderedRing K]

theorem upd_self (v : Nat → K) (i : Nat) (c : K) : upd v i c i = c := if_pos rfl
theorem upd_ne (v : Nat → K) {i k : Nat} (c : K) (h : k ≠ i) : upd v i c k = v k := if_neg h

/-- The locations increase strictly and the spacings are their differences. -/
structure Grid (m : Mesh K) : Prop where
  incr : ∀ i, i + 1 < m.n → m.loc i < m.loc (i + 1)
  plus : ∀ i, i + 1 < m.n → m.dplus i = m.loc (i + 1) - m.loc i
  minus : ∀ i, i + 1 < m.n → m.dminus (i + 1) = m.loc (i + 1) - m.loc i

theorem setElem_lo (m : Mat K) (i : Nat) (v : K) : setElem m (i + 1) i v = some ⟨m.n, m.diag, m.above, upd m.below i v⟩ := by
  rw [setElem, if_neg (by omega), if_pos rfl]

theorem setElem_di (m : Mat K) (i : Nat) (v : K) : setElem m i i v = some ⟨m.n, upd m.diag i v, m.above, m.below⟩ := by
  rw [setElem, if_pos rfl]

theorem setElem_up (m : Mat K) (i : Nat) (v : K) : setElem m i (i + 1) v = some ⟨m.n, m.diag, upd m.above i v, m.below⟩ := by
  rw [setElem, if_neg (by omega), if_neg (by omega), if_pos rfl]

theorem rowLoop_spec (lo di up : Nat → K) (m : Mat K) : ∀ k, rowLoop lo di up k m =
    some ⟨m.n, fun j => if 1 ≤ j ∧ j ≤ k then di j else m.diag j, fun j => if 1 ≤ j ∧ j ≤ k then up j else m.above j,
      fun j => if j + 1 ≤ k then lo (j + 1) else m.below j⟩
  | 0 => by
    rw [rowLoop]
    congr 1
    obtain ⟨n, d, a, b⟩ := m
    congr 1 <;> funext j <;> exact (if_neg (by omega)).symm
  | k + 1 => by
    rw [rowLoop, rowLoop_spec lo di up m k]
    simp only [Option.bind_some, setElem_lo, setElem_di, setElem_up]
    congr 2
    · funext j
      unfold upd
      by_cases h : j = k + 1
      · rw [if_pos h, if_pos (by omega), h]
      · rw [if_neg h]
        beta_reduce
        by_cases h' : 1 ≤ j ∧ j ≤ k
        · rw [if_pos h', if_pos (by omega)]
        · rw [if_neg h', if_neg (by omega)]
    · funext j
      unfold upd
      by_cases h : j = k + 1
      · rw [if_pos h, if_pos (by omega), h]
      · rw [if_neg h]
        beta_reduce
        by_cases h' : 1 ≤ j ∧ j ≤ k
        · rw [if_pos h', if_pos (by omega)]
        · rw [if_neg h', if_neg (by omega)]
    · funext j
      unfold upd
      by_cases h : j = k
      · rw [if_pos h, if_pos (by omega), h]
      · rw [if_neg h]
        beta_reduce
        by_cases h' : j + 1 ≤ k
        · rw [if_pos h', if_pos (by omega)]
        · rw [if_neg h', if_neg (by omega)]

/-- A matrix with the given interior rows and rows of zeros at the edges. -/
structure Rows (m : Mat K) (n : Nat) (lo di up : Nat → K) : Prop where
  sz : m.n = n
  lo : ∀ i, 1 ≤ i → i + 1 < n → m.below (i - 1) = lo i
  di : ∀ i, 1 ≤ i → i + 1 < n → m.diag i = di i
  up : ∀ i, 1 ≤ i → i + 1 < n → m.above i = up i
  first : m.diag 0 = 0 ∧ m.above 0 = 0
  last : m.diag (n - 1) = 0 ∧ m.below (n - 2) = 0

theorem build_rows (lo di up : Nat → K) {n : Nat} (h : 2 < n) : ∃ m, ((setElem (zeroMat n) 0 0 0).bind fun m =>
    (rowLoop lo di up (n - 2) m).bind fun m => setElem m (n - 1) (n - 1) 0) = some m ∧ Rows m n lo di up := by
  simp only [setElem_di, Option.bind_some, rowLoop_spec]
  refine ⟨_, rfl, ⟨rfl, fun i h1 h2 => ?_, fun i h1 h2 => ?_, fun i h1 h2 => ?_, ⟨?_, ?_⟩, ?_, ?_⟩⟩
  · dsimp only
    rw [if_pos (by omega), Nat.sub_add_cancel h1]
  · dsimp only
    rw [upd_ne _ _ (by omega)]
    beta_reduce
    rw [if_pos (by omega)]
  · dsimp only
    rw [if_pos (by omega)]
  · dsimp only
    rw [upd_ne _ _ (by omega)]
    beta_reduce
    rw [if_neg (by omega)]
    exact upd_self _ _ _
  · dsimp only
    rw [if_neg (by omega)]
    rfl
  · dsimp only
    rw [upd_self]
  · dsimp only
    rw [if_neg (by omega)]
    rfl

/-- The first derivative at an interior point of the parabola through it and its neighbours. -/
def d1 (x f : Nat → K) (i : Nat) : K :=
  ((f (i + 1) - f i) / (x (i + 1) - x i) * (x i - x (i - 1)) + (f i - f (i - 1)) / (x i - x (i - 1)) * (x (i + 1) - x i)) / (x (i + 1) - x (i - 1))

/-- The second derivative of that parabola. -/
def d2 (x f : Nat → K) (i : Nat) : K :=
  2 * (((f (i + 1) - f i) / (x (i + 1) - x i) - (f i - f (i - 1)) / (x i - x (i - 1))) / (x (i + 1) - x (i - 1)))

theorem dx_spec {x : Mesh K} (h : 2 < x.n) : ∃ m, dxMat x = some m ∧ Rows m x.n (fun i => -x.dplus i / x.dminus i / (x.dminus i + x.dplus i))
      (fun i => (x.dplus i / x.dminus i - x.dminus i / x.dplus i) / (x.dminus i + x.dplus i))
      (fun i => x.dminus i / x.dplus i / (x.dminus i + x.dplus i)) := by
  rw [dxMat, if_pos h]
  exact build_rows _ _ _ h

theorem dxx_spec {x : Mesh K} (h : 2 < x.n) : ∃ m, dxxMat x = some m ∧ Rows m x.n (fun i => 1 / x.dminus i / (1 / 2 * (x.dminus i + x.dplus i)))
      (fun i => -(1 / x.dminus i + 1 / x.dplus i) / (1 / 2 * (x.dminus i + x.dplus i)))
      (fun i => 1 / x.dplus i / (1 / 2 * (x.dminus i + x.dplus i))) := by
  rw [dxxMat, if_pos h]
  exact build_rows _ _ _ h

theorem grid_steps {x : Mesh K} (g : Grid x) {i : Nat} (h1 : 1 ≤ i) (h2 : i + 1 < x.n) :
    x.dminus i = x.loc i - x.loc (i - 1) ∧ x.dplus i = x.loc (i + 1) - x.loc i ∧ 0 < x.loc i - x.loc (i - 1) ∧ 0 < x.loc (i + 1) - x.loc i := by
  obtain ⟨k, rfl⟩ : ∃ k, i = k + 1 := ⟨i - 1, by omega⟩
  refine ⟨g.minus k (by omega), g.plus (k + 1) h2, ?_, ?_⟩
  · have := g.incr k (by omega)
    simp only [Nat.add_sub_cancel]
    linarith
  · have := g.incr (k + 1) h2
    linarith

theorem dx_row {x : Mesh K} (g : Grid x) {i : Nat} (h1 : 1 ≤ i) (h2 : i + 1 < x.n) (f : Nat → K) :
    (f i * ((x.dplus i / x.dminus i - x.dminus i / x.dplus i) / (x.dminus i + x.dplus i)) +
      f (i + 1) * (x.dminus i / x.dplus i / (x.dminus i + x.dplus i)) + f (i - 1) * (-x.dplus i / x.dminus i / (x.dminus i + x.dplus i))) =
    d1 x.loc f i := by
  obtain ⟨e1, e2, p1, p2⟩ := grid_steps g h1 h2
  have e3 : x.loc (i + 1) - x.loc (i - 1) = x.dminus i + x.dplus i := by rw [e1, e2]; ring
  rw [← e1] at p1
  rw [← e2] at p2
  have p3 : x.dminus i + x.dplus i ≠ 0 := (add_pos p1 p2).ne'
  rw [d1, ← e1, ← e2, e3]
  generalize x.dminus i = a at *
  generalize x.dplus i = b at *
  have := p1.ne'
  have := p2.ne'
  field_simp
  ring

theorem dxx_row {x : Mesh K} (g : Grid x) {i : Nat} (h1 : 1 ≤ i) (h2 : i + 1 < x.n) (f : Nat → K) :
    (f i * (-(1 / x.dminus i + 1 / x.dplus i) / (1 / 2 * (x.dminus i + x.dplus i))) +
      f (i + 1) * (1 / x.dplus i / (1 / 2 * (x.dminus i + x.dplus i))) + f (i - 1) * (1 / x.dminus i / (1 / 2 * (x.dminus i + x.dplus i)))) =
    d2 x.loc f i := by
  obtain ⟨e1, e2, p1, p2⟩ := grid_steps g h1 h2
  have e3 : x.loc (i + 1) - x.loc (i - 1) = x.dminus i + x.dplus i := by rw [e1, e2]; ring
  rw [← e1] at p1
  rw [← e2] at p2
  have p3 : x.dminus i + x.dplus i ≠ 0 := (add_pos p1 p2).ne'
  rw [d2, ← e1, ← e2, e3]
  generalize x.dminus i = a at *
  generalize x.dplus i = b at *
  have := p1.ne'
  have := p2.ne'
  field_simp
  ring

theorem rows_mult {m : Mat K} {n : Nat} {lo di up : Nat → K} (r : Rows m n lo di up) (hn : 2 < n) (f : Nat → K) :
    (∀ i, 1 ≤ i → i + 1 < n → multiplyLeft m f i = f i * di i + f (i + 1) * up i + f (i - 1) * lo i) ∧
    multiplyLeft m f 0 = 0 ∧ multiplyLeft m f (n - 1) = 0 := by
  refine ⟨fun i h1 h2 => ?_, ?_, ?_⟩
  · rw [multiplyLeft, mult_val _ _ _ _ _ i (by rw [r.sz]; omega), r.sz, if_pos h2, if_pos (by omega), r.di i h1 h2, r.up i h1 h2, r.lo i h1 h2]
  · rw [multiplyLeft, mult_val _ _ _ _ _ 0 (by rw [r.sz]; omega), r.sz, if_pos (by omega), if_neg (by omega), r.first.1, r.first.2]
    ring
  · rw [multiplyLeft, mult_val _ _ _ _ _ (n - 1) (by rw [r.sz]; omega), r.sz, if_neg (by omega), if_pos (by omega), r.last.1,
      show n - 1 - 1 = n - 2 by omega, r.last.2]
    ring

theorem rows_elem {m : Mat K} {n : Nat} {lo di up : Nat → K} (r : Rows m n lo di up) {i : Nat} (h1 : 1 ≤ i) (h2 : i + 1 < n) :
    elem m i (i - 1) = lo i ∧ elem m i i = di i ∧ elem m i (i + 1) = up i := by
  refine ⟨?_, ?_, ?_⟩
  · rw [elem, if_neg (by omega), if_pos (by omega), r.lo i h1 h2]
  · rw [elem, if_pos rfl, r.di i h1 h2]
  · rw [elem, if_neg (by omega), if_neg (by omega), if_pos rfl, r.up i h1 h2]

/-! ### The matrix of a half step -/

/-- A solver for the grid: its operators are those of the grid, the edges of its matrix are untouched. -/
structure Ready (x : Mesh K) (s : Solver K) : Prop where
  size : 2 < x.n
  dx : Rows s.dx x.n (fun i => -x.dplus i / x.dminus i / (x.dminus i + x.dplus i))
      (fun i => (x.dplus i / x.dminus i - x.dminus i / x.dplus i) / (x.dminus i + x.dplus i))
      (fun i => x.dminus i / x.dplus i / (x.dminus i + x.dplus i))
  dxx : Rows s.dxx x.n (fun i => 1 / x.dminus i / (1 / 2 * (x.dminus i + x.dplus i)))
      (fun i => -(1 / x.dminus i + 1 / x.dplus i) / (1 / 2 * (x.dminus i + x.dplus i)))
      (fun i => 1 / x.dplus i / (1 / 2 * (x.dminus i + x.dplus i)))
  n : s.a.n = x.n
  first : s.a.above 0 = 0
  last : s.a.below (x.n - 2) = 0

/-- The three elements of row `i` of the matrix. -/
def loOf (s : Solver K) (t : K) (i : Nat) : K := t * (s.mu.v i * elem s.dx i (i - 1) + 1 / 2 * s.var.v i * elem s.dxx i (i - 1))
def diOf (s : Solver K) (one t : K) (i : Nat) : K := t * (s.mu.v i * elem s.dx i i + 1 / 2 * s.var.v i * elem s.dxx i i) + one - t * s.r.v i
def upOf (s : Solver K) (t : K) (i : Nat) : K := t * (s.mu.v i * elem s.dx i (i + 1) + 1 / 2 * s.var.v i * elem s.dxx i (i + 1))

/-- What the loop has established after `k` rows. -/
structure AxDone (s : Solver K) (one t : K) (k : Nat) (a0 a : Mat K) : Prop where
  n : a.n = a0.n
  inner : ∀ i, i < k → i ≠ 0 → i ≠ s.dx.n - 1 → a.below (i - 1) = loOf s t i ∧ a.diag i = diOf s one t i ∧ a.above i = upOf s t i
  edge : ∀ i, i < k → i = 0 ∨ i = s.dx.n - 1 → a.diag i = 1
  first : a.above 0 = a0.above 0
  last : a.below (s.dx.n - 2) = a0.below (s.dx.n - 2)

theorem axRow_inner (s : Solver K) (one t : K) {i : Nat} (a : Mat K) (h0 : i ≠ 0) (h1 : i ≠ s.dx.n - 1) :
    axRow s one t i a = if i < s.mu.size ∧ i < s.var.size ∧ i < s.r.size then
      some ⟨a.n, upd a.diag i (diOf s one t i), upd a.above i (upOf s t i), upd a.below (i - 1) (loOf s t i)⟩ else none := by
  rw [axRow, if_pos ⟨h0, h1⟩]
  by_cases h : i < s.mu.size ∧ i < s.var.size ∧ i < s.r.size
  · rw [if_pos h, if_pos h]
    obtain ⟨k, rfl⟩ : ∃ k, i = k + 1 := ⟨i - 1, by omega⟩
    simp only [Nat.add_sub_cancel, setElem_lo, Option.bind_some, setElem_up, setElem_di]
    rfl
  · rw [if_neg h, if_neg h]

theorem axRow_edge (s : Solver K) (one t : K) {i : Nat} (a : Mat K) (h : i = 0 ∨ i = s.dx.n - 1) :
    axRow s one t i a = some ⟨a.n, upd a.diag i 1, a.above, a.below⟩ := by
  rw [axRow, if_neg (by omega), setElem_di]

theorem axLoop_spec (s : Solver K) (one t : K) (a0 : Mat K) (hn : 2 < s.dx.n) : ∀ k, k ≤ s.dx.n →
    (∀ a, axLoop s one t k a0 = some a → AxDone s one t k a0 a) ∧
    ((∀ i, i < k → i ≠ 0 → i ≠ s.dx.n - 1 → i < s.mu.size ∧ i < s.var.size ∧ i < s.r.size) → ∃ a, axLoop s one t k a0 = some a)
  | 0, _ => ⟨fun a h => by
      cases h
      exact ⟨rfl, fun i hi => absurd hi (by omega), fun i hi => absurd hi (by omega), rfl, rfl⟩, fun _ => ⟨a0, rfl⟩⟩
  | k + 1, hk => by
    obtain ⟨h1, h2⟩ := axLoop_spec s one t a0 hn k (by omega)
    constructor
    · intro a h
      rw [axLoop] at h
      cases hb : axLoop s one t k a0 with
      | none => rw [hb] at h; cases h
      | some b =>
        rw [hb, Option.bind_some] at h
        have d := h1 b hb
        by_cases he : k = 0 ∨ k = s.dx.n - 1
        · rw [axRow_edge s one t b he] at h
          cases h
          refine ⟨d.n, fun i hi h0 h1 => ?_, fun i hi h => ?_, d.first, d.last⟩
          · have e := d.inner i (by omega) h0 h1
            exact ⟨e.1, by rw [← e.2.1]; exact upd_ne _ _ (by omega), e.2.2⟩
          · by_cases hik : i = k
            · subst hik; exact upd_self _ _ _
            · rw [← d.edge i (by omega) h]; exact upd_ne _ _ hik
        · rw [axRow_inner s one t b (by omega) (by omega)] at h
          by_cases hs : k < s.mu.size ∧ k < s.var.size ∧ k < s.r.size
          · rw [if_pos hs] at h
            cases h
            refine ⟨d.n, fun i hi h0 h1 => ?_, fun i hi h => ?_, ?_, ?_⟩
            · by_cases hik : i = k
              · subst hik
                exact ⟨upd_self _ _ _, upd_self _ _ _, upd_self _ _ _⟩
              · have e := d.inner i (by omega) h0 h1
                exact ⟨by rw [← e.1]; exact upd_ne _ _ (by omega), by rw [← e.2.1]; exact upd_ne _ _ (by omega),
                  by rw [← e.2.2]; exact upd_ne _ _ (by omega)⟩
            · rw [← d.edge i (by omega) h]; exact upd_ne _ _ (by omega)
            · rw [← d.first]; exact upd_ne _ _ (by omega)
            · rw [← d.last]; exact upd_ne _ _ (by omega)
          · rw [if_neg hs] at h
            cases h
    · intro h
      obtain ⟨b, hb⟩ := h2 fun i hi => h i (by omega)
      rw [axLoop, hb, Option.bind_some]
      by_cases he : k = 0 ∨ k = s.dx.n - 1
      · exact ⟨_, axRow_edge s one t b he⟩
      · rw [axRow_inner s one t b (by omega) (by omega), if_pos (h k (by omega) (by omega) (by omega))]
        exact ⟨_, rfl⟩

/-- The generator of the diffusion at an interior point. -/
def gen (x : Nat → K) (r mu var : Nat → K) (f : Nat → K) (i : Nat) : K := mu i * d1 x f i + 1 / 2 * var i * d2 x f i - r i * f i

/-- After `CalcAx` the solver is ready, has the same coefficients, and its matrix is the identity plus `t` times the generator inside and the
identity at the edges. -/
structure Ax (x : Mesh K) (s s' : Solver K) (t : K) : Prop where
  ready : Ready x s'
  same : s'.r = s.r ∧ s'.mu = s.mu ∧ s'.var = s.var
  inner : ∀ f i, 1 ≤ i → i + 1 < x.n → multiplyLeft s'.a f i = f i + t * gen x.loc s.r.v s.mu.v s.var.v f i
  edge : ∀ f, multiplyLeft s'.a f 0 = f 0 ∧ multiplyLeft s'.a f (x.n - 1) = f (x.n - 1)
  entries : ∀ i, 1 ≤ i → i + 1 < x.n → s'.a.below (i - 1) = loOf s t i ∧ s'.a.diag i = diOf s 1 t i ∧ s'.a.above i = upOf s t i
  ends : s'.a.diag 0 = 1 ∧ s'.a.diag (x.n - 1) = 1

theorem calcAx_spec {x : Mesh K} (g : Grid x) {s : Solver K} (hr : Ready x s) (t : K) :
    (∀ s', calcAx s 1 t = some s' → Ax x s s' t) ∧
    (x.n - 1 ≤ s.mu.size → x.n - 1 ≤ s.var.size → x.n - 1 ≤ s.r.size → ∃ s', calcAx s 1 t = some s') := by
  have hn := hr.size
  have hdn : s.dx.n = x.n := hr.dx.sz
  obtain ⟨h1, h2⟩ := axLoop_spec s 1 t s.a (by omega) s.dx.n le_rfl
  constructor
  · intro s' h
    rw [calcAx] at h
    cases ha : axLoop s 1 t s.dx.n s.a with
    | none => rw [ha] at h; cases h
    | some a =>
      rw [ha] at h
      cases h
      have d := h1 a ha
      rw [hdn] at d
      have dn : a.n = x.n := d.n.trans hr.n
      have dl : a.below (x.n - 2) = 0 := by have := d.last; rw [hdn] at this; rw [this, hr.last]
      have df : a.above 0 = 0 := d.first.trans hr.first
      have e0 : a.diag 0 = 1 := d.edge 0 (by omega) (Or.inl rfl)
      have e1 : a.diag (x.n - 1) = 1 := d.edge (x.n - 1) (by omega) (Or.inr (by rw [hdn]))
      refine ⟨⟨hn, hr.dx, hr.dxx, dn, df, dl⟩, ⟨rfl, rfl, rfl⟩, fun f i hi hi' => ?_, fun f => ⟨?_, ?_⟩,
        fun i hi hi' => d.inner i (by omega) (by omega) (by rw [hdn]; omega), e0, e1⟩
      · obtain ⟨i1, i2, i3⟩ := d.inner i (by omega) (by omega) (by rw [hdn]; omega)
        obtain ⟨r1, r2, r3⟩ := rows_elem hr.dx hi hi'
        obtain ⟨q1, q2, q3⟩ := rows_elem hr.dxx hi hi'
        show triMultiply a.n f a.diag a.above a.below i = _
        rw [mult_val _ _ _ _ _ i (by rw [dn]; omega), dn, if_pos hi', if_pos (by omega), i1, i2, i3, gen, ← dx_row g hi hi' f, ← dxx_row g hi hi' f, loOf,
          diOf, upOf, r1, r2, r3, q1, q2, q3]
        ring
      · show triMultiply a.n f a.diag a.above a.below 0 = _
        rw [mult_val _ _ _ _ _ 0 (by rw [dn]; omega), dn, if_pos (by omega), if_neg (by omega), e0, df]
        ring
      · show triMultiply a.n f a.diag a.above a.below (x.n - 1) = _
        rw [mult_val _ _ _ _ _ (x.n - 1) (by rw [dn]; omega), dn, if_neg (by omega), if_pos (by omega), e1, show x.n - 1 - 1 = x.n - 2 by omega, dl]
        ring
  · intro a b c
    obtain ⟨m, hm⟩ := h2 fun i hi h0 h1 => ⟨by omega, by omega, by omega⟩
    exact ⟨_, by rw [calcAx, hm]; rfl⟩

theorem init_ready {x : Mesh K} (h : 2 < x.n) (r mu var : Sized K) : ∃ s, init x r mu var = some s ∧ Ready x s ∧ s.r = r ∧ s.mu = mu ∧ s.var = var := by
  obtain ⟨d, ed, rd⟩ := dx_spec h
  obtain ⟨e, ee, re⟩ := dxx_spec h
  exact ⟨⟨d, e, r, mu, var, zeroMat d.n⟩, by rw [init, ed, ee]; rfl, ⟨h, rd, re, rd.sz, rfl, rfl⟩, rfl, rfl, rfl⟩

end Dal.Fd
