import Verif.Pde.FdLemmas
import Mathlib.Data.Finset.Max

/-!
# C60: finite-difference operators and rollback

Specification: derivatives of quadratic functions; the theta-scheme equation `y - θ·dt·L y = f + (1 - θ)·dt·L f` for the generator `L` written with
the derivatives of the parabola through three neighbouring points (`Fd.gen`, `Fd.d1`, `Fd.d2`).
-/

namespace Dal
open Dal.Tri Dal.Fd

variable {K : Type} [Field K] [LinearOrder K] [IsStrictOrderedRing K]

/-- C60: on any strictly increasing grid of at least three points both operators are built, and applied to the values of a quadratic function they give
its exact first and second derivatives at all interior points, and zero at the two edges. -/
theorem C60_derivatives_of_quadratics {x : Mesh K} (g : Grid x) (hn : 2 < x.n) (a b c : K) : ∃ d e, dxMat x = some d ∧ dxxMat x = some e ∧
    (∀ i, 1 ≤ i → i + 1 < x.n → multiplyLeft d (fun j => a + b * x.loc j + c * x.loc j ^ 2) i = b + 2 * c * x.loc i ∧
      multiplyLeft e (fun j => a + b * x.loc j + c * x.loc j ^ 2) i = 2 * c) ∧
    (∀ f, multiplyLeft d f 0 = 0 ∧ multiplyLeft d f (x.n - 1) = 0 ∧ multiplyLeft e f 0 = 0 ∧ multiplyLeft e f (x.n - 1) = 0) := by
  obtain ⟨d, ed, rd⟩ := dx_spec hn
  obtain ⟨e, ee, re⟩ := dxx_spec hn
  refine ⟨d, e, ed, ee, fun i h1 h2 => ?_, fun f => ⟨(rows_mult rd hn f).2.1, (rows_mult rd hn f).2.2, (rows_mult re hn f).2.1, (rows_mult re hn f).2.2⟩⟩
  rw [(rows_mult rd hn _).1 i h1 h2, (rows_mult re hn _).1 i h1 h2, dx_row g h1 h2 fun j => a + b * x.loc j + c * x.loc j ^ 2,
    dxx_row g h1 h2 fun j => a + b * x.loc j + c * x.loc j ^ 2, d1, d2]
  obtain ⟨-, -, p1, p2⟩ := grid_steps g h1 h2
  generalize x.loc i = u at *
  generalize x.loc (i - 1) = l at *
  generalize x.loc (i + 1) = r at *
  have h3 : r - l ≠ 0 := (by linarith : 0 < r - l).ne'
  have h4 := p1.ne'
  have h5 := p2.ne'
  have q1 : (a + b * r + c * r ^ 2 - (a + b * u + c * u ^ 2)) / (r - u) = b + c * (r + u) := by
    rw [div_eq_iff h5]; ring
  have q2 : (a + b * u + c * u ^ 2 - (a + b * l + c * l ^ 2)) / (u - l) = b + c * (u + l) := by
    rw [div_eq_iff h4]; ring
  rw [q1, q2]
  constructor
  · rw [div_eq_iff h3]; ring
  · rw [show b + c * (r + u) - (b + c * (u + l)) = c * (r - l) by ring, mul_div_cancel_right₀ _ h3]

/-- C60: grids of fewer than three points are refused. -/
theorem C60_small_grids_refused (x : Mesh K) (h : x.n ≤ 2) : dxMat x = none ∧ dxxMat x = none := by
  rw [dxMat, dxxMat, if_neg (by omega), if_neg (by omega)]
  exact ⟨rfl, rfl⟩

/-- The grid 0, 1, 3 of the examples. -/
def demoGrid : Mesh ℚ := ⟨3, fun i => if i = 0 then 0 else if i = 1 then 1 else 3, fun i => if i = 0 then 1 else 2, fun i => if i = 1 then 1 else 2⟩

theorem demoGrid_grid : Grid demoGrid := by
  refine ⟨?_, ?_, ?_⟩ <;> intro i hi <;>
    (have h : i = 0 ∨ i = 1 := by have : i + 1 < 3 := hi; omega) <;> rcases h with rfl | rfl <;> decide +kernel

example : ∃ d e, dxMat demoGrid = some d ∧ dxxMat demoGrid = some e ∧
    (∀ i, 1 ≤ i → i + 1 < demoGrid.n → multiplyLeft d (fun j => 4 + 5 * demoGrid.loc j + 6 * demoGrid.loc j ^ 2) i = 5 + 2 * 6 * demoGrid.loc i ∧
      multiplyLeft e (fun j => 4 + 5 * demoGrid.loc j + 6 * demoGrid.loc j ^ 2) i = 2 * 6) ∧
    (∀ f, multiplyLeft d f 0 = 0 ∧ multiplyLeft d f (demoGrid.n - 1) = 0 ∧ multiplyLeft e f 0 = 0 ∧ multiplyLeft e f (demoGrid.n - 1) = 0) :=
  C60_derivatives_of_quadratics demoGrid_grid (by decide) 4 5 6

/-! ### Rollback -/

/-- The states of a solver: after `Init`, after setting coefficients, after rolling back. -/
inductive SolverState (eps : K) (x : Mesh K) : Solver K → Prop
  | init {r mu var s} : Fd.init x r mu var = some s → SolverState eps x s
  | coefficients {s} (r mu var : Sized K) : SolverState eps x s → SolverState eps x { s with r := r, mu := mu, var := var }
  | roll {s dt theta res s' res'} : SolverState eps x s → rollBwd eps s dt theta res = some (s', res') → SolverState eps x s'

/-- A decomposed matrix maps different vectors to different vectors. -/
private theorem solve_unique {eps : K} (heps : 0 < eps) {m : Mat K} {d : Decomp K} (hd : decompose eps m = some d) {y z : Nat → K}
    (h : ∀ i, i < m.n → multiplyLeft m y i = multiplyLeft m z i) : ∀ i, i < m.n → y i = z i := by
  have cut : ∀ (f : Nat → K) (i : Nat), multiplyLeft m (fun k => if k < m.n then f k else 0) i = if i < m.n then multiplyLeft m f i else 0 := by
    intro f i
    by_cases hi : i < m.n
    · rw [if_pos hi, multiplyLeft, multiplyLeft, mult_val _ _ _ _ _ i hi, mult_val _ _ _ _ _ i hi, if_pos hi]
      congr 1
      · congr 1
        by_cases h1 : i + 1 < m.n
        · rw [if_pos h1, if_pos h1, if_pos h1]
        · rw [if_neg h1, if_neg h1]
      · by_cases h1 : 0 < i
        · rw [if_pos h1, if_pos h1, if_pos (by omega)]
        · rw [if_neg h1, if_neg h1]
    · rw [if_neg hi, multiplyLeft, triMultiply, addBelow_val, addAbove_val, if_neg (by omega), if_neg (by omega), if_neg hi, zero_mul]
  intro i hi
  have e : multiplyLeft m (fun k => if k < m.n then y k else 0) = multiplyLeft m (fun k => if k < m.n then z k else 0) := by
    funext j
    rw [cut, cut]
    by_cases hj : j < m.n
    · rw [if_pos hj, if_pos hj, h j hj]
    · rw [if_neg hj, if_neg hj]
  have h1 := (C45_multiply_then_solve heps hd (fun k => if k < m.n then y k else 0) i hi).1
  have h2 := (C45_multiply_then_solve heps hd (fun k => if k < m.n then z k else 0) i hi).1
  rw [e, h2] at h1
  rw [if_pos hi, if_pos hi] at h1
  exact h1.symm

/-- What one step does; `eps` is the threshold of zero pivots. -/
private theorem roll_spec {eps : K} (heps : 0 < eps) {x : Mesh K} (g : Grid x) {s : Solver K} (hr : Ready x s) {dt theta : K} {res : Sized K} {s' : Solver K}
    {res' : Sized K} (h : rollBwd eps s dt theta res = some (s', res')) : Ready x s' ∧ (s'.r = s.r ∧ s'.mu = s.mu ∧ s'.var = s.var) ∧ res'.size = res.size ∧
      res'.v 0 = res.v 0 ∧ res'.v (x.n - 1) = res.v (x.n - 1) ∧
      ∃ mid : Nat → K, mid 0 = res.v 0 ∧ mid (x.n - 1) = res.v (x.n - 1) ∧
        (∀ i, 1 ≤ i → i + 1 < x.n → mid i = res.v i + dt * (1 - theta) * gen x.loc s.r.v s.mu.v s.var.v res.v i) ∧
        (∀ i, 1 ≤ i → i + 1 < x.n → res'.v i - dt * theta * gen x.loc s.r.v s.mu.v s.var.v res'.v i = mid i) ∧
        ∀ y : Nat → K, y 0 = mid 0 → y (x.n - 1) = mid (x.n - 1) →
          (∀ i, 1 ≤ i → i + 1 < x.n → y i - dt * theta * gen x.loc s.r.v s.mu.v s.var.v y i = mid i) → ∀ i, i < x.n → y i = res'.v i := by
  have hn := hr.size
  rw [rollBwd] at h
  obtain ⟨s1, m1, e1, r1, c1, z1, f1, l1, i1⟩ : ∃ s1 m1, (if theta ≠ 1 then explicitHalf s dt theta res else some (s, res)) = some (s1, m1) ∧ Ready x s1 ∧
      (s1.r = s.r ∧ s1.mu = s.mu ∧ s1.var = s.var) ∧ m1.size = res.size ∧ m1.v 0 = res.v 0 ∧ m1.v (x.n - 1) = res.v (x.n - 1) ∧
      ∀ i, 1 ≤ i → i + 1 < x.n → m1.v i = res.v i + dt * (1 - theta) * gen x.loc s.r.v s.mu.v s.var.v res.v i := by
    by_cases ht : theta = 1
    · rw [if_neg (by simpa using ht)]
      refine ⟨s, res, rfl, hr, ⟨rfl, rfl, rfl⟩, rfl, rfl, rfl, fun i _ _ => ?_⟩
      rw [ht]
      ring
    · rw [if_pos ht] at h ⊢
      cases he : explicitHalf s dt theta res with
      | none => rw [he] at h; cases h
      | some p =>
        obtain ⟨s1, m1⟩ := p
        refine ⟨s1, m1, rfl, ?_⟩
        rw [explicitHalf] at he
        cases hc : calcAx s 1 (dt * (1 - theta)) with
        | none => rw [hc] at he; cases he
        | some s2 =>
          rw [hc, Option.bind_some] at he
          have ax := (calcAx_spec g hr _).1 s2 hc
          split at he
          · cases he
            exact ⟨ax.ready, ax.same, rfl, (ax.edge _).1, (ax.edge _).2, fun i h1 h2 => ax.inner _ i h1 h2⟩
          · cases he
  rw [e1, Option.bind_some] at h
  dsimp only at h
  by_cases ht : theta = 0
  · rw [if_neg (by simpa using ht)] at h
    cases h
    refine ⟨r1, c1, z1, f1, l1, res'.v, f1, l1, i1, fun i _ _ => ?_, fun y h0 h9 hy i hi => ?_⟩
    · rw [ht]
      ring
    · by_cases g0 : i = 0
      · rw [g0, h0]
      · by_cases g9 : i = x.n - 1
        · rw [g9, h9]
        · rw [← hy i (by omega) (by omega), ht]
          ring
  · rw [if_pos ht, implicitHalf] at h
    cases hc : calcAx s1 1 (-dt * theta) with
    | none => rw [hc] at h; cases h
    | some s2 =>
      rw [hc, Option.bind_some] at h
      have ax := (calcAx_spec g r1 _).1 s2 hc
      cases hd : decompose eps s2.a with
      | none => rw [hd] at h; cases h
      | some d =>
        rw [hd, Option.bind_some] at h
        split at h
        swap
        · cases h
        cases h
        have hsol : ∀ i, i < x.n → multiplyLeft s'.a (solveLeft d m1.v) i = m1.v i := by
          intro i hi
          have hi' : i < s'.a.n := by rw [ax.ready.n]; exact hi
          rw [(C45_multiply s'.a _ i hi').1]
          exact (C45_solve_then_multiply heps hd m1.v i hi').1
        have e0 := (ax.edge (solveLeft d m1.v)).1
        have en := (ax.edge (solveLeft d m1.v)).2
        rw [hsol 0 (by omega)] at e0
        rw [hsol (x.n - 1) (by omega)] at en
        refine ⟨ax.ready, ⟨ax.same.1.trans c1.1, ax.same.2.1.trans c1.2.1, ax.same.2.2.trans c1.2.2⟩, z1, by rw [← f1]; exact e0.symm,
          by rw [← l1]; exact en.symm, m1.v, f1, l1, i1, fun i h1 h2 => ?_, fun y h0 h9 hy => ?_⟩
        · have := ax.inner (solveLeft d m1.v) i h1 h2
          rw [hsol i (by omega), c1.1, c1.2.1, c1.2.2] at this
          show solveLeft d m1.v i - dt * theta * gen x.loc s.r.v s.mu.v s.var.v (solveLeft d m1.v) i = m1.v i
          rw [this]
          ring
        · have hu := solve_unique heps hd (y := y) (z := solveLeft d m1.v) fun i hi => by
            rw [ax.ready.n] at hi
            rw [hsol i hi]
            by_cases g0 : i = 0
            · rw [g0, (ax.edge _).1, h0]
            · by_cases g9 : i = x.n - 1
              · rw [g9, (ax.edge _).2, h9]
              · rw [ax.inner _ i (by omega) (by omega), ← hy i (by omega) (by omega), c1.1, c1.2.1, c1.2.2]
                ring
          intro i hi
          exact hu i (by rw [ax.ready.n]; exact hi)

private theorem state_ready {eps : K} (heps : 0 < eps) {x : Mesh K} (g : Grid x) {s : Solver K} (h : SolverState eps x s) : Ready x s := by
  induction h with
  | init h =>
    rename_i r mu var s
    by_cases hn : 2 < x.n
    · obtain ⟨s', e, hr, _⟩ := init_ready hn r mu var
      rw [h] at e
      cases e
      exact hr
    · rw [Fd.init, (C60_small_grids_refused x (by omega)).1] at h
      cases h
  | coefficients r mu var _ ih => exact ⟨ih.size, ih.dx, ih.dxx, ih.n, ih.first, ih.last⟩
  | roll _ h ih => exact (roll_spec heps g ih h).1

/-- C60: whenever a step is made, in whatever state of the solver, the new values solve the theta-scheme equations at the interior points, for the
coefficients set, and are the old ones at the two edges; nothing else does. -/
theorem C60_theta_scheme {eps : K} (heps : 0 < eps) {x : Mesh K} (g : Grid x) {s : Solver K} (hs : SolverState eps x s) {dt theta : K} {res : Sized K}
    {s' : Solver K} {res' : Sized K} (h : rollBwd eps s dt theta res = some (s', res')) : res'.size = res.size ∧
    ∀ y : Nat → K, (∀ i, i < x.n → y i = res'.v i) ↔
      y 0 = res.v 0 ∧ y (x.n - 1) = res.v (x.n - 1) ∧ ∀ i, 1 ≤ i → i + 1 < x.n →
        y i - theta * dt * gen x.loc s.r.v s.mu.v s.var.v y i = res.v i + (1 - theta) * dt * gen x.loc s.r.v s.mu.v s.var.v res.v i := by
  have hrd := state_ready heps g hs
  have hn := hrd.size
  obtain ⟨-, -, z, f, l, mid, m0, m9, h1, h2, h3⟩ := roll_spec heps g hrd h
  refine ⟨z, fun y => ⟨fun hy => ⟨by rw [hy 0 (by omega), f], by rw [hy _ (by omega), l], fun i hi hi' => ?_⟩, fun ⟨y0, y9, hy⟩ => ?_⟩⟩
  · have e : gen x.loc s.r.v s.mu.v s.var.v y i = gen x.loc s.r.v s.mu.v s.var.v res'.v i := by
      rw [gen, gen, d1, d1, d2, d2, hy i (by omega), hy (i - 1) (by omega), hy (i + 1) hi']
    rw [e, hy i (by omega), mul_comm theta dt, mul_comm (1 - theta) dt, h2 i hi hi', h1 i hi hi']
  · refine h3 y (by rw [y0, m0]) (by rw [y9, m9]) fun i hi hi' => ?_
    rw [h1 i hi hi', mul_comm dt theta, hy i hi hi', mul_comm dt (1 - theta)]

/-- The weights of the two neighbours in the generator. -/
def wl (x : Mesh K) (mu var : Nat → K) (i : Nat) : K := (var i - mu i * x.dplus i) / (x.dminus i * (x.dminus i + x.dplus i))
def wu (x : Mesh K) (mu var : Nat → K) (i : Nat) : K := (var i + mu i * x.dminus i) / (x.dplus i * (x.dminus i + x.dplus i))

theorem gen_weights {x : Mesh K} (g : Grid x) {i : Nat} (h1 : 1 ≤ i) (h2 : i + 1 < x.n) (r mu var f : Nat → K) :
    gen x.loc r mu var f i = wl x mu var i * (f (i - 1) - f i) + wu x mu var i * (f (i + 1) - f i) - r i * f i := by
  obtain ⟨e1, e2, p1, p2⟩ := grid_steps g h1 h2
  rw [← e1] at p1
  rw [← e2] at p2
  rw [gen, ← dx_row g h1 h2 f, ← dxx_row g h1 h2 f, wl, wu]
  have p3 := (add_pos p1 p2).ne'
  generalize x.dminus i = a at *
  generalize x.dplus i = b at *
  have := p1.ne'
  have := p2.ne'
  field_simp
  ring

private theorem gen_const {x : Mesh K} (g : Grid x) {i : Nat} (h1 : 1 ≤ i) (h2 : i + 1 < x.n) (mu var f : Nat → K) (c : K)
    (hf : f (i - 1) = c ∧ f i = c ∧ f (i + 1) = c) (r : Nat → K) : gen x.loc r mu var f i = -(r i * c) := by
  rw [gen_weights g h1 h2, hf.1, hf.2.1, hf.2.2]
  ring

/-- C60: with zero rates a step leaves constants as they are, for every drift, variance, time step and theta. -/
theorem C60_constants {eps : K} (heps : 0 < eps) {x : Mesh K} (g : Grid x) {s : Solver K} (hs : SolverState eps x s) {dt theta : K} {res : Sized K}
    {s' : Solver K} {res' : Sized K} (h : rollBwd eps s dt theta res = some (s', res')) (hr : ∀ i, s.r.v i = 0) (c : K) (hc : ∀ i, i < x.n → res.v i = c) :
    ∀ i, i < x.n → res'.v i = c := by
  have hn := (state_ready heps g hs).size
  intro i hi
  refine ((((C60_theta_scheme heps g hs h).2 fun _ => c).2 ⟨(hc 0 (by omega)).symm, (hc _ (by omega)).symm, fun j h1 h2 => ?_⟩) i hi).symm
  rw [gen_const g h1 h2 _ _ _ c ⟨rfl, rfl, rfl⟩, gen_const g h1 h2 _ _ _ c ⟨hc _ (by omega), hc _ (by omega), hc _ h2⟩, hr, hc j (by omega)]
  ring

theorem weights_nonneg {x : Mesh K} (g : Grid x) {i : Nat} (h1 : 1 ≤ i) (h2 : i + 1 < x.n) {mu var : Nat → K}
    (hl : mu i * (x.loc (i + 1) - x.loc i) ≤ var i) (hu : -(mu i * (x.loc i - x.loc (i - 1))) ≤ var i) : 0 ≤ wl x mu var i ∧ 0 ≤ wu x mu var i := by
  obtain ⟨e1, e2, p1, p2⟩ := grid_steps g h1 h2
  rw [← e1] at p1 hu
  rw [← e2] at p2 hl
  exact ⟨div_nonneg (by linarith) (mul_pos p1 (add_pos p1 p2)).le, div_nonneg (by linarith) (mul_pos p2 (add_pos p1 p2)).le⟩

/-- C60: a step is made, whatever the theta and the time step, when the vectors have the size of the grid, rates are not negative, and the variance
is at least the drift times either neighbouring spacing. -/
theorem C60_step_made {eps : K} (heps : 0 < eps) (heps1 : eps ≤ 1) {x : Mesh K} (g : Grid x) {s : Solver K} (hs : SolverState eps x s) {dt theta : K}
    {res : Sized K} (hsize : res.size = x.n ∧ x.n - 1 ≤ s.mu.size ∧ x.n - 1 ≤ s.var.size ∧ x.n - 1 ≤ s.r.size) (hdt : 0 ≤ dt * theta)
    (hr : ∀ i, 0 ≤ s.r.v i) (hl : ∀ i, 1 ≤ i → i + 1 < x.n → s.mu.v i * (x.loc (i + 1) - x.loc i) ≤ s.var.v i)
    (hu : ∀ i, 1 ≤ i → i + 1 < x.n → -(s.mu.v i * (x.loc i - x.loc (i - 1))) ≤ s.var.v i) : ∃ s' res', rollBwd eps s dt theta res = some (s', res') := by
  have hrd := state_ready heps g hs
  have hn := hrd.size
  obtain ⟨s1, m1, e1, r1, c1, z1⟩ : ∃ s1 m1, (if theta ≠ 1 then explicitHalf s dt theta res else some (s, res)) = some (s1, m1) ∧ Ready x s1 ∧
      (s1.r = s.r ∧ s1.mu = s.mu ∧ s1.var = s.var) ∧ m1.size = x.n := by
    by_cases ht : theta = 1
    · rw [if_neg (by simpa using ht)]
      exact ⟨s, res, rfl, hrd, ⟨rfl, rfl, rfl⟩, hsize.1⟩
    · rw [if_pos ht]
      obtain ⟨s2, e2⟩ := (calcAx_spec g hrd (dt * (1 - theta))).2 hsize.2.1 hsize.2.2.1 hsize.2.2.2
      have ax := (calcAx_spec g hrd _).1 s2 e2
      rw [explicitHalf, e2, Option.bind_some, if_pos (by rw [ax.ready.n, hsize.1])]
      exact ⟨_, _, rfl, ax.ready, ax.same, hsize.1⟩
  rw [rollBwd, e1, Option.bind_some]
  by_cases ht : theta = 0
  · rw [if_neg (by simpa using ht)]
    exact ⟨_, _, rfl⟩
  · rw [if_pos ht]
    obtain ⟨s2, e2⟩ := (calcAx_spec g r1 (-dt * theta)).2 (by rw [c1.2.1]; exact hsize.2.1) (by rw [c1.2.2]; exact hsize.2.2.1) (by rw [c1.1]; exact hsize.2.2.2)
    have ax := (calcAx_spec g r1 _).1 s2 e2
    have hdom : ∃ d, decompose eps s2.a = some d := by
      refine C45_dominant_decomposes heps s2.a (by rw [ax.ready.n]; omega) fun i hi => ?_
      rw [ax.ready.n] at hi ⊢
      by_cases h0 : i = 0
      · subst h0
        rw [if_pos (by omega), if_neg (by omega), ax.ready.first, ax.ends.1, abs_zero, abs_one]
        linarith
      · by_cases h9 : i = x.n - 1
        · subst h9
          rw [if_neg (by omega), if_pos (by omega), show x.n - 1 - 1 = x.n - 2 by omega, ax.ready.last, ax.ends.2, abs_zero, abs_one]
          linarith
        · have hi1 : 1 ≤ i := by omega
          have hi2 : i + 1 < x.n := by omega
          obtain ⟨w1, w2⟩ := weights_nonneg g hi1 hi2 (hl i hi1 hi2) (hu i hi1 hi2)
          -- the matrix elements from its action on unit vectors
          have act := fun f => ax.inner f i hi1 hi2
          have val : ∀ f, multiplyLeft s2.a f i = f i * s2.a.diag i + f (i + 1) * s2.a.above i + f (i - 1) * s2.a.below (i - 1) := by
            intro f
            rw [multiplyLeft, mult_val _ _ _ _ _ i (by rw [ax.ready.n]; exact hi), ax.ready.n, if_pos hi2, if_pos (by omega)]
          have ed := act fun k => if k = i then 1 else 0
          have eu := act fun k => if k = i + 1 then 1 else 0
          have el := act fun k => if k = i - 1 then 1 else 0
          rw [val, gen_weights g hi1 hi2] at ed eu el
          simp only [if_true, if_neg (show ¬i + 1 = i by omega), if_neg (show ¬i - 1 = i by omega), if_neg (show ¬i = i + 1 by omega),
            if_neg (show ¬i - 1 = i + 1 by omega), if_neg (show ¬i = i - 1 by omega), if_neg (show ¬i + 1 = i - 1 by omega), c1.1, c1.2.1, c1.2.2] at ed eu el
          rw [if_pos hi2, if_pos (by omega)]
          have k1 : s2.a.above i = -(dt * theta * wu x s.mu.v s.var.v i) := by linear_combination eu
          have k2 : s2.a.below (i - 1) = -(dt * theta * wl x s.mu.v s.var.v i) := by linear_combination el
          have k3 : s2.a.diag i = 1 + dt * theta * wl x s.mu.v s.var.v i + dt * theta * wu x s.mu.v s.var.v i + dt * theta * s.r.v i := by linear_combination ed
          have n1 := mul_nonneg hdt w1
          have n2 := mul_nonneg hdt w2
          have n3 := mul_nonneg hdt (hr i)
          rw [k1, k2, k3, abs_neg, abs_neg, abs_of_nonneg n1, abs_of_nonneg n2, abs_of_nonneg (by linarith)]
          linarith
    obtain ⟨d, hd⟩ := hdom
    rw [implicitHalf, e2, Option.bind_some, hd, Option.bind_some, if_pos (by rw [ax.ready.n, z1])]
    exact ⟨_, _, rfl⟩

/-- An upper bound of the right-hand side bounds the solution of an implicit half step. -/
private theorem implicit_upper {x : Mesh K} (g : Grid x) {mu var : Nat → K} {t : K} (ht : 0 ≤ t)
    (hw : ∀ i, 1 ≤ i → i + 1 < x.n → 0 ≤ wl x mu var i ∧ 0 ≤ wu x mu var i) {y mid : Nat → K} {hi : K} (hn : 2 < x.n)
    (h0 : y 0 = mid 0) (h9 : y (x.n - 1) = mid (x.n - 1))
    (he : ∀ i, 1 ≤ i → i + 1 < x.n → y i - t * (wl x mu var i * (y (i - 1) - y i) + wu x mu var i * (y (i + 1) - y i)) = mid i)
    (hb : ∀ i, i < x.n → mid i ≤ hi) : ∀ i, i < x.n → y i ≤ hi := by
  obtain ⟨m, hm, hmax⟩ := Finset.exists_max_image (Finset.range x.n) y ⟨0, Finset.mem_range.2 (by omega)⟩
  rw [Finset.mem_range] at hm
  have key : y m ≤ hi := by
    by_cases g0 : m = 0
    · rw [g0, h0]; exact hb 0 (by omega)
    · by_cases g9 : m = x.n - 1
      · rw [g9, h9]; exact hb _ (by omega)
      · have e := he m (by omega) (by omega)
        obtain ⟨w1, w2⟩ := hw m (by omega) (by omega)
        have a1 := hmax (m - 1) (Finset.mem_range.2 (by omega))
        have a2 := hmax (m + 1) (Finset.mem_range.2 (by omega))
        have b1 : 0 ≤ wl x mu var m * (y m - y (m - 1)) := mul_nonneg w1 (by linarith)
        have b2 : 0 ≤ wu x mu var m * (y m - y (m + 1)) := mul_nonneg w2 (by linarith)
        have b3 := mul_nonneg ht (add_nonneg b1 b2)
        have b4 := hb m hm
        have b5 : y m = mid m - t * (wl x mu var m * (y m - y (m - 1)) + wu x mu var m * (y m - y (m + 1))) := by rw [← e]; ring
        linarith
  intro i hi'
  exact (hmax i (Finset.mem_range.2 hi')).trans key

/-- C60: with zero rates and a drift that the variance dominates, a step with an explicit part within the stability limit stays within the bounds of the
old values; for the fully implicit step (theta 1) there is no limit on the time step. -/
theorem C60_bounds {eps : K} (heps : 0 < eps) {x : Mesh K} (g : Grid x) {s : Solver K} (hs : SolverState eps x s) {dt theta : K} {res : Sized K}
    {s' : Solver K} {res' : Sized K} (h : rollBwd eps s dt theta res = some (s', res')) (hr : ∀ i, s.r.v i = 0) (hdt : 0 ≤ dt) (h0 : 0 ≤ theta)
    (h1 : theta ≤ 1) (hl : ∀ i, 1 ≤ i → i + 1 < x.n → s.mu.v i * (x.loc (i + 1) - x.loc i) ≤ s.var.v i)
    (hu : ∀ i, 1 ≤ i → i + 1 < x.n → -(s.mu.v i * (x.loc i - x.loc (i - 1))) ≤ s.var.v i)
    (hcfl : ∀ i, 1 ≤ i → i + 1 < x.n → dt * (1 - theta) * (s.var.v i + s.mu.v i * ((x.loc i - x.loc (i - 1)) - (x.loc (i + 1) - x.loc i))) ≤
      (x.loc i - x.loc (i - 1)) * (x.loc (i + 1) - x.loc i))
    {lo hi : K} (hb : ∀ i, i < x.n → lo ≤ res.v i ∧ res.v i ≤ hi) : ∀ i, i < x.n → lo ≤ res'.v i ∧ res'.v i ≤ hi := by
  have hrd := state_ready heps g hs
  have hn := hrd.size
  obtain ⟨-, -, -, f, l, mid, m0, m9, e1, e2, -⟩ := roll_spec heps g hrd h
  have hw : ∀ i, 1 ≤ i → i + 1 < x.n → 0 ≤ wl x s.mu.v s.var.v i ∧ 0 ≤ wu x s.mu.v s.var.v i := fun i a b => weights_nonneg g a b (hl i a b) (hu i a b)
  have hmid : ∀ i, i < x.n → lo ≤ mid i ∧ mid i ≤ hi := by
    intro i hi'
    by_cases g0 : i = 0
    · rw [g0, m0]; exact hb 0 (by omega)
    · by_cases g9 : i = x.n - 1
      · rw [g9, m9]; exact hb _ (by omega)
      · have a : 1 ≤ i := by omega
        have b : i + 1 < x.n := by omega
        obtain ⟨w1, w2⟩ := hw i a b
        rw [e1 i a b, gen_weights g a b, hr]
        have hsum : dt * (1 - theta) * (wl x s.mu.v s.var.v i + wu x s.mu.v s.var.v i) ≤ 1 := by
          obtain ⟨q1, q2, p1, p2⟩ := grid_steps g a b
          have c := hcfl i a b
          rw [← q1, ← q2] at c
          rw [← q1] at p1
          rw [← q2] at p2
          have : wl x s.mu.v s.var.v i + wu x s.mu.v s.var.v i = (s.var.v i + s.mu.v i * (x.dminus i - x.dplus i)) / (x.dminus i * x.dplus i) := by
            rw [wl, wu]
            have p3 := (add_pos p1 p2).ne'
            have p1' := p1.ne'
            have p2' := p2.ne'
            generalize x.dminus i = u at *
            generalize x.dplus i = v at *
            field_simp
            ring
          rw [this, ← mul_div_assoc, div_le_one (mul_pos p1 p2)]
          exact c
        have ht : 0 ≤ dt * (1 - theta) := mul_nonneg hdt (by linarith)
        have k1 := mul_nonneg ht w1
        have k2 := mul_nonneg ht w2
        have b1 := hb (i - 1) (by omega)
        have b2 := hb i (by omega)
        have b3 := hb (i + 1) b
        generalize wl x s.mu.v s.var.v i = p at *
        generalize wu x s.mu.v s.var.v i = q at *
        generalize dt * (1 - theta) = t at *
        have e : res.v i + t * (p * (res.v (i - 1) - res.v i) + q * (res.v (i + 1) - res.v i) - 0 * res.v i) =
          (1 - t * (p + q)) * res.v i + t * p * res.v (i - 1) + t * q * res.v (i + 1) := by ring
        have k0 : 0 ≤ 1 - t * (p + q) := by linarith
        rw [e]
        have c1 := mul_le_mul_of_nonneg_left b1.1 k1
        have c2 := mul_le_mul_of_nonneg_left b1.2 k1
        have c3 := mul_le_mul_of_nonneg_left b2.1 k0
        have c4 := mul_le_mul_of_nonneg_left b2.2 k0
        have c5 := mul_le_mul_of_nonneg_left b3.1 k2
        have c6 := mul_le_mul_of_nonneg_left b3.2 k2
        constructor
        · have : lo = (1 - t * (p + q)) * lo + t * p * lo + t * q * lo := by ring
          linarith
        · have : hi = (1 - t * (p + q)) * hi + t * p * hi + t * q * hi := by ring
          linarith
  have ht : 0 ≤ dt * theta := mul_nonneg hdt h0
  have heq : ∀ i, 1 ≤ i → i + 1 < x.n → res'.v i - dt * theta * (wl x s.mu.v s.var.v i * (res'.v (i - 1) - res'.v i) +
      wu x s.mu.v s.var.v i * (res'.v (i + 1) - res'.v i)) = mid i := by
    intro i a b
    rw [← e2 i a b, gen_weights g a b, hr]
    ring
  intro i hi'
  refine ⟨?_, implicit_upper g ht hw hn (by rw [f, m0]) (by rw [l, m9]) heq (fun j hj => (hmid j hj).2) i hi'⟩
  have := implicit_upper (y := fun j => -res'.v j) (mid := fun j => -mid j) (hi := -lo) g ht hw hn (by rw [f, m0]) (by rw [l, m9])
    (fun j a b => by rw [← heq j a b]; ring) (fun j hj => neg_le_neg (hmid j hj).1) i hi'
  exact neg_le_neg_iff.1 this

/-- A solver on the grid of the examples with drift 1/4, variance 1 and rate 0. -/
def demoSolver : Option (Solver ℚ) := Fd.init demoGrid ⟨3, fun _ => 0⟩ ⟨3, fun _ => 1 / 4⟩ ⟨3, fun _ => 1⟩

/-- Example: a Crank–Nicolson step is made and keeps the constant 7, and its bounds. -/
example : ∃ s s' res', demoSolver = some s ∧ rollBwd (1 / 100) s (1 / 2) (1 / 2) ⟨3, fun _ => 7⟩ = some (s', res') ∧ ∀ i, i < 3 → res'.v i = 7 := by
  obtain ⟨s, e, -, e1, e2, e3⟩ := init_ready (x := demoGrid) (by decide) (⟨3, fun _ => 0⟩ : Sized ℚ) ⟨3, fun _ => 1 / 4⟩ ⟨3, fun _ => 1⟩
  have hs : SolverState (1 / 100 : ℚ) demoGrid s := .init e
  obtain ⟨s', res', h⟩ := C60_step_made (eps := (1 / 100 : ℚ)) (by norm_num) (by norm_num) demoGrid_grid hs (dt := 1 / 2) (theta := 1 / 2)
    (res := ⟨3, fun _ => 7⟩) (by rw [e1, e2, e3]; decide) (by norm_num) (by rw [e1]; intro i; exact le_rfl)
    (fun i a b => by
      have h1 : i = 1 := by have : i + 1 < 3 := b; omega
      rw [e2, e3, h1]; decide +kernel)
    (fun i a b => by
      have h1 : i = 1 := by have : i + 1 < 3 := b; omega
      rw [e2, e3, h1]; decide +kernel)
  exact ⟨s, s', res', e, h, C60_constants (by norm_num) demoGrid_grid hs h (by rw [e1]; intro i; rfl) 7 (fun _ _ => rfl)⟩

/-- Example: the same step for the values 0, 1, 2 stays within [0, 2]. -/
example : ∃ s s' res', demoSolver = some s ∧ rollBwd (1 / 100) s (1 / 2) (1 / 2) ⟨3, fun i => (i : ℚ)⟩ = some (s', res') ∧
    ∀ i, i < 3 → 0 ≤ res'.v i ∧ res'.v i ≤ 2 := by
  obtain ⟨s, e, -, e1, e2, e3⟩ := init_ready (x := demoGrid) (by decide) (⟨3, fun _ => 0⟩ : Sized ℚ) ⟨3, fun _ => 1 / 4⟩ ⟨3, fun _ => 1⟩
  have hs : SolverState (1 / 100 : ℚ) demoGrid s := .init e
  have hl : ∀ i, 1 ≤ i → i + 1 < demoGrid.n → s.mu.v i * (demoGrid.loc (i + 1) - demoGrid.loc i) ≤ s.var.v i := fun i a b => by
    have h1 : i = 1 := by have : i + 1 < 3 := b; omega
    rw [e2, e3, h1]; decide +kernel
  have hu : ∀ i, 1 ≤ i → i + 1 < demoGrid.n → -(s.mu.v i * (demoGrid.loc i - demoGrid.loc (i - 1))) ≤ s.var.v i := fun i a b => by
    have h1 : i = 1 := by have : i + 1 < 3 := b; omega
    rw [e2, e3, h1]; decide +kernel
  obtain ⟨s', res', h⟩ := C60_step_made (eps := (1 / 100 : ℚ)) (by norm_num) (by norm_num) demoGrid_grid hs (dt := 1 / 2) (theta := 1 / 2)
    (res := ⟨3, fun i => (i : ℚ)⟩) (by rw [e1, e2, e3]; decide) (by norm_num) (by rw [e1]; intro i; exact le_rfl) hl hu
  refine ⟨s, s', res', e, h, C60_bounds (by norm_num) demoGrid_grid hs h (by rw [e1]; intro i; rfl) (by norm_num) (by norm_num) (by norm_num) hl hu
    (fun i a b => ?_) (fun i hi => ?_)⟩
  · have h1 : i = 1 := by have : i + 1 < 3 := b; omega
    rw [e2, e3, h1]; decide +kernel
  · have h1 : i = 0 ∨ i = 1 ∨ i = 2 := by have : i < 3 := hi; omega
    rcases h1 with rfl | rfl | rfl <;> decide +kernel

/-- C60, beyond zero rates: the edges are never discounted, so that a step with positive rates never turns a constant into another one. -/
theorem C60_edges_not_discounted {eps : K} (heps : 0 < eps) {x : Mesh K} (g : Grid x) {s : Solver K} (hs : SolverState eps x s) {dt theta : K}
    {res : Sized K} {s' : Solver K} {res' : Sized K} (h : rollBwd eps s dt theta res = some (s', res')) (hdt : 0 < dt) (hr : ∀ i, 0 < s.r.v i)
    (c : K) (hc : c ≠ 0) (hcc : ∀ i, i < x.n → res.v i = c) : ¬∃ df, ∀ i, i < x.n → res'.v i = df * c := by
  rintro ⟨df, hdf⟩
  have hn := (state_ready heps g hs).size
  obtain ⟨e0, -, ei⟩ := (((C60_theta_scheme heps g hs h).2 res'.v).1 fun _ _ => rfl)
  rw [hdf 0 (by omega), hcc 0 (by omega)] at e0
  have hd : df = 1 := by
    have : (df - 1) * c = 0 := by linear_combination e0
    rcases mul_eq_zero.1 this with h | h
    · linear_combination h
    · exact absurd h hc
  have e := ei 1 le_rfl (by omega)
  have hv : ∀ i, i < x.n → res'.v i = c := fun i hi => by rw [hdf i hi, hd, one_mul]
  rw [gen_const g le_rfl (by omega) _ _ _ c ⟨hv _ (by omega), hv _ (by omega), hv _ (by omega)⟩,
    gen_const g le_rfl (by omega) _ _ _ c ⟨hcc _ (by omega), hcc _ (by omega), hcc _ (by omega)⟩, hv 1 (by omega), hcc 1 (by omega)] at e
  have : dt * s.r.v 1 * c = 0 := by linear_combination e
  exact mul_ne_zero (mul_ne_zero hdt.ne' (hr 1).ne') hc this

end Dal
