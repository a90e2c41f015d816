import Verif.Pde.RollLemmas
import Verif.Pde.TaylorLemmas
import Mathlib.Tactic.Positivity

/-!
# C107: rolling back solves the pricing equation

Specification: a function of time to expiry and spot that solves `∂u/∂t = μ·∂u/∂x + ½·σ²·∂²u/∂x² - r·u`; the values of the loop are compared with it at the points of the grid.
-/

namespace Dal
open Dal.Fd Set

section
variable {K : Type} [Field K] [LinearOrder K] [IsStrictOrderedRing K]

/-- C107: whatever the grid, the theta and the number of steps, when rates are not negative, the variance dominates the drift over a spacing and the explicit part is within its limit, the
loop is defined, and it stays within the initial error, the errors of the edges (those left standing during the next step included) and the sum of the defects of any values that it is
compared with. -/
theorem C107_error {eps : K} (heps : 0 < eps) (heps1 : eps ≤ 1) {x : Mesh K} (g : Grid x) (hn : 2 < x.n) (r mu var : Sized K) (hsize : x.n - 1 ≤ mu.size ∧ x.n - 1 ≤ var.size ∧ x.n - 1 ≤ r.size)
    {dt theta : K} (hs : Stable x r.v mu.v var.v dt theta) (edge : Nat → K × K) {res : Sized K} (hz : res.size = x.n) (N : Nat) (u : Nat → Nat → K) {E D : K} (hE : 0 ≤ E) (hD : 0 ≤ D)
    (h0 : ∀ i, i < x.n → |res.v i - u 0 i| ≤ E) (h1 : ∀ k, k ≤ N → 1 ≤ k → |(edge k).1 - u k 0| ≤ E ∧ |(edge k).2 - u k (x.n - 1)| ≤ E)
    (h2 : ∀ k, k < N → |(if k = 0 then res.v 0 else (edge k).1) - u (k + 1) 0| ≤ E ∧ |(if k = 0 then res.v (x.n - 1) else (edge k).2) - u (k + 1) (x.n - 1)| ≤ E)
    (h3 : ∀ k, k < N → ∀ i, 1 ≤ i → i + 1 < x.n →
      |u (k + 1) i - theta * dt * gen x.loc r.v mu.v var.v (u (k + 1)) i - (u k i + (1 - theta) * dt * gen x.loc r.v mu.v var.v (u k) i)| ≤ D) :
    ∃ s s' res', Fd.init x r mu var = some s ∧ rollLoop eps dt theta edge s res N = some (s', res') ∧ res'.size = x.n ∧ ∀ i, i < x.n → |res'.v i - u N i| ≤ E + N * D := by
  obtain ⟨s, e, -, e1, e2, e3⟩ := init_ready hn r mu var
  obtain ⟨s', res', a1, -, -, a2, -, -, a3⟩ := loop_error heps heps1 g (SolverState.init e) hn (by rw [e1, e2, e3]; exact hs) (by rw [e1, e2, e3]; exact hsize) edge hz u hE hD h0 N h1 h2
    (by rw [e1, e2, e3]; exact h3)
  exact ⟨s, s', res', e, a1, a2, a3⟩

/-- Ten steps from a perturbed constant, with edges held at it: never further from it than at the start. -/
example : ∃ s s' res', Fd.init demoGrid ⟨3, fun _ => 0⟩ ⟨3, fun _ => 1 / 10⟩ ⟨3, fun _ => 1⟩ = some s ∧
    rollLoop (1 / 100 : ℚ) (1 / 4) (1 / 2) (fun _ => (1, 1)) s ⟨3, fun i => if i = 1 then 11 / 10 else 1⟩ 10 = some (s', res') ∧ res'.size = 3 ∧ ∀ i, i < 3 → |res'.v i - 1| ≤ 1 / 10 + (10 : ℕ) * 0 := by
  have mid : ∀ i, 1 ≤ i → i + 1 < demoGrid.n → i = 1 := fun i a b => by have : i + 1 < 3 := b; omega
  refine C107_error (by norm_num) (by norm_num) demoGrid_grid (by decide) _ _ _ (by decide) ⟨fun i => le_rfl, fun i a b => ?_, fun i a b => ?_, by norm_num, by norm_num, by norm_num, fun i a b => ?_⟩ _ rfl 10
    (fun _ _ => 1) (by norm_num) le_rfl (fun i hi => ?_) (fun k _ _ => by norm_num) (fun k _ => ?_) (fun k _ i a b => ?_)
  · rw [mid i a b]; decide +kernel
  · rw [mid i a b]; decide +kernel
  · rw [mid i a b]; decide +kernel
  · have h1 : i = 0 ∨ i = 1 ∨ i = 2 := by have : i < 3 := hi; omega
    rcases h1 with rfl | rfl | rfl <;> decide +kernel
  · have : (if (demoGrid.n - 1 = 1) then (11 / 10 : ℚ) else 1) = 1 := by decide
    by_cases h : k = 0
    · simp only [h, if_pos, this]; norm_num
    · simp only [if_neg h]; norm_num
  · rw [mid i a b]; decide +kernel

end

/-- A function of time and place with two derivatives in time and four in place, bounded for the highest ones. -/
structure SmoothIn (T lo hi : ℝ) (u ux uxx u3 u4 ut utt : ℝ → ℝ → ℝ) (Mt M3 M4 : ℝ) : Prop where
  x1 : ∀ t ∈ Icc 0 T, ∀ x ∈ Icc lo hi, HasDerivAt (u t) (ux t x) x
  x2 : ∀ t ∈ Icc 0 T, ∀ x ∈ Icc lo hi, HasDerivAt (ux t) (uxx t x) x
  x3 : ∀ t ∈ Icc 0 T, ∀ x ∈ Icc lo hi, HasDerivAt (uxx t) (u3 t x) x
  x4 : ∀ t ∈ Icc 0 T, ∀ x ∈ Icc lo hi, HasDerivAt (u3 t) (u4 t x) x
  t1 : ∀ t ∈ Icc 0 T, ∀ x ∈ Icc lo hi, HasDerivAt (fun t => u t x) (ut t x) t
  t2 : ∀ t ∈ Icc 0 T, ∀ x ∈ Icc lo hi, HasDerivAt (fun t => ut t x) (utt t x) t
  bt : ∀ t ∈ Icc 0 T, ∀ x ∈ Icc lo hi, |utt t x| ≤ Mt
  b3 : ∀ t ∈ Icc 0 T, ∀ x ∈ Icc lo hi, |u3 t x| ≤ M3
  b4 : ∀ t ∈ Icc 0 T, ∀ x ∈ Icc lo hi, |u4 t x| ≤ M4

/-- A grid over an interval, with the largest spacing and the largest difference of neighbouring spacings. -/
structure Covers (x : Mesh ℝ) (lo hi h a : ℝ) : Prop where
  grid : Grid x
  size : 2 < x.n
  first : x.loc 0 = lo
  last : x.loc (x.n - 1) = hi
  spacing : ∀ i, i + 1 < x.n → x.loc (i + 1) - x.loc i ≤ h
  even : ∀ i, 1 ≤ i → i + 1 < x.n → |(x.loc (i + 1) - x.loc i) - (x.loc i - x.loc (i - 1))| ≤ a

theorem covers_between {x : Mesh ℝ} {lo hi h a : ℝ} (c : Covers x lo hi h a) : ∀ i, i < x.n → x.loc i ∈ Icc lo hi := by
  have up : ∀ j i, i ≤ j → j < x.n → x.loc i ≤ x.loc j := by
    intro j
    induction j with
    | zero => intro i hi _; rw [Nat.le_zero.1 hi]
    | succ j ih =>
      intro i hi hj
      rcases Nat.lt_or_ge i (j + 1) with hlt | hge
      · exact (ih i (by omega) (by omega)).trans (c.grid.incr j hj).le
      · rw [show i = j + 1 by omega]
  intro i hi
  have := c.size
  exact ⟨c.first ▸ up i 0 (by omega) hi, c.last ▸ up (x.n - 1) i (by omega) (by omega)⟩

/-- The generator on the grid is close to the one of the equation. -/
theorem gen_error {T lo hi h a : ℝ} {u ux uxx u3 u4 ut utt : ℝ → ℝ → ℝ} {Mt M3 M4 : ℝ} (hu : SmoothIn T lo hi u ux uxx u3 u4 ut utt Mt M3 M4) {x : Mesh ℝ} (c : Covers x lo hi h a)
    {r mu var : Nat → ℝ} {B V : ℝ} {t : ℝ} (ht : t ∈ Icc 0 T) {i : Nat} (i1 : 1 ≤ i) (i2 : i + 1 < x.n) (hB : |mu i| ≤ B) (hV : |var i| ≤ V) :
    |gen x.loc r mu var (fun j => u t (x.loc j)) i - (mu i * ux t (x.loc i) + 1 / 2 * var i * uxx t (x.loc i) - r i * u t (x.loc i))| ≤
      B * (M3 / 6 * h ^ 2) + 1 / 2 * V * (M3 / 3 * a + M4 / 12 * h ^ 2) := by
  have hb := covers_between c
  have l1 : x.loc (i - 1) < x.loc i := by have := c.grid.incr (i - 1) (by omega); rwa [Nat.sub_add_cancel i1] at this
  have l2 := c.grid.incr i i2
  have s1 : x.loc i - x.loc (i - 1) ≤ h := by have := c.spacing (i - 1) (by omega); rwa [Nat.sub_add_cancel i1] at this
  have s2 := c.spacing i i2
  have hin : ∀ y ∈ Icc (x.loc (i - 1)) (x.loc (i + 1)), y ∈ Icc lo hi := fun y hy => ⟨(hb (i - 1) (by omega)).1.trans hy.1, hy.2.trans (hb (i + 1) i2).2⟩
  have n3 : 0 ≤ M3 := (abs_nonneg _).trans (hu.b3 t ht _ (hb i (by omega)))
  have e1 := d1_error (x := x.loc) (f := fun j => u t (x.loc j)) (i := i) (F := u t) (M := M3) l1 l2 (fun _ => rfl) (fun y hy => hu.x1 t ht y (hin y hy)) (fun y hy => hu.x2 t ht y (hin y hy))
    (fun y hy => hu.x3 t ht y (hin y hy)) (fun y hy => hu.b3 t ht y (hin y hy))
  have e2 := d2_error (x := x.loc) (f := fun j => u t (x.loc j)) (i := i) (F := u t) (M3 := M3) (M4 := M4) l1 l2 (fun _ => rfl) (fun y hy => hu.x1 t ht y (hin y hy))
    (fun y hy => hu.x2 t ht y (hin y hy)) (fun y hy => hu.x3 t ht y (hin y hy)) (fun y hy => hu.x4 t ht y (hin y hy)) (hu.b3 t ht _ (hb i (by omega))) (fun y hy => hu.b4 t ht y (hin y hy)) s1 s2
  have e3 : |d1 x.loc (fun j => u t (x.loc j)) i - ux t (x.loc i)| ≤ M3 / 6 * h ^ 2 := by
    refine e1.trans (mul_le_mul_of_nonneg_left ?_ (by linarith))
    have := mul_le_mul s1 s2 (by linarith) (by linarith)
    nlinarith
  have e4 : |d2 x.loc (fun j => u t (x.loc j)) i - uxx t (x.loc i)| ≤ M3 / 3 * a + M4 / 12 * h ^ 2 := by
    refine e2.trans ?_
    have := mul_le_mul_of_nonneg_left (c.even i i1 i2) (show 0 ≤ M3 / 3 by linarith)
    linarith
  have e5 : gen x.loc r mu var (fun j => u t (x.loc j)) i - (mu i * ux t (x.loc i) + 1 / 2 * var i * uxx t (x.loc i) - r i * u t (x.loc i)) =
      mu i * (d1 x.loc (fun j => u t (x.loc j)) i - ux t (x.loc i)) + 1 / 2 * var i * (d2 x.loc (fun j => u t (x.loc j)) i - uxx t (x.loc i)) := by
    rw [gen]; ring
  rw [e5]
  refine (abs_add_le _ _).trans (add_le_add ?_ ?_)
  · rw [abs_mul]
    exact mul_le_mul hB e3 (abs_nonneg _) ((abs_nonneg _).trans hB)
  · rw [abs_mul, abs_mul, abs_of_pos (show (0 : ℝ) < 1 / 2 by norm_num)]
    have := (abs_nonneg _).trans hV
    exact mul_le_mul (mul_le_mul_of_nonneg_left hV (by norm_num)) e4 (abs_nonneg _) (by linarith)

/-- The error of a grid of spacing `h`, uneven by `a`, for bounds `B` and `V` of drift and variance. -/
noncomputable def spaceError (B V M3 M4 h a : ℝ) : ℝ := B * (M3 / 6 * h ^ 2) + 1 / 2 * V * (M3 / 3 * a + M4 / 12 * h ^ 2)

/-- Both theorems below: with a bound of the error of a step in time. -/
private theorem smooth_of_time {eps : ℝ} (heps : 0 < eps) (heps1 : eps ≤ 1) {T lo hi h a : ℝ} {u ux uxx u3 u4 ut utt : ℝ → ℝ → ℝ} {Mt M3 M4 : ℝ}
    (hu : SmoothIn T lo hi u ux uxx u3 u4 ut utt Mt M3 M4) {x : Mesh ℝ} (c : Covers x lo hi h a) (r mu var : Sized ℝ) (hsize : x.n - 1 ≤ mu.size ∧ x.n - 1 ≤ var.size ∧ x.n - 1 ≤ r.size)
    {dt theta : ℝ} (hs : Stable x r.v mu.v var.v dt theta) {B V W : ℝ} (hB : ∀ i, 1 ≤ i → i + 1 < x.n → |mu.v i| ≤ B) (hV : ∀ i, 1 ≤ i → i + 1 < x.n → |var.v i| ≤ V)
    (hpde : ∀ t ∈ Icc 0 T, ∀ i, 1 ≤ i → i + 1 < x.n → ut t (x.loc i) = mu.v i * ux t (x.loc i) + 1 / 2 * var.v i * uxx t (x.loc i) - r.v i * u t (x.loc i)) (N : Nat) (hT : N * dt ≤ T)
    (htime : ∀ t ∈ Icc 0 T, t + dt ∈ Icc 0 T → ∀ y ∈ Icc lo hi, |u (t + dt) y - u t y - dt * (theta * ut (t + dt) y + (1 - theta) * ut t y)| ≤ dt * W)
    (edge : Nat → ℝ × ℝ) {res : Sized ℝ} (hz : res.size = x.n) {E : ℝ} (h0 : ∀ i, i < x.n → |res.v i - u 0 (x.loc i)| ≤ E)
    (h1 : ∀ k : ℕ, k ≤ N → 1 ≤ k → |(edge k).1 - u (k * dt) lo| ≤ E ∧ |(edge k).2 - u (k * dt) hi| ≤ E)
    (h2 : ∀ k : ℕ, k < N → |(if k = 0 then res.v 0 else (edge k).1) - u ((k + 1) * dt) lo| ≤ E ∧ |(if k = 0 then res.v (x.n - 1) else (edge k).2) - u ((k + 1) * dt) hi| ≤ E) :
    ∃ s s' res', Fd.init x r mu var = some s ∧ rollLoop eps dt theta edge s res N = some (s', res') ∧ res'.size = x.n ∧
      ∀ i, i < x.n → |res'.v i - u (N * dt) (x.loc i)| ≤ E + N * dt * (W + spaceError B V M3 M4 h a) := by
  have hn := c.size
  have hE : 0 ≤ E := (abs_nonneg _).trans (h0 0 (by omega))
  have hb := covers_between c
  have times : ∀ k : ℕ, k ≤ N → (k : ℝ) * dt ∈ Icc 0 T := fun k hk => ⟨mul_nonneg (Nat.cast_nonneg k) hs.step, (mul_le_mul_of_nonneg_right (Nat.cast_le.2 hk) hs.step).trans hT⟩
  have hdef : ∀ k : ℕ, k < N → ∀ i, 1 ≤ i → i + 1 < x.n →
      |u (((k + 1 : ℕ) : ℝ) * dt) (x.loc i) - theta * dt * gen x.loc r.v mu.v var.v (fun j => u (((k + 1 : ℕ) : ℝ) * dt) (x.loc j)) i -
        (u ((k : ℝ) * dt) (x.loc i) + (1 - theta) * dt * gen x.loc r.v mu.v var.v (fun j => u ((k : ℝ) * dt) (x.loc j)) i)| ≤ dt * (W + spaceError B V M3 M4 h a) := by
    intro k hk i i1 i2
    have t1 := times k hk.le
    have t2 := times (k + 1) hk
    have e1 := gen_error (r := r.v) hu c t1 i1 i2 (hB i i1 i2) (hV i i1 i2)
    have e2 := gen_error (r := r.v) hu c t2 i1 i2 (hB i i1 i2) (hV i i1 i2)
    rw [← hpde _ t1 i i1 i2] at e1
    rw [← hpde _ t2 i i1 i2] at e2
    have hkk : ((k + 1 : ℕ) : ℝ) * dt = k * dt + dt := by push_cast; ring
    have e3 := htime _ t1 (hkk ▸ t2) (x.loc i) (hb i (by omega))
    rw [← hkk] at e3
    rw [spaceError]
    set S := B * (M3 / 6 * h ^ 2) + 1 / 2 * V * (M3 / 3 * a + M4 / 12 * h ^ 2)
    set g1 := gen x.loc r.v mu.v var.v (fun j => u ((k : ℝ) * dt) (x.loc j)) i
    set g2 := gen x.loc r.v mu.v var.v (fun j => u (((k + 1 : ℕ) : ℝ) * dt) (x.loc j)) i
    set v1 := ut ((k : ℝ) * dt) (x.loc i)
    set v2 := ut (((k + 1 : ℕ) : ℝ) * dt) (x.loc i)
    have q1 := mul_le_mul_of_nonneg_left (abs_le'.1 e2).1 (mul_nonneg hs.theta0 hs.step)
    have q2 := mul_le_mul_of_nonneg_left (abs_le'.1 e2).2 (mul_nonneg hs.theta0 hs.step)
    have q3 := mul_le_mul_of_nonneg_left (abs_le'.1 e1).1 (mul_nonneg (sub_nonneg.2 hs.theta1) hs.step)
    have q4 := mul_le_mul_of_nonneg_left (abs_le'.1 e1).2 (mul_nonneg (sub_nonneg.2 hs.theta1) hs.step)
    have q5 := abs_le'.1 e3
    rw [abs_le']
    constructor
    · nlinarith [q5.1]
    · nlinarith [q5.2]
  obtain ⟨s, s', res', a1, a2, a3, a4⟩ := C107_error heps heps1 c.grid hn r mu var hsize hs edge hz N (fun k i => u (k * dt) (x.loc i)) (E := E) (D := dt * |W + spaceError B V M3 M4 h a|) hE
    (mul_nonneg hs.step (abs_nonneg _)) (by simpa using h0) (fun k hk hk1 => by rw [c.first, c.last]; exact h1 k hk hk1)
    (fun k hk => by rw [c.first, c.last]; push_cast; exact h2 k hk) (fun k hk i i1 i2 => (hdef k hk i i1 i2).trans (mul_le_mul_of_nonneg_left (le_abs_self _) hs.step))
  refine ⟨s, s', res', a1, a2, a3, fun i hi => (a4 i hi).trans (le_of_eq ?_)⟩
  rcases Nat.eq_zero_or_pos N with rfl | hN
  · simp
  · have hd := hdef 0 hN 1 le_rfl (by omega)
    have h5 : 0 ≤ dt * (W + spaceError B V M3 M4 h a) := (abs_nonneg _).trans hd
    have h6 : dt * |W + spaceError B V M3 M4 h a| = dt * (W + spaceError B V M3 M4 h a) := by
      rw [← abs_of_nonneg h5, abs_mul, abs_of_nonneg hs.step]
    rw [h6]
    ring

/-- C107: against a solution of the pricing equation the error after `N` steps is at most that of the start and of the edges, plus the elapsed time times an error of first order in time and
of second order in the spacing, but for the unevenness of the grid. -/
theorem C107_smooth {eps : ℝ} (heps : 0 < eps) (heps1 : eps ≤ 1) {T lo hi h a : ℝ} {u ux uxx u3 u4 ut utt : ℝ → ℝ → ℝ} {Mt M3 M4 : ℝ} (hu : SmoothIn T lo hi u ux uxx u3 u4 ut utt Mt M3 M4)
    {x : Mesh ℝ} (c : Covers x lo hi h a) (r mu var : Sized ℝ) (hsize : x.n - 1 ≤ mu.size ∧ x.n - 1 ≤ var.size ∧ x.n - 1 ≤ r.size) {dt theta : ℝ} (hs : Stable x r.v mu.v var.v dt theta)
    {B V : ℝ} (hB : ∀ i, 1 ≤ i → i + 1 < x.n → |mu.v i| ≤ B) (hV : ∀ i, 1 ≤ i → i + 1 < x.n → |var.v i| ≤ V)
    (hpde : ∀ t ∈ Icc 0 T, ∀ i, 1 ≤ i → i + 1 < x.n → ut t (x.loc i) = mu.v i * ux t (x.loc i) + 1 / 2 * var.v i * uxx t (x.loc i) - r.v i * u t (x.loc i)) (N : Nat) (hT : N * dt ≤ T)
    (edge : Nat → ℝ × ℝ) {res : Sized ℝ} (hz : res.size = x.n) {E : ℝ} (h0 : ∀ i, i < x.n → |res.v i - u 0 (x.loc i)| ≤ E)
    (h1 : ∀ k : ℕ, k ≤ N → 1 ≤ k → |(edge k).1 - u (k * dt) lo| ≤ E ∧ |(edge k).2 - u (k * dt) hi| ≤ E)
    (h2 : ∀ k : ℕ, k < N → |(if k = 0 then res.v 0 else (edge k).1) - u ((k + 1) * dt) lo| ≤ E ∧ |(if k = 0 then res.v (x.n - 1) else (edge k).2) - u ((k + 1) * dt) hi| ≤ E) :
    ∃ s s' res', Fd.init x r mu var = some s ∧ rollLoop eps dt theta edge s res N = some (s', res') ∧ res'.size = x.n ∧
      ∀ i, i < x.n → |res'.v i - u (N * dt) (x.loc i)| ≤ E + N * dt * (Mt / 2 * dt + spaceError B V M3 M4 h a) := by
  refine smooth_of_time heps heps1 hu c r mu var hsize hs hB hV hpde N hT (fun t ht ht' y hy => ?_) edge hz h0 h1 h2
  have hin : ∀ z ∈ Icc t (t + dt), z ∈ Icc 0 T := fun z hz => ⟨ht.1.trans hz.1, hz.2.trans ht'.2⟩
  have e1 := taylor2 (f := fun t => u t y) (f1 := fun t => ut t y) (x := t) (h := dt) (M := Mt) hs.step (fun z hz => hu.t1 z (hin z hz) y hy) (fun z hz => hu.t2 z (hin z hz) y hy)
    (fun z hz => hu.bt z (hin z hz) y hy)
  have e2 := taylor2_left (f := fun t => u t y) (f1 := fun t => ut t y) (x := t + dt) (h := dt) (M := Mt) hs.step (fun z hz => hu.t1 z (hin z ⟨by linarith [hz.1], hz.2⟩) y hy)
    (fun z hz => hu.t2 z (hin z ⟨by linarith [hz.1], hz.2⟩) y hy) (fun z hz => hu.bt z (hin z ⟨by linarith [hz.1], hz.2⟩) y hy)
  rw [add_sub_cancel_right] at e2
  have q1 := mul_le_mul_of_nonneg_left (abs_le'.1 e1).1 (sub_nonneg.2 hs.theta1)
  have q2 := mul_le_mul_of_nonneg_left (abs_le'.1 e1).2 (sub_nonneg.2 hs.theta1)
  have q3 := mul_le_mul_of_nonneg_left (abs_le'.1 e2).1 hs.theta0
  have q4 := mul_le_mul_of_nonneg_left (abs_le'.1 e2).2 hs.theta0
  rw [abs_le']
  constructor <;> nlinarith

/-- C107: with theta one half the error of the steps is of second order in time too. -/
theorem C107_crank {eps : ℝ} (heps : 0 < eps) (heps1 : eps ≤ 1) {T lo hi h a : ℝ} {u ux uxx u3 u4 ut utt : ℝ → ℝ → ℝ} {Mt M3 M4 : ℝ} (hu : SmoothIn T lo hi u ux uxx u3 u4 ut utt Mt M3 M4)
    {x : Mesh ℝ} (c : Covers x lo hi h a) (r mu var : Sized ℝ) (hsize : x.n - 1 ≤ mu.size ∧ x.n - 1 ≤ var.size ∧ x.n - 1 ≤ r.size) {dt : ℝ} (hs : Stable x r.v mu.v var.v dt (1 / 2))
    {B V : ℝ} (hB : ∀ i, 1 ≤ i → i + 1 < x.n → |mu.v i| ≤ B) (hV : ∀ i, 1 ≤ i → i + 1 < x.n → |var.v i| ≤ V)
    (hpde : ∀ t ∈ Icc 0 T, ∀ i, 1 ≤ i → i + 1 < x.n → ut t (x.loc i) = mu.v i * ux t (x.loc i) + 1 / 2 * var.v i * uxx t (x.loc i) - r.v i * u t (x.loc i)) (N : Nat) (hT : N * dt ≤ T)
    {uttt : ℝ → ℝ → ℝ} {M : ℝ} (t3 : ∀ t ∈ Icc 0 T, ∀ x ∈ Icc lo hi, HasDerivAt (fun t => utt t x) (uttt t x) t) (bttt : ∀ t ∈ Icc 0 T, ∀ x ∈ Icc lo hi, |uttt t x| ≤ M)
    (edge : Nat → ℝ × ℝ) {res : Sized ℝ} (hz : res.size = x.n) {E : ℝ} (h0 : ∀ i, i < x.n → |res.v i - u 0 (x.loc i)| ≤ E)
    (h1 : ∀ k : ℕ, k ≤ N → 1 ≤ k → |(edge k).1 - u (k * dt) lo| ≤ E ∧ |(edge k).2 - u (k * dt) hi| ≤ E)
    (h2 : ∀ k : ℕ, k < N → |(if k = 0 then res.v 0 else (edge k).1) - u ((k + 1) * dt) lo| ≤ E ∧ |(if k = 0 then res.v (x.n - 1) else (edge k).2) - u ((k + 1) * dt) hi| ≤ E) :
    ∃ s s' res', Fd.init x r mu var = some s ∧ rollLoop eps dt (1 / 2) edge s res N = some (s', res') ∧ res'.size = x.n ∧
      ∀ i, i < x.n → |res'.v i - u (N * dt) (x.loc i)| ≤ E + N * dt * (M / 12 * dt ^ 2 + spaceError B V M3 M4 h a) := by
  refine smooth_of_time heps heps1 hu c r mu var hsize hs hB hV hpde N hT (fun t ht ht' y hy => ?_) edge hz h0 h1 h2
  have hin : ∀ z ∈ Icc t (t + dt), z ∈ Icc 0 T := fun z hz => ⟨ht.1.trans hz.1, hz.2.trans ht'.2⟩
  have e1 := trapezoid (f := fun t => u t y) (f1 := fun t => ut t y) (x := t) (h := dt) (M := M) hs.step (fun z hz => hu.t1 z (hin z hz) y hy) (fun z hz => hu.t2 z (hin z hz) y hy)
    (fun z hz => t3 z (hin z hz) y hy) (fun z hz => bttt z (hin z hz) y hy)
  rw [show u (t + dt) y - u t y - dt * (1 / 2 * ut (t + dt) y + (1 - 1 / 2) * ut t y) = u (t + dt) y - u t y - dt / 2 * (ut t y + ut (t + dt) y) by ring]
  calc _ ≤ _ := e1
    _ = _ := by ring

/-! ### The forward contract at strike one, for a rate of five per cent: `x - exp (-t/20)` -/

private theorem forward_regular : SmoothIn 1 1 3 (fun t x => x - Real.exp (-(1 / 20) * t)) (fun _ _ => 1) (fun _ _ => 0) (fun _ _ => 0) (fun _ _ => 0) (fun t _ => 1 / 20 * Real.exp (-(1 / 20) * t))
    (fun t _ => -(1 / 400) * Real.exp (-(1 / 20) * t)) (1 / 400) 0 0 := by
  have e : ∀ t, HasDerivAt (fun t => Real.exp (-(1 / 20) * t)) (Real.exp (-(1 / 20) * t) * (-(1 / 20) * 1)) t := fun t => ((hasDerivAt_id' t).const_mul (-(1 / 20))).exp
  refine ⟨fun t _ x _ => (hasDerivAt_id' x).sub_const _, fun _ _ x _ => hasDerivAt_const x 1, fun _ _ x _ => hasDerivAt_const x 0, fun _ _ x _ => hasDerivAt_const x 0, fun t _ x _ => ?_, fun t _ x _ => ?_,
    fun t ht x _ => ?_, fun _ _ _ _ => by simp, fun _ _ _ _ => by simp⟩
  · exact ((e t).const_sub x).congr_deriv (by ring)
  · exact ((e t).const_mul (1 / 20)).congr_deriv (by ring)
  · have h1 : Real.exp (-(1 / 20) * t) ≤ 1 := Real.exp_le_one_iff.2 (by linarith [ht.1])
    have h2 := Real.exp_pos (-(1 / 20) * t)
    rw [abs_le]; constructor <;> linarith

private noncomputable def threeGrid : Mesh ℝ := ⟨3, fun i => i + 1, fun _ => 1, fun _ => 1⟩

private theorem three_covers : Covers threeGrid 1 3 1 0 := by
  refine ⟨⟨fun i _ => ?_, fun i _ => ?_, fun i _ => ?_⟩, by decide, ?_, ?_, fun i _ => ?_, fun i a b => ?_⟩
  · simp only [threeGrid]; push_cast; linarith
  · simp only [threeGrid]; push_cast; ring
  · simp only [threeGrid]; push_cast; ring
  · simp [threeGrid]
  · simp only [threeGrid]; norm_num
  · simp only [threeGrid]; push_cast; linarith
  · have h : i = 1 := by have : i + 1 < 3 := b; omega
    simp only [threeGrid, h]; norm_num

private theorem three_stable : Stable threeGrid (fun _ => 1 / 20) (fun i => 1 / 20 * threeGrid.loc i) (fun i => 1 / 2 * (1 / 2) * threeGrid.loc i * threeGrid.loc i) (1 / 4) (1 / 2) := by
  refine ⟨fun _ => by norm_num, fun i a b => ?_, fun i a b => ?_, by norm_num, by norm_num, by norm_num, fun i a b => ?_⟩ <;>
  · have h : i = 1 := by have : i + 1 < 3 := b; omega
    simp only [threeGrid, h]; norm_num

private theorem forward_step {t t' : ℝ} (h0 : 0 ≤ t) (h : t' - t ≤ 1 / 4) (h1 : t ≤ t') : |(Real.exp (-(1 / 20) * t') - Real.exp (-(1 / 20) * t))| ≤ 1 / 80 := by
  have a1 : Real.exp (-(1 / 20) * t) ≤ 1 := Real.exp_le_one_iff.2 (by linarith)
  have a2 := Real.exp_pos (-(1 / 20) * t)
  have a3 : Real.exp (-(1 / 20) * t') = Real.exp (-(1 / 20) * t) * Real.exp (-(1 / 20) * (t' - t)) := by rw [← Real.exp_add]; congr 1; ring
  have a4 := Real.add_one_le_exp (-(1 / 20) * (t' - t))
  have a5 : Real.exp (-(1 / 20) * (t' - t)) ≤ 1 := Real.exp_le_one_iff.2 (by linarith)
  rw [a3, abs_le]
  constructor <;> nlinarith

/-- Four steps of a quarter of a year. -/
example : ∃ s s' res', Fd.init threeGrid ⟨3, fun _ => 1 / 20⟩ ⟨3, fun i => 1 / 20 * threeGrid.loc i⟩ ⟨3, fun i => 1 / 2 * (1 / 2) * threeGrid.loc i * threeGrid.loc i⟩ = some s ∧
    rollLoop (1 / 100) (1 / 4) (1 / 2) (fun k => (1 - Real.exp (-(1 / 20) * (k * (1 / 4))), 3 - Real.exp (-(1 / 20) * (k * (1 / 4))))) s ⟨3, fun i => threeGrid.loc i - 1⟩ 4 = some (s', res') ∧
    |res'.v 1 - (2 - Real.exp (-(1 / 20)))| ≤ 1 / 80 + 1 / 3200 ∧ |res'.v 1 - (2 - Real.exp (-(1 / 20)))| ≤ 1 / 80 + 1 / 1536000 := by
  have pde : ∀ t ∈ Icc (0 : ℝ) 1, ∀ i, 1 ≤ i → i + 1 < threeGrid.n → 1 / 20 * Real.exp (-(1 / 20) * t) = 1 / 20 * threeGrid.loc i * 1 + 1 / 2 * (1 / 2 * (1 / 2) * threeGrid.loc i * threeGrid.loc i) * 0 -
      1 / 20 * (threeGrid.loc i - Real.exp (-(1 / 20) * t)) := fun t _ i _ _ => by ring
  have B : ∀ i, 1 ≤ i → i + 1 < threeGrid.n → |1 / 20 * threeGrid.loc i| ≤ 1 := fun i a b => by
    have h : i = 1 := by have : i + 1 < 3 := b; omega
    simp only [threeGrid, h]; norm_num [abs_le]
  have V : ∀ i, 1 ≤ i → i + 1 < threeGrid.n → |1 / 2 * (1 / 2) * threeGrid.loc i * threeGrid.loc i| ≤ 1 := fun i a b => by
    have h : i = 1 := by have : i + 1 < 3 := b; omega
    simp only [threeGrid, h]; norm_num [abs_le]
  have start : ∀ i, i < threeGrid.n → |threeGrid.loc i - 1 - (threeGrid.loc i - Real.exp (-(1 / 20) * 0))| ≤ 1 / 80 := fun i _ => by norm_num
  have same : ∀ k : ℕ, k ≤ 4 → 1 ≤ k → |1 - Real.exp (-(1 / 20) * (k * (1 / 4))) - (1 - Real.exp (-(1 / 20) * (k * (1 / 4))))| ≤ 1 / 80 ∧
      |3 - Real.exp (-(1 / 20) * (k * (1 / 4))) - (3 - Real.exp (-(1 / 20) * (k * (1 / 4))))| ≤ 1 / 80 := fun k _ _ => by norm_num
  have next : ∀ k : ℕ, k < 4 → |(if k = 0 then threeGrid.loc 0 - 1 else 1 - Real.exp (-(1 / 20) * (k * (1 / 4)))) - (1 - Real.exp (-(1 / 20) * ((k + 1) * (1 / 4))))| ≤ 1 / 80 ∧
      |(if k = 0 then threeGrid.loc (threeGrid.n - 1) - 1 else 3 - Real.exp (-(1 / 20) * (k * (1 / 4)))) - (3 - Real.exp (-(1 / 20) * ((k + 1) * (1 / 4))))| ≤ 1 / 80 := by
    intro k _
    have q := forward_step (t := k * (1 / 4)) (t' := (k + 1) * (1 / 4)) (by positivity) (by linarith) (by linarith)
    by_cases h : k = 0
    · subst h
      rw [if_pos rfl, if_pos rfl, three_covers.first, three_covers.last]
      norm_num at q ⊢
      refine ⟨q, ?_⟩
      rwa [show ∀ a : ℝ, 2 - (3 - a) = a - 1 by intro a; ring]
    · rw [if_neg h, if_neg h]
      constructor
      · rwa [show ∀ a b : ℝ, (1 - a) - (1 - b) = b - a by intros; ring]
      · rwa [show ∀ a b : ℝ, (3 - a) - (3 - b) = b - a by intros; ring]
  obtain ⟨s, s', res', a1, a2, -, a3⟩ := C107_smooth (eps := 1 / 100) (by norm_num) (by norm_num) forward_regular three_covers ⟨3, fun _ => 1 / 20⟩ ⟨3, fun i => 1 / 20 * threeGrid.loc i⟩
    ⟨3, fun i => 1 / 2 * (1 / 2) * threeGrid.loc i * threeGrid.loc i⟩ ⟨by decide, by decide, by decide⟩ three_stable B V pde 4 (by norm_num) (fun k => (1 - Real.exp (-(1 / 20) * (k * (1 / 4))), 3 - Real.exp (-(1 / 20) * (k * (1 / 4)))))
    (res := ⟨3, fun i => threeGrid.loc i - 1⟩) rfl start same next
  obtain ⟨r, r', out, b1, b2, -, b3⟩ := C107_crank (eps := 1 / 100) (by norm_num) (by norm_num) forward_regular three_covers ⟨3, fun _ => 1 / 20⟩ ⟨3, fun i => 1 / 20 * threeGrid.loc i⟩
    ⟨3, fun i => 1 / 2 * (1 / 2) * threeGrid.loc i * threeGrid.loc i⟩ ⟨by decide, by decide, by decide⟩ three_stable B V pde 4 (by norm_num) (uttt := fun t _ => 1 / 8000 * Real.exp (-(1 / 20) * t)) (M := 1 / 8000)
    (fun t _ x _ => by
      have e : HasDerivAt (fun t => Real.exp (-(1 / 20) * t)) (Real.exp (-(1 / 20) * t) * (-(1 / 20) * 1)) t := ((hasDerivAt_id' t).const_mul (-(1 / 20))).exp
      exact (e.const_mul (-(1 / 400))).congr_deriv (by ring))
    (fun t ht x _ => by
      have h1 : Real.exp (-(1 / 20) * t) ≤ 1 := Real.exp_le_one_iff.2 (by linarith [ht.1])
      have h2 := Real.exp_pos (-(1 / 20) * t)
      rw [abs_le]; constructor <;> linarith) (fun k => (1 - Real.exp (-(1 / 20) * (k * (1 / 4))), 3 - Real.exp (-(1 / 20) * (k * (1 / 4)))))
    (res := ⟨3, fun i => threeGrid.loc i - 1⟩) rfl start same next
  obtain rfl : s = r := Option.some.inj (a1.symm.trans b1)
  obtain ⟨-, rfl⟩ := Prod.mk.inj (Option.some.inj (a2.symm.trans b2))
  have l1 : threeGrid.loc 1 = 2 := by norm_num [threeGrid]
  have c1 := a3 1 (by decide)
  have c2 := b3 1 (by decide)
  rw [l1] at c1 c2
  norm_num [spaceError] at c1 c2
  refine ⟨s, s', res', a1, a2, ?_, ?_⟩
  · norm_num; exact c1
  · norm_num; exact c2

end Dal
