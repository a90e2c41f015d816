import Verif.Pde.RollModel
import Verif.Pde.FdProps

/-! # Lemmas on the error of rolling back -/

namespace Dal.Fd
open Dal Dal.Tri

variable {K : Type} [Field K] [LinearOrder K] [IsStrictOrderedRing K]

/-- The weights of the neighbours are not negative, rates are not negative, and the explicit part is within its limit. -/
structure Stable (x : Mesh K) (r mu var : Nat → K) (dt theta : K) : Prop where
  rates : ∀ i, 0 ≤ r i
  lower : ∀ i, 1 ≤ i → i + 1 < x.n → mu i * (x.loc (i + 1) - x.loc i) ≤ var i
  upper : ∀ i, 1 ≤ i → i + 1 < x.n → -(mu i * (x.loc i - x.loc (i - 1))) ≤ var i
  step : 0 ≤ dt
  theta0 : 0 ≤ theta
  theta1 : theta ≤ 1
  limit : ∀ i, 1 ≤ i → i + 1 < x.n → dt * (1 - theta) * (var i + mu i * ((x.loc i - x.loc (i - 1)) - (x.loc (i + 1) - x.loc i)) +
    r i * ((x.loc i - x.loc (i - 1)) * (x.loc (i + 1) - x.loc i))) ≤ (x.loc i - x.loc (i - 1)) * (x.loc (i + 1) - x.loc i)

theorem weight_limit {x : Mesh K} (g : Grid x) {r mu var : Nat → K} {dt theta : K} (hs : Stable x r mu var dt theta) {i : Nat} (a : 1 ≤ i) (b : i + 1 < x.n) :
    dt * (1 - theta) * (wl x mu var i + wu x mu var i + r i) ≤ 1 := by
  obtain ⟨q1, q2, p1, p2⟩ := grid_steps g a b
  have c := hs.limit i a b
  rw [← q1, ← q2] at c
  rw [← q1] at p1
  rw [← q2] at p2
  have : wl x mu var i + wu x mu var i + r i = (var i + mu i * (x.dminus i - x.dplus i) + r i * (x.dminus i * x.dplus i)) / (x.dminus i * x.dplus i) := by
    rw [wl, wu]
    have p3 := (add_pos p1 p2).ne'
    have p1' := p1.ne'
    have p2' := p2.ne'
    generalize x.dminus i = u at *
    generalize x.dplus i = v at *
    field_simp
    ring
  rw [this, ← mul_div_assoc, div_le_one (mul_pos p1 p2)]
  exact c

/-- One side of the bound for a step. -/
private theorem step_upper {x : Mesh K} (g : Grid x) {r mu var : Nat → K} {dt theta : K} (hs : Stable x r mu var dt theta) (hn : 2 < x.n) {d e : Nat → K} {E F D : K} (hE : 0 ≤ E) (hD : 0 ≤ D)
    (hd : ∀ i, i < x.n → d i ≤ E) (e0 : e 0 ≤ F) (e9 : e (x.n - 1) ≤ F)
    (he : ∀ i, 1 ≤ i → i + 1 < x.n → e i - theta * dt * gen x.loc r mu var e i ≤ d i + (1 - theta) * dt * gen x.loc r mu var d i + D) : ∀ i, i < x.n → e i ≤ max F (E + D) := by
  obtain ⟨m, hm, hmax⟩ := Finset.exists_max_image (Finset.range x.n) e ⟨0, Finset.mem_range.2 (by omega)⟩
  rw [Finset.mem_range] at hm
  have key : e m ≤ max F (E + D) := by
    by_cases g0 : m = 0
    · rw [g0]; exact e0.trans (le_max_left _ _)
    by_cases g9 : m = x.n - 1
    · rw [g9]; exact e9.trans (le_max_left _ _)
    have a : 1 ≤ m := by omega
    have b : m + 1 < x.n := by omega
    refine le_trans ?_ (le_max_right _ _)
    by_contra hc
    have hpos : 0 < e m := by linarith
    obtain ⟨w1, w2⟩ := weights_nonneg g a b (hs.lower m a b) (hs.upper m a b)
    have h := he m a b
    rw [gen_weights g a b, gen_weights g a b] at h
    have hl := weight_limit g hs a b
    have a1 := hmax (m - 1) (Finset.mem_range.2 (by omega))
    have a2 := hmax (m + 1) (Finset.mem_range.2 (by omega))
    have t0 : 0 ≤ theta * dt := mul_nonneg hs.theta0 hs.step
    have t1 : 0 ≤ (1 - theta) * dt := mul_nonneg (by linarith [hs.theta1]) hs.step
    have b1 := mul_nonneg t0 (mul_nonneg w1 (show 0 ≤ e m - e (m - 1) by linarith))
    have b2 := mul_nonneg t0 (mul_nonneg w2 (show 0 ≤ e m - e (m + 1) by linarith))
    have b3 := mul_nonneg t0 (mul_nonneg (hs.rates m) hpos.le)
    have c1 := mul_le_mul_of_nonneg_left (hd (m - 1) (by omega)) (mul_nonneg t1 w1)
    have c2 := mul_le_mul_of_nonneg_left (hd (m + 1) b) (mul_nonneg t1 w2)
    have c3 := mul_le_mul_of_nonneg_left (hd m hm) (show 0 ≤ 1 - dt * (1 - theta) * (wl x mu var m + wu x mu var m + r m) by linarith)
    have c4 := mul_nonneg t1 (mul_nonneg (hs.rates m) hE)
    refine hc ?_
    generalize wl x mu var m = p at *
    generalize wu x mu var m = q at *
    have k1 : e m - theta * dt * (p * (e (m - 1) - e m) + q * (e (m + 1) - e m) - r m * e m) =
        e m + theta * dt * (p * (e m - e (m - 1))) + theta * dt * (q * (e m - e (m + 1))) + theta * dt * (r m * e m) := by ring
    have k2 : d m + (1 - theta) * dt * (p * (d (m - 1) - d m) + q * (d (m + 1) - d m) - r m * d m) =
        (1 - dt * (1 - theta) * (p + q + r m)) * d m + (1 - theta) * dt * p * d (m - 1) + (1 - theta) * dt * q * d (m + 1) := by ring
    have k3 : (1 - dt * (1 - theta) * (p + q + r m)) * E + (1 - theta) * dt * p * E + (1 - theta) * dt * q * E = E - (1 - theta) * dt * (r m * E) := by ring
    rw [k1, k2] at h
    linarith
  intro i hi
  exact (hmax i (Finset.mem_range.2 hi)).trans key

theorem gen_sub {x : Mesh K} (g : Grid x) {r mu var : Nat → K} {i : Nat} (a : 1 ≤ i) (b : i + 1 < x.n) (f h : Nat → K) :
    gen x.loc r mu var (fun j => f j - h j) i = gen x.loc r mu var f i - gen x.loc r mu var h i := by
  rw [gen_weights g a b, gen_weights g a b, gen_weights g a b]
  ring

theorem gen_neg {x : Mesh K} (g : Grid x) {r mu var : Nat → K} {i : Nat} (a : 1 ≤ i) (b : i + 1 < x.n) (f : Nat → K) :
    gen x.loc r mu var (fun j => -f j) i = -gen x.loc r mu var f i := by
  rw [gen_weights g a b, gen_weights g a b]
  ring

/-- The error after a step. -/
theorem step_error {eps : K} (heps : 0 < eps) {x : Mesh K} (g : Grid x) {s : Solver K} (hst : SolverState eps x s) (hn : 2 < x.n) {dt theta : K} (hs : Stable x s.r.v s.mu.v s.var.v dt theta)
    {res : Sized K} {s' : Solver K} {res' : Sized K} (h : rollBwd eps s dt theta res = some (s', res')) {u u' : Nat → K} {E F D : K} (hE : 0 ≤ E) (hD : 0 ≤ D)
    (hu : ∀ i, i < x.n → |res.v i - u i| ≤ E) (e0 : |res.v 0 - u' 0| ≤ F) (e9 : |res.v (x.n - 1) - u' (x.n - 1)| ≤ F)
    (hd : ∀ i, 1 ≤ i → i + 1 < x.n → |u' i - theta * dt * gen x.loc s.r.v s.mu.v s.var.v u' i - (u i + (1 - theta) * dt * gen x.loc s.r.v s.mu.v s.var.v u i)| ≤ D) :
    ∀ i, i < x.n → |res'.v i - u' i| ≤ max F (E + D) := by
  obtain ⟨f0, f9, fi⟩ := ((C60_theta_scheme heps g hst h).2 res'.v).1 fun _ _ => rfl
  intro i hi
  rw [abs_le']
  constructor
  · refine step_upper (e := fun j => res'.v j - u' j) (d := fun j => res.v j - u j) g hs hn hE hD (fun j hj => (abs_le.1 (hu j hj)).2) (by rw [f0]; exact (abs_le.1 e0).2)
      (by rw [f9]; exact (abs_le.1 e9).2) (fun j a b => ?_) i hi
    rw [gen_sub g a b, gen_sub g a b]
    have h1 := fi j a b
    have h2 := (abs_le.1 (hd j a b)).1
    linarith
  · rw [neg_sub]
    refine step_upper (e := fun j => u' j - res'.v j) (d := fun j => u j - res.v j) g hs hn hE hD (fun j hj => ?_) (by rw [f0]; linarith [(abs_le.1 e0).1])
      (by rw [f9]; linarith [(abs_le.1 e9).1]) (fun j a b => ?_) i hi
    · linarith [(abs_le.1 (hu j hj)).1]
    · rw [gen_sub g a b, gen_sub g a b]
      have h1 := fi j a b
      have h2 := (abs_le.1 (hd j a b)).2
      linarith

theorem setEdges_val (e : K × K) (res : Sized K) {n : Nat} (h : res.size = n) (hn : 2 < n) : (setEdges e res).size = n ∧ (setEdges e res).v 0 = e.1 ∧ (setEdges e res).v (n - 1) = e.2 ∧
    ∀ i, 1 ≤ i → i + 1 < n → (setEdges e res).v i = res.v i := by
  subst h
  refine ⟨rfl, ?_, upd_self _ _ _, fun i a b => ?_⟩
  · show upd (upd res.v 0 e.1) (res.size - 1) e.2 0 = e.1
    rw [upd_ne _ _ (by omega), upd_self]
  · show upd (upd res.v 0 e.1) (res.size - 1) e.2 i = res.v i
    rw [upd_ne _ _ (by omega), upd_ne _ _ (by omega)]

/-- A step keeps the coefficients. -/
theorem roll_same {eps : K} {s : Solver K} {dt theta : K} {res : Sized K} {s' : Solver K} {res' : Sized K} (h : rollBwd eps s dt theta res = some (s', res')) :
    s'.r = s.r ∧ s'.mu = s.mu ∧ s'.var = s.var := by
  have ax : ∀ {s s' : Solver K} {one t : K}, calcAx s one t = some s' → s'.r = s.r ∧ s'.mu = s.mu ∧ s'.var = s.var := by
    intro s s' one t h
    rw [calcAx, Option.map_eq_some_iff] at h
    obtain ⟨a, -, rfl⟩ := h
    exact ⟨rfl, rfl, rfl⟩
  have h1 : ∀ {s s' : Solver K} {res res' : Sized K}, explicitHalf s dt theta res = some (s', res') → s'.r = s.r ∧ s'.mu = s.mu ∧ s'.var = s.var := by
    intro s s' res res' h
    rw [explicitHalf, Option.bind_eq_some_iff] at h
    obtain ⟨a, h2, h3⟩ := h
    split at h3
    · cases h3; exact ax h2
    · cases h3
  have h2 : ∀ {s s' : Solver K} {res res' : Sized K}, implicitHalf eps s dt theta res = some (s', res') → s'.r = s.r ∧ s'.mu = s.mu ∧ s'.var = s.var := by
    intro s s' res res' h
    rw [implicitHalf, Option.bind_eq_some_iff] at h
    obtain ⟨a, h2, h3⟩ := h
    rw [Option.bind_eq_some_iff] at h3
    obtain ⟨d, -, h3⟩ := h3
    split at h3
    · cases h3; exact ax h2
    · cases h3
  rw [rollBwd, Option.bind_eq_some_iff] at h
  obtain ⟨⟨s1, r1⟩, h3, h4⟩ := h
  have h5 : s1.r = s.r ∧ s1.mu = s.mu ∧ s1.var = s.var := by
    split at h3
    · exact h1 h3
    · cases h3; exact ⟨rfl, rfl, rfl⟩
  split at h4
  · obtain ⟨k1, k2, k3⟩ := h2 h4
    exact ⟨k1.trans h5.1, k2.trans h5.2.1, k3.trans h5.2.2⟩
  · cases h4; exact h5

/-- The loop is defined, and its error grows by at most the defects. -/
theorem loop_error {eps : K} (heps : 0 < eps) (heps1 : eps ≤ 1) {x : Mesh K} (g : Grid x) {s : Solver K} (hst : SolverState eps x s) (hn : 2 < x.n) {dt theta : K}
    (hs : Stable x s.r.v s.mu.v s.var.v dt theta) (hsize : x.n - 1 ≤ s.mu.size ∧ x.n - 1 ≤ s.var.size ∧ x.n - 1 ≤ s.r.size) (edge : Nat → K × K) {res : Sized K} (hz : res.size = x.n)
    (u : Nat → Nat → K) {E D : K} (hE : 0 ≤ E) (hD : 0 ≤ D) (h0 : ∀ i, i < x.n → |res.v i - u 0 i| ≤ E) : ∀ N,
    (∀ k, k ≤ N → 1 ≤ k → |(edge k).1 - u k 0| ≤ E ∧ |(edge k).2 - u k (x.n - 1)| ≤ E) →
    (∀ k, k < N → |(if k = 0 then res.v 0 else (edge k).1) - u (k + 1) 0| ≤ E ∧ |(if k = 0 then res.v (x.n - 1) else (edge k).2) - u (k + 1) (x.n - 1)| ≤ E) →
    (∀ k, k < N → ∀ i, 1 ≤ i → i + 1 < x.n →
      |u (k + 1) i - theta * dt * gen x.loc s.r.v s.mu.v s.var.v (u (k + 1)) i - (u k i + (1 - theta) * dt * gen x.loc s.r.v s.mu.v s.var.v (u k) i)| ≤ D) →
    ∃ s' res', rollLoop eps dt theta edge s res N = some (s', res') ∧ SolverState eps x s' ∧ (s'.r = s.r ∧ s'.mu = s.mu ∧ s'.var = s.var) ∧ res'.size = x.n ∧
      res'.v 0 = (if N = 0 then res.v 0 else (edge N).1) ∧ res'.v (x.n - 1) = (if N = 0 then res.v (x.n - 1) else (edge N).2) ∧ ∀ i, i < x.n → |res'.v i - u N i| ≤ E + N * D
  | 0, _, _, _ => ⟨s, res, rfl, hst, ⟨rfl, rfl, rfl⟩, hz, rfl, rfl, fun i hi => by rw [Nat.cast_zero, zero_mul, add_zero]; exact h0 i hi⟩
  | N + 1, h1, h2, h3 => by
    obtain ⟨s1, r1, e1, st1, ⟨c1, c2, c3⟩, z1, f0, f9, b1⟩ := loop_error heps heps1 g hst hn hs hsize edge hz u hE hD h0 N (fun k hk => h1 k (by omega)) (fun k hk => h2 k (by omega))
      (fun k hk => h3 k (by omega))
    have hs1 : Stable x s1.r.v s1.mu.v s1.var.v dt theta := by rw [c1, c2, c3]; exact hs
    obtain ⟨s2, r2, e2⟩ := C60_step_made heps heps1 g st1 (dt := dt) (theta := theta) (res := r1) ⟨z1, by rw [c2]; exact hsize.1, by rw [c3]; exact hsize.2.1, by rw [c1]; exact hsize.2.2⟩
      (mul_nonneg hs.step hs.theta0) hs1.rates hs1.lower hs1.upper
    have z2 : r2.size = x.n := (C60_theta_scheme heps g st1 e2).1.trans z1
    obtain ⟨k1, k2, k3⟩ := roll_same e2
    have hND : 0 ≤ (N : K) * D := mul_nonneg (Nat.cast_nonneg N) hD
    have h4 := h2 N (by omega)
    rw [← f0, ← f9] at h4
    have b2 := step_error heps g st1 hn hs1 e2 (u := u N) (u' := u (N + 1)) (E := E + N * D) (F := E) (D := D) (by linarith) hD b1 h4.1 h4.2
      (fun i a b => by rw [c1, c2, c3]; exact h3 N (by omega) i a b)
    have hm : max E (E + N * D + D) = E + ((N + 1 : ℕ) : K) * D := by
      rw [max_eq_right (by linarith)]
      push_cast
      ring
    rw [hm] at b2
    obtain ⟨q1, q2, q3, q4⟩ := setEdges_val (edge (N + 1)) r2 z2 hn
    refine ⟨s2, setEdges (edge (N + 1)) r2, by rw [rollLoop, e1, Option.bind_some, e2, Option.bind_some], .roll st1 e2, ⟨k1.trans c1, k2.trans c2, k3.trans c3⟩, q1, by rw [q2, if_neg (by omega)],
      by rw [q3, if_neg (by omega)], fun i hi => ?_⟩
    have hE' : E ≤ E + ((N + 1 : ℕ) : K) * D := by
      have := mul_nonneg (Nat.cast_nonneg (α := K) (N + 1)) hD
      linarith
    by_cases g0 : i = 0
    · rw [g0, q2]; exact (h1 (N + 1) le_rfl (by omega)).1.trans hE'
    by_cases g9 : i = x.n - 1
    · rw [g9, q3]; exact (h1 (N + 1) le_rfl (by omega)).2.trans hE'
    rw [q4 i (by omega) (by omega)]
    exact b2 i hi

end Dal.Fd
