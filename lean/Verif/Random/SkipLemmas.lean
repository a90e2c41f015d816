import Mathlib.Data.ZMod.Basic
import Mathlib.Tactic.Ring
import Mathlib.Logic.Function.Iterate
import Verif.Random.PseudoModel

/-! # Lemmas for C40: products of matrices modulo `m` -/

namespace Dal.Rng

/-- Entries below `m`. -/
def InV (m : Nat) (v : Nat × Nat × Nat) : Prop := v.1 < m ∧ v.2.1 < m ∧ v.2.2 < m
/-- Entries below `m`. -/
def InM (m : Nat) (a : Mat) : Prop := InV m a.r0 ∧ InV m a.r1 ∧ InV m a.r2

theorem dotMod_eq {m : Nat} (hm : m ≤ 2 ^ 32) {a b : Nat × Nat × Nat} (ha : InV m a) (hb : InV m b) :
    dotMod m a b = (a.1 * b.1 + a.2.1 * b.2.1 + a.2.2 * b.2.2) % m := by
  have key : ∀ {x y : Nat}, x < m → y < m → x * y < 2 ^ 64 := by
    intro x y hx hy
    calc x * y < 2 ^ 32 * 2 ^ 32 := Nat.mul_lt_mul'' (by omega) (by omega)
      _ = 2 ^ 64 := by norm_num
  have hm0 : 0 < m := by have := ha.1; omega
  unfold dotMod
  simp only
  rw [Nat.mod_eq_of_lt (key ha.1 hb.1), Nat.mod_eq_of_lt (key ha.2.1 hb.2.1), Nat.mod_eq_of_lt (key ha.2.2 hb.2.2)]
  have b1 := Nat.mod_lt (a.1 * b.1) hm0
  have b2 := Nat.mod_lt (a.2.1 * b.2.1) hm0
  have b3 := Nat.mod_lt (a.2.2 * b.2.2) hm0
  rw [Nat.zero_add, Nat.mod_eq_of_lt (show a.1 * b.1 % m < 2 ^ 64 by omega), Nat.mod_mod]
  rw [Nat.mod_eq_of_lt (show a.1 * b.1 % m + a.2.1 * b.2.1 % m < 2 ^ 64 by omega)]
  have b4 := Nat.mod_lt (a.1 * b.1 % m + a.2.1 * b.2.1 % m) hm0
  rw [Nat.mod_eq_of_lt (show (a.1 * b.1 % m + a.2.1 * b.2.1 % m) % m + a.2.2 * b.2.2 % m < 2 ^ 64 by omega)]
  rw [← Nat.add_mod (a.1 * b.1), ← Nat.add_mod]

theorem dotMod_lt {m : Nat} (hm0 : 0 < m) (a b : Nat × Nat × Nat) : dotMod m a b < m := Nat.mod_lt _ hm0

theorem inV_vPrd {m : Nat} (hm0 : 0 < m) (a : Mat) (v : Nat × Nat × Nat) : InV m (vPrd m a v) :=
  ⟨dotMod_lt hm0 _ _, dotMod_lt hm0 _ _, dotMod_lt hm0 _ _⟩

theorem inM_mPrd {m : Nat} (hm0 : 0 < m) (a b : Mat) : InM m (mPrd m a b) :=
  ⟨⟨dotMod_lt hm0 _ _, dotMod_lt hm0 _ _, dotMod_lt hm0 _ _⟩, ⟨dotMod_lt hm0 _ _, dotMod_lt hm0 _ _, dotMod_lt hm0 _ _⟩,
    ⟨dotMod_lt hm0 _ _, dotMod_lt hm0 _ _, dotMod_lt hm0 _ _⟩⟩

theorem inV_col {m : Nat} {a : Mat} (h : InM m a) (k : Nat) : InV m (a.col k) := by
  obtain ⟨⟨h1, h2, h3⟩, ⟨h4, h5, h6⟩, h7, h8, h9⟩ := h
  unfold Mat.col
  split
  · exact ⟨h1, h4, h7⟩
  · exact ⟨h2, h5, h8⟩
  · exact ⟨h3, h6, h9⟩

theorem row_assoc {m : Nat} (hm0 : 0 < m) (hm : m ≤ 2 ^ 32) {r : Nat × Nat × Nat} {b : Mat} {v : Nat × Nat × Nat} (hr : InV m r)
    (hb : InM m b) (hv : InV m v) :
    dotMod m (dotMod m r (b.col 0), dotMod m r (b.col 1), dotMod m r (b.col 2)) v = dotMod m r (vPrd m b v) := by
  rw [dotMod_eq hm ⟨dotMod_lt hm0 _ _, dotMod_lt hm0 _ _, dotMod_lt hm0 _ _⟩ hv, dotMod_eq hm hr (inV_vPrd hm0 b v)]
  simp only [vPrd]
  rw [dotMod_eq hm hr (inV_col hb 0), dotMod_eq hm hr (inV_col hb 1), dotMod_eq hm hr (inV_col hb 2), dotMod_eq hm hb.1 hv,
    dotMod_eq hm hb.2.1 hv, dotMod_eq hm hb.2.2 hv]
  rw [← ZMod.natCast_eq_natCast_iff']
  simp only [Nat.cast_add, Nat.cast_mul, ZMod.natCast_mod, Mat.col]
  ring

theorem vPrd_mPrd {m : Nat} (hm0 : 0 < m) (hm : m ≤ 2 ^ 32) {a b : Mat} {v : Nat × Nat × Nat} (ha : InM m a) (hb : InM m b)
    (hv : InV m v) : vPrd m (mPrd m a b) v = vPrd m a (vPrd m b v) := by
  unfold mPrd
  conv_lhs => rw [vPrd]
  simp only
  rw [row_assoc hm0 hm ha.1 hb hv, row_assoc hm0 hm ha.2.1 hb hv, row_assoc hm0 hm ha.2.2 hb hv]
  rfl

theorem inV_iterate {m : Nat} (hm0 : 0 < m) (b : Mat) (k : Nat) {v : Nat × Nat × Nat} (hv : InV m v) :
    InV m ((vPrd m b)^[k] v) := by
  cases k with
  | zero => exact hv
  | succ k => rw [Function.iterate_succ_apply']; exact inV_vPrd hm0 _ _

theorem iterate_square {m : Nat} (hm0 : 0 < m) (hm : m ≤ 2 ^ 32) {b : Mat} (hb : InM m b) (k : Nat) {v : Nat × Nat × Nat}
    (hv : InV m v) : (vPrd m (mPrd m b b))^[k] v = (vPrd m b)^[2 * k] v := by
  induction k with
  | zero => rfl
  | succ k ih =>
    rw [Function.iterate_succ_apply', ih, show 2 * (k + 1) = 2 * k + 1 + 1 by omega, Function.iterate_succ_apply',
      Function.iterate_succ_apply', vPrd_mPrd hm0 hm hb hb (inV_iterate hm0 b _ hv)]

theorem powLoop_eq {m : Nat} (hm0 : 0 < m) (hm : m ≤ 2 ^ 32) : ∀ (fuel n : Nat) (acc b : Mat), n ≤ fuel → InM m acc → InM m b →
    ∀ v, InV m v → vPrd m (powLoop m fuel n acc b) v = vPrd m acc ((vPrd m b)^[n] v) := by
  intro fuel
  induction fuel with
  | zero =>
    intro n acc b hn _ _ v _
    obtain rfl : n = 0 := by omega
    rfl
  | succ fuel ih =>
    intro n acc b hn ha hb v hv
    rw [powLoop]
    by_cases h0 : n > 0
    · rw [if_pos h0]
      by_cases h1 : n % 2 = 1
      · rw [if_pos h1, ih _ _ _ (by omega) (inM_mPrd hm0 _ _) (inM_mPrd hm0 _ _) v hv, iterate_square hm0 hm hb _ hv,
          vPrd_mPrd hm0 hm ha hb (inV_iterate hm0 b _ hv), ← Function.iterate_succ_apply' (vPrd m b)]
        congr 2
        omega
      · rw [if_neg h1, ih _ _ _ (by omega) ha (inM_mPrd hm0 _ _) v hv, iterate_square hm0 hm hb _ hv]
        congr 2
        omega
    · rw [if_neg h0]
      obtain rfl : n = 0 := by omega
      rfl

theorem vPrd_one {m : Nat} (hm1 : 1 < m) (hm : m ≤ 2 ^ 32) {v : Nat × Nat × Nat} (hv : InV m v) : vPrd m Mat.one v = v := by
  have h1 : ∀ {a b c : Nat}, a ≤ 1 → b ≤ 1 → c ≤ 1 → InV m (a, b, c) := fun ha hb hc =>
    ⟨by show _ < m; omega, by dsimp only; omega, by dsimp only; omega⟩
  unfold vPrd Mat.one
  simp only
  rw [dotMod_eq hm (h1 (by omega) (by omega) (by omega)) hv, dotMod_eq hm (h1 (by omega) (by omega) (by omega)) hv,
    dotMod_eq hm (h1 (by omega) (by omega) (by omega)) hv]
  obtain ⟨a, b, c⟩ := v
  obtain ⟨ha, hb, hc⟩ := hv
  simp only at ha hb hc
  simp [Nat.mod_eq_of_lt ha, Nat.mod_eq_of_lt hb, Nat.mod_eq_of_lt hc]

theorem reduce_eq (m : Nat) (hm : 0 < m) (x : Int) : reduce m x = x % m := by
  unfold reduce
  dsimp only
  have h : x - Int.tdiv x m * m = Int.tmod x m := by
    have := Int.mul_tdiv_add_tmod x m
    rw [Int.mul_comm] at this
    omega
  rw [h, Int.tmod_eq_emod]
  have h1 := Int.emod_nonneg x (b := m) (by omega)
  have h2 := Int.emod_lt_of_pos x (b := m) (by omega)
  split
  · split <;> omega
  · simp only [Int.natAbs_natCast]
    split <;> omega

/-- The naturals of a triple. -/
def Tri.nats (t : Tri) : Nat × Nat × Nat := (t.n0.toNat, t.n1.toNat, t.n2.toNat)
/-- The triple of naturals. -/
def triOf (v : Nat × Nat × Nat) : Tri := ⟨v.1, v.2.1, v.2.2⟩

theorem nats_triOf (v : Nat × Nat × Nat) : (triOf v).nats = v := by simp [Tri.nats, triOf]

private theorem stepX_row {b c : Nat} : reduce m1 (a12 * (b : Int) - a13 * (c : Int)) = ((a12 * b + (m1 - a13) * c) % m1 : Nat) := by
  rw [reduce_eq m1 (by decide)]
  have h1 : ((a12 * b + (m1 - a13) * c : Nat) : Int) = (a12 * (b : Int) - a13 * (c : Int)) + m1 * c := by
    have : m1 - a13 + a13 = m1 := by decide
    push_cast [show a13 ≤ m1 by decide]
    ring
  rw [Int.natCast_mod, h1, Int.add_mul_emod_self_left]

private theorem stepY_row {a c : Nat} : reduce m2 (a21 * (a : Int) - a23 * (c : Int)) = ((a21 * a + (m2 - a23) * c) % m2 : Nat) := by
  rw [reduce_eq m2 (by decide)]
  have h1 : ((a21 * a + (m2 - a23) * c : Nat) : Int) = (a21 * (a : Int) - a23 * (c : Int)) + m2 * c := by
    push_cast [show a23 ≤ m2 by decide]
    ring
  rw [Int.natCast_mod, h1, Int.add_mul_emod_self_left]

theorem matX_in : InM m1 matX := by
  unfold InM InV matX
  decide

theorem matY_in : InM m2 matY := by
  unfold InM InV matY
  decide

theorem stepX_eq {v : Nat × Nat × Nat} (hv : InV m1 v) : triOf (vPrd m1 matX v) = stepX (triOf v) := by
  have hm : m1 ≤ 2 ^ 32 := by decide
  unfold vPrd triOf stepX
  obtain ⟨a, b, c⟩ := v
  simp only
  rw [dotMod_eq hm matX_in.1 hv, dotMod_eq hm matX_in.2.1 hv, dotMod_eq hm matX_in.2.2 hv, stepX_row]
  obtain ⟨h1, h2, h3⟩ := hv
  simp only at h1 h2 h3
  have e1 : (matX.r1.1 * a + matX.r1.2.1 * b + matX.r1.2.2 * c) % m1 = a := by
    simp only [matX]
    rw [show 1 * a + 0 * b + 0 * c = a by omega, Nat.mod_eq_of_lt h1]
  have e2 : (matX.r2.1 * a + matX.r2.2.1 * b + matX.r2.2.2 * c) % m1 = b := by
    simp only [matX]
    rw [show 0 * a + 1 * b + 0 * c = b by omega, Nat.mod_eq_of_lt h2]
  have e3 : matX.r0.1 * a + matX.r0.2.1 * b + matX.r0.2.2 * c = a12 * b + (m1 - a13) * c := by
    simp only [matX]
    omega
  rw [e1, e2, e3]

theorem stepY_eq {v : Nat × Nat × Nat} (hv : InV m2 v) : triOf (vPrd m2 matY v) = stepY (triOf v) := by
  have hm : m2 ≤ 2 ^ 32 := by decide
  unfold vPrd triOf stepY
  obtain ⟨a, b, c⟩ := v
  simp only
  rw [dotMod_eq hm matY_in.1 hv, dotMod_eq hm matY_in.2.1 hv, dotMod_eq hm matY_in.2.2 hv, stepY_row]
  obtain ⟨h1, h2, h3⟩ := hv
  simp only at h1 h2 h3
  have e1 : (matY.r1.1 * a + matY.r1.2.1 * b + matY.r1.2.2 * c) % m2 = a := by
    simp only [matY]
    rw [show 1 * a + 0 * b + 0 * c = a by omega, Nat.mod_eq_of_lt h1]
  have e2 : (matY.r2.1 * a + matY.r2.2.1 * b + matY.r2.2.2 * c) % m2 = b := by
    simp only [matY]
    rw [show 0 * a + 1 * b + 0 * c = b by omega, Nat.mod_eq_of_lt h2]
  have e3 : matY.r0.1 * a + matY.r0.2.1 * b + matY.r0.2.2 * c = a21 * a + (m2 - a23) * c := by
    simp only [matY]
    omega
  rw [e1, e2, e3]

theorem one_in {m : Nat} (hm : 1 < m) : InM m Mat.one := by
  unfold InM InV Mat.one
  simp only
  omega

theorem jumpX (n : Nat) {v : Nat × Nat × Nat} (hv : InV m1 v) : jump m1 matX n (triOf v) = stepX^[n] (triOf v) := by
  have hm0 : 0 < m1 := by decide
  have hm : m1 ≤ 2 ^ 32 := by decide
  have h1 : jump m1 matX n (triOf v) = triOf (vPrd m1 (powLoop m1 n n Mat.one matX) (triOf v).nats) := rfl
  rw [h1, nats_triOf, powLoop_eq hm0 hm n n _ _ (Nat.le_refl n) (one_in (by decide)) matX_in v hv,
    vPrd_one (by decide) hm (inV_iterate hm0 _ _ hv)]
  clear h1
  induction n with
  | zero => rfl
  | succ n ih => rw [Function.iterate_succ_apply', Function.iterate_succ_apply', stepX_eq (inV_iterate hm0 _ _ hv), ih]

theorem jumpY (n : Nat) {v : Nat × Nat × Nat} (hv : InV m2 v) : jump m2 matY n (triOf v) = stepY^[n] (triOf v) := by
  have hm0 : 0 < m2 := by decide
  have hm : m2 ≤ 2 ^ 32 := by decide
  have h1 : jump m2 matY n (triOf v) = triOf (vPrd m2 (powLoop m2 n n Mat.one matY) (triOf v).nats) := rfl
  rw [h1, nats_triOf, powLoop_eq hm0 hm n n _ _ (Nat.le_refl n) (one_in (by decide)) matY_in v hv,
    vPrd_one (by decide) hm (inV_iterate hm0 _ _ hv)]
  clear h1
  induction n with
  | zero => rfl
  | succ n ih => rw [Function.iterate_succ_apply', Function.iterate_succ_apply', stepY_eq (inV_iterate hm0 _ _ hv), ih]

theorem steps_eq (n : Nat) (s : Mrg) : Mrg.steps n s = ⟨stepX^[n] s.x, stepY^[n] s.y⟩ := by
  induction n with
  | zero => rfl
  | succ n ih =>
    rw [Mrg.steps, ih, Function.iterate_succ_apply', Function.iterate_succ_apply']
    rfl

theorem steps_add (i j : Nat) (s : Mrg) : Mrg.steps (i + j) s = Mrg.steps j (Mrg.steps i s) := by
  induction j with
  | zero => rfl
  | succ j ih =>
    show (Mrg.steps (i + j) s).step = _
    rw [ih]
    rfl

end Dal.Rng
