import Verif.Interp.CubicModel
import Mathlib.Tactic.Linarith
import Mathlib.Tactic.FieldSimp
import Mathlib.Tactic.NormNum
import Mathlib.Tactic.Positivity
import Mathlib.Tactic.LinearCombination
import Mathlib.Tactic.DefEqTransformations
import Mathlib.Analysis.Calculus.Deriv.Add
import Mathlib.Analysis.Calculus.Deriv.Mul
import Mathlib.Analysis.Calculus.Deriv.Pow

/-!
# C49: cubic splines

Specification: derivatives of real functions.
-/

namespace Dal

open Dal.Interp
open Set Filter Topology

/-! ### Functions given piece by piece -/

/-- The piece a place belongs to, with nodes from 1 to `last`. -/
private structure Cells (x : Nat → ℝ) (last : Nat) (idx : ℝ → Nat) : Prop where
  le : ∀ y, idx y ≤ last
  left : ∀ y, idx y = 0 ∨ x (idx y) < y
  right : ∀ y, idx y = last ∨ y ≤ x (idx y + 1)
  eq : ∀ y k, k ≤ last → (k = 0 ∨ x k < y) → (k = last ∨ y ≤ x (k + 1)) → idx y = k
  mono : ∀ k, k < last → x k < x (k + 1)

private theorem near {x : Nat → ℝ} {last : Nat} {idx : ℝ → Nat} (hc : Cells x last idx) (P : Nat → ℝ → ℝ)
    (hP : ∀ k, k < last → P k (x (k + 1)) = P (k + 1) (x (k + 1))) (hmono : ∀ k, k ≤ last → x k < x (k + 1)) (y : ℝ) :
    (fun z => P (idx z) z) =ᶠ[𝓝 y] P (idx y) ∨
    (idx y < last ∧ y = x (idx y + 1) ∧ (fun z => P (idx z) z) =ᶠ[𝓝[Iic y] y] P (idx y) ∧ (fun z => P (idx z) z) =ᶠ[𝓝[Ici y] y] P (idx y + 1)) := by
  have hleft : ∀ᶠ z in 𝓝 y, idx y = 0 ∨ x (idx y) < z := by
    rcases hc.left y with h | h
    · exact Eventually.of_forall fun _ => Or.inl h
    · exact (lt_mem_nhds h).mono fun _ hz => Or.inr hz
  by_cases h : idx y = last ∨ y < x (idx y + 1)
  · left
    have hright : ∀ᶠ z in 𝓝 y, idx y = last ∨ z ≤ x (idx y + 1) := by
      rcases h with h | h
      · exact Eventually.of_forall fun _ => Or.inl h
      · exact (gt_mem_nhds h).mono fun _ hz => Or.inr hz.le
    filter_upwards [hleft, hright] with z h1 h2
    rw [hc.eq z (idx y) (hc.le y) h1 h2]
  · right
    have hl : idx y < last := lt_of_le_of_ne (hc.le y) fun h' => h (Or.inl h')
    have hy : y = x (idx y + 1) := le_antisymm ((hc.right y).resolve_left fun h' => h (Or.inl h')) (not_lt.1 fun h' => h (Or.inr h'))
    refine ⟨hl, hy, ?_, ?_⟩
    · filter_upwards [mem_nhdsWithin_of_mem_nhds hleft, self_mem_nhdsWithin] with z h1 h2
      rw [hc.eq z (idx y) (hc.le y) h1 (Or.inr (le_trans h2 hy.le))]
    · have hlt : y < x (idx y + 1 + 1) := lt_of_le_of_lt hy.le (hmono (idx y + 1) (by omega))
      filter_upwards [mem_nhdsWithin_of_mem_nhds (gt_mem_nhds hlt), self_mem_nhdsWithin] with z h1 h2
      rcases eq_or_lt_of_le (show y ≤ z from h2) with h3 | h3
      · rw [← h3]
        have := hP (idx y) hl
        rw [← hy] at this
        exact this
      · rw [hc.eq z (idx y + 1) (by omega) (Or.inr (lt_of_le_of_lt hy.ge h3)) (Or.inr h1.le)]

private theorem pieces_deriv {x : Nat → ℝ} {last : Nat} {idx : ℝ → Nat} (hc : Cells x last idx) (hmono : ∀ k, k ≤ last → x k < x (k + 1))
    (P P' : Nat → ℝ → ℝ) (hd : ∀ k, k ≤ last → ∀ y, HasDerivAt (P k) (P' k y) y)
    (hP : ∀ k, k < last → P k (x (k + 1)) = P (k + 1) (x (k + 1)))
    (hP' : ∀ k, k < last → P' k (x (k + 1)) = P' (k + 1) (x (k + 1))) (y : ℝ) :
    HasDerivAt (fun z => P (idx z) z) (P' (idx y) y) y := by
  rcases near hc P hP hmono y with h | ⟨hl, hy, h1, h2⟩
  · exact (hd (idx y) (hc.le y) y).congr_of_eventuallyEq h
  · have e1 : HasDerivWithinAt (fun z => P (idx z) z) (P' (idx y) y) (Iic y) y :=
      ((hd (idx y) (hc.le y) y).hasDerivWithinAt).congr_of_eventuallyEq h1 rfl
    have hv := hP (idx y) hl
    have hv' := hP' (idx y) hl
    rw [← hy] at hv hv'
    have e2 : HasDerivWithinAt (fun z => P (idx z) z) (P' (idx y) y) (Ici y) y := by
      rw [hv']
      exact ((hd (idx y + 1) (by omega) y).hasDerivWithinAt).congr_of_eventuallyEq h2 hv
    have := e1.union e2
    rw [Iic_union_Ici] at this
    exact this.hasDerivAt univ_mem

private theorem pieces_cont {x : Nat → ℝ} {last : Nat} {idx : ℝ → Nat} (hc : Cells x last idx) (hmono : ∀ k, k ≤ last → x k < x (k + 1))
    (P : Nat → ℝ → ℝ) (hd : ∀ k, k ≤ last → Continuous (P k))
    (hP : ∀ k, k < last → P k (x (k + 1)) = P (k + 1) (x (k + 1))) : Continuous (fun z => P (idx z) z) := by
  rw [continuous_iff_continuousAt]
  intro y
  rcases near hc P hP hmono y with h | ⟨hl, hy, h1, h2⟩
  · exact (hd (idx y) (hc.le y)).continuousAt.congr h.symm
  · have e1 : ContinuousWithinAt (fun z => P (idx z) z) (Iic y) y :=
      ((hd (idx y) (hc.le y)).continuousWithinAt).congr_of_eventuallyEq h1 rfl
    have hv := hP (idx y) hl
    rw [← hy] at hv
    have e2 : ContinuousWithinAt (fun z => P (idx z) z) (Ici y) y :=
      ((hd (idx y + 1) (by omega)).continuousWithinAt).congr_of_eventuallyEq h2 hv
    have := e1.union e2
    rw [Iic_union_Ici] at this
    exact continuousWithinAt_univ _ _ |>.1 this

/-! ### The pieces of the spline -/

private noncomputable def P0 (x f m : Nat → ℝ) (k : Nat) (z : ℝ) : ℝ :=
  (1 - (z - x k) / (x (k + 1) - x k)) * f k + (z - x k) / (x (k + 1) - x k) * f (k + 1)
    - (1 - (z - x k) / (x (k + 1) - x k)) * ((z - x k) / (x (k + 1) - x k))
      * ((1 + (1 - (z - x k) / (x (k + 1) - x k))) * m k + (1 + (z - x k) / (x (k + 1) - x k)) * m (k + 1))
      * ((x (k + 1) - x k) * (x (k + 1) - x k)) / 6

private noncomputable def P1 (x f m : Nat → ℝ) (k : Nat) (z : ℝ) : ℝ :=
  (f (k + 1) - f k) / (x (k + 1) - x k) - (3 * (1 - (z - x k) / (x (k + 1) - x k)) ^ 2 - 1) * (x (k + 1) - x k) * m k / 6
    + (3 * ((z - x k) / (x (k + 1) - x k)) ^ 2 - 1) * (x (k + 1) - x k) * m (k + 1) / 6

private noncomputable def P2 (x m : Nat → ℝ) (k : Nat) (z : ℝ) : ℝ :=
  (1 - (z - x k) / (x (k + 1) - x k)) * m k + (z - x k) / (x (k + 1) - x k) * m (k + 1)

private theorem hasDeriv_frac (a h z : ℝ) : HasDerivAt (fun z => (z - a) / h) (1 / h) z := by
  simpa using ((hasDerivAt_id z).sub_const a).div_const h

private theorem P0_deriv (x f m : Nat → ℝ) (k : Nat) (hh : x (k + 1) - x k ≠ 0) (z : ℝ) : HasDerivAt (P0 x f m k) (P1 x f m k z) z := by
  have hb := hasDeriv_frac (x k) (x (k + 1) - x k) z
  have ha := hb.const_sub 1
  have h1 := (ha.mul_const (f k)).add (hb.mul_const (f (k + 1)))
  have h2 := (((ha.mul hb).mul (((ha.const_add 1).mul_const (m k)).add ((hb.const_add 1).mul_const (m (k + 1))))).mul_const
    ((x (k + 1) - x k) * (x (k + 1) - x k))).div_const 6
  refine (h1.sub h2).congr_deriv ?_
  unfold P1
  simp only [Pi.add_apply, Pi.mul_apply]
  field_simp
  ring

private theorem P1_deriv (x f m : Nat → ℝ) (k : Nat) (hh : x (k + 1) - x k ≠ 0) (z : ℝ) : HasDerivAt (P1 x f m k) (P2 x m k z) z := by
  have hb := hasDeriv_frac (x k) (x (k + 1) - x k) z
  have ha := hb.const_sub 1
  have h1 := (((((ha.pow 2).const_mul 3).sub_const 1).mul_const (x (k + 1) - x k)).mul_const (m k)).div_const 6
  have h2 := (((((hb.pow 2).const_mul 3).sub_const 1).mul_const (x (k + 1) - x k)).mul_const (m (k + 1))).div_const 6
  refine ((h1.const_sub ((f (k + 1) - f k) / (x (k + 1) - x k))).add h2).congr_deriv ?_
  unfold P2
  obtain ⟨d, hd⟩ : ∃ d, d = x (k + 1) - x k := ⟨_, rfl⟩
  rw [← hd] at hh ⊢
  rw [Nat.cast_ofNat, show 2 - 1 = 1 from rfl]
  field_simp
  ring

private theorem P2_cont (x m : Nat → ℝ) (k : Nat) : Continuous (P2 x m k) := by
  unfold P2
  fun_prop

/-! ### The equations of the second derivatives -/

private theorem put_self {K : Type} (v : Nat → K) (i : Nat) (x : K) : put v i x i = x := if_pos rfl
private theorem put_ne {K : Type} (v : Nat → K) {i j : Nat} (x : K) (h : j ≠ i) : put v i x j = v j := if_neg h

private theorem backLoop_ok {K : Type} [Field K] [LinearOrder K] (u : Nat → K) : ∀ (c : Nat) (v : Nat → K),
    (∀ i, c ≤ i → backLoop u c v i = v i) ∧ (∀ i, i < c → backLoop u c v i = v i + u i * backLoop u c v (i + 1)) := by
  intro c
  induction c with
  | zero => intro v; exact ⟨fun i _ => rfl, fun i hi => by omega⟩
  | succ c ih =>
    intro v
    rw [backLoop]
    obtain ⟨h1, h2⟩ := ih (put v c (v c + u c * v (c + 1)))
    refine ⟨fun i hi => by rw [h1 i (by omega), put_ne _ _ (by omega)], fun i hi => ?_⟩
    by_cases h : i = c
    · subst h
      rw [h1 i (Nat.le_refl _), put_self, h1 (i + 1) (by omega), put_ne _ _ (by omega)]
    · rw [h2 i (by omega), put_ne _ _ h]

/-- What the decomposition leaves in the vectors. -/
private structure Swept (x f : Nat → ℝ) (c : Nat) (u0 y0 : ℝ) (u y : Nat → ℝ) : Prop where
  u0 : u 0 = u0
  y0 : y 0 = y0
  range : ∀ i, i ≤ c → -1 < u i ∧ u i ≤ 1
  neg : ∀ i, 1 ≤ i → i ≤ c → u i ≤ 0
  eq : ∀ i, 1 ≤ i → i ≤ c → ∀ a, (x i - x (i - 1)) * (y (i - 1) + u (i - 1) * (y i + u i * a)) + 2 * (x (i + 1) - x (i - 1)) * (y i + u i * a)
    + (x (i + 1) - x i) * a = 6 * ((f (i + 1) - f i) / (x (i + 1) - x i) - (f i - f (i - 1)) / (x i - x (i - 1)))

private theorem swept {x f : Nat → ℝ} {last : Nat} (hmono : ∀ k, k ≤ last → x k < x (k + 1)) {u0 y0 : ℝ} (hu : -1 < u0 ∧ u0 ≤ 1) (u' y' : Nat → ℝ) (h0 : u' 0 = u0) (h0' : y' 0 = y0) :
    ∀ c, c ≤ last → Swept x f c u0 y0 (decomposeLoop x f c (u', y')).1 (decomposeLoop x f c (u', y')).2 := by
  intro c
  induction c with
  | zero =>
    intro _
    refine ⟨h0, h0', fun i hi => ?_, fun i h1 h2 => by omega, fun i h1 h2 => by omega⟩
    obtain rfl : i = 0 := by omega
    rw [decomposeLoop]
    dsimp only
    rw [h0]; exact hu
  | succ c ih =>
    intro hc
    have hs := ih (by omega)
    rw [decomposeLoop]
    dsimp only
    obtain ⟨u, hu'⟩ : ∃ u, u = (decomposeLoop x f c (u', y')).1 := ⟨_, rfl⟩
    obtain ⟨y, hy'⟩ : ∃ y, y = (decomposeLoop x f c (u', y')).2 := ⟨_, rfl⟩
    rw [← hu', ← hy'] at hs ⊢
    rw [Nat.add_sub_cancel]
    have hdx : 0 < x (c + 1) - x c := sub_pos.2 (hmono c (by omega))
    have hdx2 : 0 < x (c + 1 + 1) - x (c + 1) := sub_pos.2 (hmono (c + 1) (by omega))
    obtain ⟨hu1, hu2⟩ := hs.range c (Nat.le_refl _)
    obtain ⟨sig, hsig⟩ : ∃ sig, sig = (x (c + 1) - x c) / (x (c + 1 + 1) - x c) := ⟨_, rfl⟩
    have hd2 : 0 < x (c + 1 + 1) - x c := by linarith
    have hs0 : 0 < sig := by rw [hsig]; positivity
    have hs1 : sig < 1 := by rw [hsig, div_lt_one hd2]; linarith
    have hp : 1 < sig * u c + 2 := by nlinarith
    have hun1 : -1 < (sig - 1) / (sig * u c + 2) := by rw [lt_div_iff₀ (by linarith)]; nlinarith
    have hun0 : (sig - 1) / (sig * u c + 2) ≤ 0 := div_nonpos_of_nonpos_of_nonneg (by linarith) (by linarith)
    rw [← hsig]
    refine ⟨by rw [put_ne _ _ (by omega)]; exact hs.u0, by rw [put_ne _ _ (by omega)]; exact hs.y0, ?_, ?_, ?_⟩
    · intro i hi
      by_cases h : i = c + 1
      · rw [h, put_self]; exact ⟨hun1, by linarith⟩
      · rw [put_ne _ _ h]; exact hs.range i (by omega)
    · intro i h1 hi
      by_cases h : i = c + 1
      · rw [h, put_self]; exact hun0
      · rw [put_ne _ _ h]; exact hs.neg i h1 (by omega)
    · intro i h1 hi a
      by_cases h : i = c + 1
      · subst h
        rw [Nat.add_sub_cancel, put_self, put_self, put_ne _ _ (by omega), put_ne _ _ (by omega)]
        obtain ⟨t, ht⟩ : ∃ t, t = (f (c + 1 + 1) - f (c + 1)) / (x (c + 1 + 1) - x (c + 1)) - (f (c + 1) - f c) / (x (c + 1) - x c) := ⟨_, rfl⟩
        rw [← ht]
        obtain ⟨p, hpd⟩ : ∃ p, p = sig * u c + 2 := ⟨_, rfl⟩
        rw [← hpd] at hp ⊢
        have hpne : p ≠ 0 := by linarith
        have hd2ne := hd2.ne'
        have hsd : sig * (x (c + 1 + 1) - x c) = x (c + 1) - x c := by rw [hsig]; field_simp
        obtain ⟨d2, hd2d⟩ : ∃ d2, d2 = x (c + 1 + 1) - x c := ⟨_, rfl⟩
        obtain ⟨dx, hdxd⟩ : ∃ dx, dx = x (c + 1) - x c := ⟨_, rfl⟩
        have e : x (c + 1 + 1) - x (c + 1) = d2 - dx := by rw [hd2d, hdxd]; ring
        rw [e, ← hd2d, ← hdxd]
        rw [← hd2d, ← hdxd] at hsd
        rw [← hd2d] at hd2ne
        have hm : ((6 * t - dx * y c) / (p * d2) + (sig - 1) / p * a) * (p * d2) = 6 * t - dx * y c + (dx - d2) * a := by
          rw [← hsd]; field_simp
        obtain ⟨M, hM⟩ : ∃ M, M = (6 * t - dx * y c) / (p * d2) + (sig - 1) / p * a := ⟨_, rfl⟩
        rw [← hM] at hm ⊢
        rw [hpd] at hm
        linear_combination hm + u c * M * (-hsd)
      · rw [put_ne _ _ h, put_ne _ _ h, put_ne _ _ (by omega), put_ne _ _ (by omega)]
        exact hs.eq i h1 (by omega) a

/-- The equations the second derivatives satisfy. -/
private structure Fitted (n : Nat) (x f m : Nat → ℝ) (lhs rhs : Boundary ℝ) : Prop where
  two : 2 < n
  mono : ∀ k, k ≤ n - 2 → x k < x (k + 1)
  inner : ∀ i, 1 ≤ i → i ≤ n - 2 → (x i - x (i - 1)) * m (i - 1) + 2 * (x (i + 1) - x (i - 1)) * m i
    + (x (i + 1) - x i) * m (i + 1) = 6 * ((f (i + 1) - f i) / (x (i + 1) - x i) - (f i - f (i - 1)) / (x i - x (i - 1)))
  left : (lhs.order = 1 ∧ (2 * m 0 + m 1) * (x 1 - x 0) = 6 * ((f 1 - f 0) / (x 1 - x 0) - lhs.value)) ∨ (lhs.order = 2 ∧ m 0 = lhs.value) ∨
    (lhs.order = 3 ∧ m 1 - m 0 = (x 1 - x 0) * lhs.value)
  right : (rhs.order = 1 ∧ (m (n - 2) + 2 * m (n - 1)) * (x (n - 1) - x (n - 2)) = 6 * (rhs.value - (f (n - 1) - f (n - 2)) / (x (n - 1) - x (n - 2)))) ∨
    (rhs.order = 2 ∧ m (n - 1) = rhs.value) ∨ (rhs.order = 3 ∧ m (n - 1) - m (n - 2) = (x (n - 1) - x (n - 2)) * rhs.value)

private theorem fitted {n m' : Nat} {x f : Nat → ℝ} {lhs rhs : Boundary ℝ} {c : Cubic ℝ} (h : newCubic n m' x f lhs rhs = some c) :
    c.n = n ∧ c.x = x ∧ c.f = f ∧ Fitted n x f c.fpp lhs rhs := by
  unfold newCubic at h
  split at h
  swap
  · cases h
  rename_i hc
  obtain ⟨⟨h2, hs⟩, _⟩ := hc
  have hmono : ∀ k, k ≤ n - 2 → x k < x (k + 1) := by
    intro k hk
    unfold isStrict at hs
    rw [List.all_eq_true] at hs
    exact of_decide_eq_true (hs k (List.mem_range.2 (by omega)))
  rw [Option.bind_eq_some_iff] at h
  obtain ⟨⟨u0, y0⟩, hl, h⟩ := h
  dsimp only at h
  rw [Option.bind_eq_some_iff] at h
  obtain ⟨z, hr, h⟩ := h
  cases h
  have hd0 : 0 < x 1 - x 0 := sub_pos.2 (hmono 0 (by omega))
  have hd0' := hd0.ne'
  have hu : -1 < u0 ∧ u0 ≤ 1 := by
    unfold leftBoundary at hl
    dsimp only at hl
    split at hl
    · cases hl; norm_num
    · split at hl
      · cases hl; norm_num
      · split at hl
        · cases hl; norm_num
        · cases hl
  have hsw := swept (f := f) hmono (y0 := y0) hu (put (fun _ => 0) 0 u0) (put (fun _ => 0) 0 y0) (put_self _ _ _) (put_self _ _ _) (n - 2) (Nat.le_refl _)
  obtain ⟨u, hu'⟩ : ∃ u, u = (decomposeLoop x f (n - 2) (put (fun _ => 0) 0 u0, put (fun _ => 0) 0 y0)).1 := ⟨_, rfl⟩
  obtain ⟨y, hy'⟩ : ∃ y, y = (decomposeLoop x f (n - 2) (put (fun _ => 0) 0 u0, put (fun _ => 0) 0 y0)).2 := ⟨_, rfl⟩
  rw [← hu', ← hy'] at hsw hr
  refine ⟨rfl, rfl, rfl, ?_⟩
  dsimp only
  rw [← hu', ← hy']
  obtain ⟨hb1, hb2⟩ := backLoop_ok u (n - 1) (put y (n - 1) z)
  obtain ⟨M, hM⟩ : ∃ M, M = backLoop u (n - 1) (put y (n - 1) z) := ⟨_, rfl⟩
  rw [← hM] at hb1 hb2 ⊢
  have hMl : M (n - 1) = z := by rw [hb1 _ (Nat.le_refl _), put_self]
  have hMi : ∀ i, i < n - 1 → M i = y i + u i * M (i + 1) := fun i hi => by rw [hb2 i hi, put_ne _ _ (by omega)]
  have en : n - 2 + 1 = n - 1 := by omega
  have hdn : 0 < x (n - 1) - x (n - 2) := by
    have := hmono (n - 2) (Nat.le_refl _)
    rw [en] at this
    exact sub_pos.2 this
  have hdn' := hdn.ne'
  have hMn : M (n - 2) = y (n - 2) + u (n - 2) * M (n - 1) := by have := hMi (n - 2) (by omega); rwa [en] at this
  have hun := hsw.range (n - 2) (Nat.le_refl _)
  have hun' := hsw.neg (n - 2) (by omega) (Nat.le_refl _)
  refine ⟨h2, hmono, ?_, ?_, ?_⟩
  · intro i h1 hi
    have e1 := hMi i (by omega)
    have e2 := hMi (i - 1) (by omega)
    rw [Nat.sub_add_cancel h1, e1] at e2
    rw [e2, e1]
    exact hsw.eq i h1 hi _
  · have e0 := hMi 0 (by omega)
    rw [hsw.u0, hsw.y0] at e0
    unfold leftBoundary at hl
    dsimp only at hl
    split at hl
    · rename_i ho
      cases hl
      left
      refine ⟨ho, ?_⟩
      rw [e0]
      field_simp
      ring
    · split at hl
      · rename_i ho
        cases hl
        exact Or.inr (Or.inl ⟨ho, by rw [e0]; ring⟩)
      · split at hl
        · rename_i ho
          cases hl
          exact Or.inr (Or.inr ⟨ho, by rw [e0]; ring⟩)
        · cases hl
  · unfold rightBoundary at hr
    dsimp only at hr
    split at hr
    · rename_i ho
      cases hr
      left
      refine ⟨ho, ?_⟩
      have hne : 2 + u (n - 2) ≠ 0 := by linarith
      rw [hMn, hMl]
      field_simp
      ring
    · split at hr
      · rename_i ho
        cases hr
        exact Or.inr (Or.inl ⟨ho, hMl⟩)
      · split at hr
        · rename_i ho
          cases hr
          have hne : 1 - u (n - 2) ≠ 0 := by linarith
          exact Or.inr (Or.inr ⟨ho, by rw [hMn, hMl]; field_simp; ring⟩)
        · cases hr

/-! ### The theorems -/

private theorem search_ok (before : Nat → Bool) : ∀ fuel first len, len ≤ fuel →
    (∀ i j, i ≤ j → j < first + len → before j = true → before i = true) → (∀ i, i < first → before i = true) →
    (∀ i, i < search before fuel first len → before i = true) ∧ search before fuel first len ≤ first + len ∧
      (search before fuel first len < first + len → before (search before fuel first len) = false) := by
  intro fuel
  induction fuel with
  | zero =>
    intro first len hl _ hb
    obtain rfl : len = 0 := by omega
    rw [search]
    exact ⟨hb, by omega, fun h => by omega⟩
  | succ fuel ih =>
    intro first len hl hm hb
    cases len with
    | zero =>
      have he : search before (fuel + 1) first 0 = first := by rw [search]; intro h; omega
      rw [he]
      exact ⟨hb, by omega, fun h => by omega⟩
    | succ len =>
      rw [search]
      · by_cases h : before (first + (len + 1) / 2) = true
        · rw [if_pos h]
          obtain ⟨h1, h3, h4⟩ := ih (first + (len + 1) / 2 + 1) (len + 1 - (len + 1) / 2 - 1) (by omega)
            (fun i j hij hj => hm i j hij (by omega)) (fun i hi => hm i (first + (len + 1) / 2) (by omega) (by omega) h)
          exact ⟨h1, by omega, fun hlt => h4 (by omega)⟩
        · rw [if_neg h]
          obtain ⟨h1, h3, h4⟩ := ih first ((len + 1) / 2) (by omega) (fun i j hij hj => hm i j hij (by omega)) hb
          refine ⟨h1, by omega, fun _ => ?_⟩
          by_cases he : search before fuel first ((len + 1) / 2) = first + (len + 1) / 2
          · rw [he]; exact Bool.eq_false_iff.2 h
          · exact h4 (by omega)
      · intro h; omega

private theorem strict_le {x : Nat → ℝ} {n : Nat} (hm : ∀ k, k ≤ n - 2 → x k < x (k + 1)) (hn : 2 < n) : ∀ i j, i < j → j < n → x i < x j := by
  intro i j
  induction j with
  | zero => intro h; omega
  | succ j ih =>
    intro h hj
    by_cases he : i = j
    · rw [he]; exact hm j (by omega)
    · exact lt_trans (ih (by omega) (by omega)) (hm j (by omega))

private theorem cells {n : Nat} {x : Nat → ℝ} (hn : 2 < n) (hm : ∀ k, k ≤ n - 2 → x k < x (k + 1)) :
    Cells x (n - 2) (fun z => min (n - 1) (max 1 (lowerBound x n z)) - 1) ∧
    (∀ z, (∀ i, i < lowerBound x n z → x i < z) ∧ lowerBound x n z ≤ n ∧ (lowerBound x n z < n → z ≤ x (lowerBound x n z))) := by
  have hlt := strict_le hm hn
  have hl : ∀ z, (∀ i, i < lowerBound x n z → x i < z) ∧ lowerBound x n z ≤ n ∧ (lowerBound x n z < n → z ≤ x (lowerBound x n z)) := by
    intro z
    obtain ⟨h1, h2, h3⟩ := search_ok (fun i => decide (x i < z)) n 0 n (Nat.le_refl _)
      (fun i j hij hj hb => by
        rcases Nat.lt_or_eq_of_le hij with h | h
        · exact decide_eq_true (lt_trans (hlt i j h (by omega)) (of_decide_eq_true hb))
        · rw [h]; exact hb) (fun i hi => by omega)
    exact ⟨fun i hi => of_decide_eq_true (h1 i hi), by unfold lowerBound; omega, fun h => not_lt.1 (of_decide_eq_false (h3 (by unfold lowerBound at h; omega)))⟩
  refine ⟨⟨fun z => ?_, fun z => ?_, fun z => ?_, fun z k hk h1 h2 => ?_, fun k hk => hm k (by omega)⟩, hl⟩
  · omega
  · by_cases h : lowerBound x n z ≤ 1
    · left; omega
    · right
      exact (hl z).1 _ (by omega)
  · by_cases h : n - 1 ≤ lowerBound x n z
    · left; omega
    · right
      have h3 := (hl z).2.2 (by omega)
      by_cases h0 : lowerBound x n z = 0
      · rw [h0] at h3 ⊢
        have e : min (n - 1) (max 1 0) - 1 + 1 = 1 := by omega
        rw [e]
        exact le_trans h3 (hlt 0 1 (by omega) (by omega)).le
      · have e : min (n - 1) (max 1 (lowerBound x n z)) - 1 + 1 = lowerBound x n z := by omega
        rw [e]; exact h3
  · obtain ⟨g1, g2, g3⟩ := hl z
    have a1 : k = 0 ∨ k + 1 ≤ lowerBound x n z := by
      rcases h1 with h1 | h1
      · exact Or.inl h1
      · right
        by_contra hc
        have := g3 (by omega)
        rcases Nat.lt_or_eq_of_le (show lowerBound x n z ≤ k by omega) with h | h
        · exact absurd (lt_of_lt_of_le h1 this) (not_lt.2 (hlt _ _ h (by omega)).le)
        · rw [h] at this; exact absurd h1 (not_lt.2 this)
    have a2 : k = n - 2 ∨ lowerBound x n z ≤ k + 1 := by
      rcases h2 with h2 | h2
      · exact Or.inl h2
      · right
        by_contra hc
        exact absurd (g1 (k + 1) (by omega)) (not_lt.2 h2)
    omega

private theorem P0_left (x f m : Nat → ℝ) (k : Nat) : P0 x f m k (x k) = f k := by
  unfold P0; rw [sub_self, zero_div]; ring

private theorem P0_right (x f m : Nat → ℝ) (k : Nat) (h : x (k + 1) - x k ≠ 0) : P0 x f m k (x (k + 1)) = f (k + 1) := by
  unfold P0; rw [div_self h]; ring

private theorem P2_left (x m : Nat → ℝ) (k : Nat) : P2 x m k (x k) = m k := by
  unfold P2; rw [sub_self, zero_div]; ring

private theorem P2_right (x m : Nat → ℝ) (k : Nat) (h : x (k + 1) - x k ≠ 0) : P2 x m k (x (k + 1)) = m (k + 1) := by
  unfold P2; rw [div_self h]; ring

private theorem P1_left (x f m : Nat → ℝ) (k : Nat) :
    P1 x f m k (x k) = (f (k + 1) - f k) / (x (k + 1) - x k) - (x (k + 1) - x k) * (2 * m k + m (k + 1)) / 6 := by
  unfold P1; rw [sub_self, zero_div]; ring

private theorem P1_right (x f m : Nat → ℝ) (k : Nat) (h : x (k + 1) - x k ≠ 0) :
    P1 x f m k (x (k + 1)) = (f (k + 1) - f k) / (x (k + 1) - x k) + (x (k + 1) - x k) * (m k + 2 * m (k + 1)) / 6 := by
  unfold P1; rw [div_self h]; ring

private theorem eval_eq {c : Cubic ℝ} (hn : 2 < c.n) (hm : ∀ k, k ≤ c.n - 2 → c.x k < c.x (k + 1)) (z : ℝ) :
    c.eval z = P0 c.x c.f c.fpp (min (c.n - 1) (max 1 (lowerBound c.x c.n z)) - 1) z := by
  obtain ⟨_, hl⟩ := cells hn hm
  unfold Cubic.eval
  dsimp only
  split
  · rename_i h
    obtain ⟨h1, h2⟩ := h
    have hle := (hl z).2.1
    by_cases h0 : lowerBound c.x c.n z = 0
    · rw [h0] at h2 ⊢
      have e : min (c.n - 1) (max 1 0) - 1 = 0 := by omega
      rw [e, ← h2, P0_left]
    · have e : min (c.n - 1) (max 1 (lowerBound c.x c.n z)) - 1 = lowerBound c.x c.n z - 1 := by omega
      rw [e]
      have e2 : lowerBound c.x c.n z - 1 + 1 = lowerBound c.x c.n z := by omega
      have := P0_right c.x c.f c.fpp (lowerBound c.x c.n z - 1) (by
        have := hm (lowerBound c.x c.n z - 1) (by omega)
        exact (sub_pos.2 this).ne')
      rw [e2, h2] at this
      exact this.symm
  · have e : min (c.n - 1) (max 1 (lowerBound c.x c.n z)) - 1 + 1 = min (c.n - 1) (max 1 (lowerBound c.x c.n z)) := by omega
    unfold P0
    rw [e]

/-- Between two nodes a spline is the cubic through their values with the slopes and second derivatives of the nodes. -/
theorem Interp.eval_piece {n m : Nat} {x f : Nat → ℝ} {lhs rhs : Boundary ℝ} {c : Cubic ℝ} (h : newCubic n m x f lhs rhs = some c) (k : Nat) (hk : k + 1 < n)
    (z : ℝ) (h1 : x k ≤ z) (h2 : z ≤ x (k + 1)) :
    c.eval z = (1 - (z - x k) / (x (k + 1) - x k)) * f k + (z - x k) / (x (k + 1) - x k) * f (k + 1)
      - (1 - (z - x k) / (x (k + 1) - x k)) * ((z - x k) / (x (k + 1) - x k))
      * ((1 + (1 - (z - x k) / (x (k + 1) - x k))) * c.fpp k + (1 + (z - x k) / (x (k + 1) - x k)) * c.fpp (k + 1))
      * ((x (k + 1) - x k) * (x (k + 1) - x k)) / 6 := by
  obtain ⟨rfl, rfl, rfl, hF⟩ := fitted h
  have hn := hF.two
  have hm := hF.mono
  obtain ⟨hcells, -⟩ := cells hn hm
  have hne : ∀ k, k ≤ c.n - 2 → c.x (k + 1) - c.x k ≠ 0 := fun k hk => (sub_pos.2 (hm k hk)).ne'
  show c.eval z = P0 c.x c.f c.fpp k z
  rw [eval_eq hn hm]
  by_cases hz : k = 0 ∨ c.x k < z
  · rw [hcells.eq z k (by omega) hz (Or.inr h2)]
  · push Not at hz
    obtain ⟨k, rfl⟩ : ∃ j, k = j + 1 := ⟨k - 1, by omega⟩
    have e : z = c.x (k + 1) := le_antisymm hz.2 h1
    rw [e, hcells.eq _ k (by omega) (Or.inr (hm k (by omega))) (Or.inr le_rfl), P0_left, P0_right _ _ _ _ (hne k (by omega))]

/-- The requested condition at an end, for the slope, the curvature and the rate of change of the curvature up to the next node. -/
def BoundaryMet (b : Boundary ℝ) (s' s'' : ℝ → ℝ) (here next : ℝ) : Prop :=
  (b.order = 1 ∧ s' here = b.value) ∨ (b.order = 2 ∧ s'' here = b.value) ∨
  (b.order = 3 ∧ ∀ z, min here next ≤ z → z ≤ max here next → s'' z = s'' here + b.value * (z - here))

/-- C49: the spline takes the given values at the nodes; it has a slope and a curvature everywhere, of which the curvature is continuous;
and the conditions at both ends are met. -/
theorem C49_spline {n m : Nat} {x f : Nat → ℝ} {lhs rhs : Boundary ℝ} {c : Cubic ℝ} (h : newCubic n m x f lhs rhs = some c) :
    (∀ i, i < n → c.eval (x i) = f i) ∧
    ∃ s' s'' : ℝ → ℝ, (∀ z, HasDerivAt c.eval (s' z) z) ∧ (∀ z, HasDerivAt s' (s'' z) z) ∧ Continuous s'' ∧
      BoundaryMet lhs s' s'' (x 0) (x 1) ∧ BoundaryMet rhs s' s'' (x (n - 1)) (x (n - 2)) := by
  obtain ⟨rfl, rfl, rfl, hF⟩ := fitted h
  have hn := hF.two
  have hm := hF.mono
  obtain ⟨hcells, hl⟩ := cells hn hm
  have hne : ∀ k, k ≤ c.n - 2 → c.x (k + 1) - c.x k ≠ 0 := fun k hk => (sub_pos.2 (hm k hk)).ne'
  have heval : c.eval = fun z => P0 c.x c.f c.fpp (min (c.n - 1) (max 1 (lowerBound c.x c.n z)) - 1) z := funext (eval_eq hn hm)
  have j0 : ∀ k, k < c.n - 2 → P0 c.x c.f c.fpp k (c.x (k + 1)) = P0 c.x c.f c.fpp (k + 1) (c.x (k + 1)) := fun k hk => by
    rw [P0_right _ _ _ _ (hne k (by omega)), P0_left]
  have j1 : ∀ k, k < c.n - 2 → P1 c.x c.f c.fpp k (c.x (k + 1)) = P1 c.x c.f c.fpp (k + 1) (c.x (k + 1)) := fun k hk => by
    rw [P1_right _ _ _ _ (hne k (by omega)), P1_left]
    have := hF.inner (k + 1) (by omega) (by omega)
    rw [Nat.add_sub_cancel] at this
    linear_combination this / 6
  have j2 : ∀ k, k < c.n - 2 → P2 c.x c.fpp k (c.x (k + 1)) = P2 c.x c.fpp (k + 1) (c.x (k + 1)) := fun k hk => by
    rw [P2_right _ _ _ (hne k (by omega)), P2_left]
  have hidx0 : ∀ z, z ≤ c.x 1 → min (c.n - 1) (max 1 (lowerBound c.x c.n z)) - 1 = 0 := fun z hz =>
    hcells.eq z 0 (by omega) (Or.inl rfl) (Or.inr hz)
  have hidxn : ∀ z, c.x (c.n - 2) < z → min (c.n - 1) (max 1 (lowerBound c.x c.n z)) - 1 = c.n - 2 := fun z hz =>
    hcells.eq z (c.n - 2) (by omega) (Or.inr hz) (Or.inl rfl)
  have en : c.n - 2 + 1 = c.n - 1 := by omega
  have h01 := hm 0 (by omega)
  have hnn := hm (c.n - 2) (by omega)
  rw [en] at hnn
  have hdn : c.x (c.n - 1) - c.x (c.n - 2) ≠ 0 := (sub_pos.2 hnn).ne'
  have hd0 : c.x 1 - c.x 0 ≠ 0 := (sub_pos.2 h01).ne'
  refine ⟨?_, fun z => P1 c.x c.f c.fpp (min (c.n - 1) (max 1 (lowerBound c.x c.n z)) - 1) z,
    fun z => P2 c.x c.fpp (min (c.n - 1) (max 1 (lowerBound c.x c.n z)) - 1) z, ?_, ?_, ?_, ?_, ?_⟩
  · intro i hi
    by_cases h0 : i = 0
    · rw [eval_eq hn hm, h0, hidx0 _ h01.le, P0_left]
    · have e : min (c.n - 1) (max 1 (lowerBound c.x c.n (c.x i))) - 1 = i - 1 := by
        apply hcells.eq _ _ (by omega)
        · right
          have := hm (i - 1) (by omega)
          rwa [Nat.sub_add_cancel (by omega)] at this
        · right
          rw [Nat.sub_add_cancel (by omega)]
      rw [eval_eq hn hm, e]
      have := P0_right c.x c.f c.fpp (i - 1) (hne _ (by omega))
      rwa [Nat.sub_add_cancel (by omega)] at this
  · intro z
    rw [heval]
    exact pieces_deriv hcells hm _ _ (fun k hk y => P0_deriv _ _ _ _ (hne k hk) y) j0 j1 z
  · intro z
    exact pieces_deriv hcells hm _ _ (fun k hk y => P1_deriv _ _ _ _ (hne k hk) y) j1 j2 z
  · exact pieces_cont hcells hm _ (fun k _ => P2_cont _ _ _) j2
  · unfold BoundaryMet
    beta_reduce
    rw [hidx0 _ h01.le, P1_left, P2_left]
    rcases hF.left with ⟨ho, he⟩ | ⟨ho, he⟩ | ⟨ho, he⟩
    · left
      refine ⟨ho, ?_⟩
      linear_combination -he / 6
    · exact Or.inr (Or.inl ⟨ho, he⟩)
    · refine Or.inr (Or.inr ⟨ho, fun z hz1 hz2 => ?_⟩)
      rw [max_eq_right h01.le] at hz2
      rw [hidx0 z hz2]
      unfold P2
      rw [show c.fpp (0 + 1) = c.fpp 0 + (c.x 1 - c.x 0) * lhs.value by linear_combination he]
      rw [show (0 + 1) = 1 from rfl]
      field_simp
      ring
  · unfold BoundaryMet
    beta_reduce
    rw [hidxn _ hnn]
    have e1 := P1_right c.x c.f c.fpp (c.n - 2) (hne _ (Nat.le_refl _))
    have e2 := P2_right c.x c.fpp (c.n - 2) (hne _ (Nat.le_refl _))
    rw [en] at e1 e2
    rw [e1, e2]
    rcases hF.right with ⟨ho, he⟩ | ⟨ho, he⟩ | ⟨ho, he⟩
    · left
      refine ⟨ho, ?_⟩
      linear_combination he / 6
    · exact Or.inr (Or.inl ⟨ho, he⟩)
    · refine Or.inr (Or.inr ⟨ho, fun z hz1 hz2 => ?_⟩)
      rw [min_eq_right hnn.le] at hz1
      have hval : P2 c.x c.fpp (min (c.n - 1) (max 1 (lowerBound c.x c.n z)) - 1) z = P2 c.x c.fpp (c.n - 2) z := by
        rcases eq_or_lt_of_le hz1 with hz | hz
        · rw [← hz]
          have e3 : min (c.n - 1) (max 1 (lowerBound c.x c.n (c.x (c.n - 2)))) - 1 = c.n - 3 := by
            apply hcells.eq _ _ (by omega)
            · right
              have := hm (c.n - 3) (by omega)
              rwa [show c.n - 3 + 1 = c.n - 2 by omega] at this
            · right
              rw [show c.n - 3 + 1 = c.n - 2 by omega]
          rw [e3]
          have := j2 (c.n - 3) (by omega)
          rwa [show c.n - 3 + 1 = c.n - 2 by omega] at this
        · rw [hidxn z hz]
      rw [hval]
      unfold P2
      rw [en, show c.fpp (c.n - 1) = c.fpp (c.n - 2) + (c.x (c.n - 1) - c.x (c.n - 2)) * rhs.value by linear_combination he]
      field_simp
      ring

/-- C49: a spline is built from every strictly increasing set of at least three nodes with conditions of order 1, 2 or 3, and from nothing
else. -/
theorem C49_accepted (n m : Nat) (x f : Nat → ℝ) (lhs rhs : Boundary ℝ) :
    (newCubic n m x f lhs rhs).isSome = true ↔ 2 < n ∧ n = m ∧ (∀ i, i + 1 < n → x i < x (i + 1)) ∧
      (lhs.order = 1 ∨ lhs.order = 2 ∨ lhs.order = 3) ∧ (rhs.order = 1 ∨ rhs.order = 2 ∨ rhs.order = 3) := by
  have hstrict : isStrict x n = true ↔ ∀ i, i + 1 < n → x i < x (i + 1) := by
    unfold isStrict
    rw [List.all_eq_true]
    constructor
    · exact fun h i hi => of_decide_eq_true (h i (List.mem_range.2 (by omega)))
    · exact fun h i hi => decide_eq_true (h i (by have := List.mem_range.1 hi; omega))
  constructor
  · intro h
    obtain ⟨c, hc⟩ := Option.isSome_iff_exists.1 h
    obtain ⟨_, _, _, hF⟩ := fitted hc
    unfold newCubic at hc
    split at hc
    · rename_i hcond
      refine ⟨hF.two, hcond.2, hstrict.1 hcond.1.2, ?_, ?_⟩
      · rcases hF.left with h | h | h
        · exact Or.inl h.1
        · exact Or.inr (Or.inl h.1)
        · exact Or.inr (Or.inr h.1)
      · rcases hF.right with h | h | h
        · exact Or.inl h.1
        · exact Or.inr (Or.inl h.1)
        · exact Or.inr (Or.inr h.1)
    · cases hc
  · rintro ⟨h2, hnm, hs, hl, hr⟩
    unfold newCubic
    rw [if_pos ⟨⟨h2, hstrict.2 hs⟩, hnm⟩]
    have hl' : ∃ p, leftBoundary x f lhs = some p := by
      unfold leftBoundary
      rcases hl with h | h | h <;> rw [h] <;> exact ⟨_, rfl⟩
    obtain ⟨p, hp⟩ := hl'
    have hr' : ∀ u y, ∃ q, rightBoundary n x f rhs u y = some q := by
      intro u y
      unfold rightBoundary
      rcases hr with h | h | h <;> rw [h] <;> exact ⟨_, rfl⟩
    rw [hp, Option.bind_some]
    obtain ⟨q, hq⟩ := hr' (decomposeLoop x f (n - 2) (put (fun _ => 0) 0 p.1, put (fun _ => 0) 0 p.2)).1 (decomposeLoop x f (n - 2) (put (fun _ => 0) 0 p.1, put (fun _ => 0) 0 p.2)).2
    dsimp only
    rw [hq, Option.bind_some]
    rfl

/-- C49: the bounds are the first and the last node. -/
theorem C49_bounds {n m : Nat} {x f : Nat → ℝ} {lhs rhs : Boundary ℝ} {c : Cubic ℝ} (h : newCubic n m x f lhs rhs = some c) (z : ℝ) :
    c.isInBounds z = true ↔ x 0 ≤ z ∧ z ≤ x (n - 1) := by
  obtain ⟨rfl, rfl, rfl, _⟩ := fitted h
  unfold Cubic.isInBounds
  rw [decide_eq_true_iff]

/-- The second derivatives of a natural spline on nodes in equal steps are bounded by the changes of the values from node to node. -/
private theorem natural_fpp {n m : Nat} {x f : Nat → ℝ} {c : Cubic ℝ} (h : newCubic n m x f ⟨2, 0⟩ ⟨2, 0⟩ = some c) {d W : ℝ} (hd : 0 < d) (huni : ∀ k, k + 1 < n → x (k + 1) - x k = d)
    (hW : ∀ k, k + 1 < n → |f (k + 1) - f k| ≤ W) (i : Nat) (hi : i < n) : |c.fpp i| * (d * d) ≤ 6 * W := by
  obtain ⟨-, -, -, hF⟩ := fitted h
  have hn := hF.two
  have hW0 : 0 ≤ W := (abs_nonneg _).trans (hW 0 (by omega))
  have hl : c.fpp 0 = 0 := by
    rcases hF.left with h | h | h
    · exact absurd h.1 (by decide)
    · exact h.2
    · exact absurd h.1 (by decide)
  have hr : c.fpp (n - 1) = 0 := by
    rcases hF.right with h | h | h
    · exact absurd h.1 (by decide)
    · exact h.2
    · exact absurd h.1 (by decide)
  obtain ⟨j, hj, hmax⟩ := Finset.exists_max_image (Finset.range n) (fun i => |c.fpp i|) ⟨0, Finset.mem_range.2 (by omega)⟩
  have hj' := Finset.mem_range.1 hj
  have hdd : 0 < d * d := mul_pos hd hd
  refine (mul_le_mul_of_nonneg_right (hmax i (Finset.mem_range.2 hi)) hdd.le).trans ?_
  by_cases h0 : j = 0
  · rw [h0, hl, abs_zero, zero_mul]; linarith
  by_cases h1 : j = n - 1
  · rw [h1, hr, abs_zero, zero_mul]; linarith
  obtain ⟨k, rfl⟩ : ∃ k, j = k + 1 := ⟨j - 1, by omega⟩
  have e := hF.inner (k + 1) (by omega) (by omega)
  rw [Nat.add_sub_cancel] at e
  have e1 := huni k (by omega)
  have e2 := huni (k + 1) (by omega)
  have e3 : x (k + 1 + 1) - x k = 2 * d := by linarith
  rw [e1, e2, e3] at e
  have e4 : 4 * (c.fpp (k + 1) * (d * d)) = 6 * ((f (k + 1 + 1) - f (k + 1)) - (f (k + 1) - f k)) - c.fpp k * (d * d) - c.fpp (k + 1 + 1) * (d * d) := by
    have e5 : 6 * ((f (k + 1 + 1) - f (k + 1)) / d - (f (k + 1) - f k) / d) * d = 6 * ((f (k + 1 + 1) - f (k + 1)) - (f (k + 1) - f k)) := by field_simp
    rw [← e5, ← e]
    ring
  have a1 := abs_le.1 (hW k (by omega))
  have a2 := abs_le.1 (hW (k + 1) (by omega))
  have b1 := abs_le.1 (hmax k (Finset.mem_range.2 (by omega)))
  have b2 := abs_le.1 (hmax (k + 1 + 1) (Finset.mem_range.2 (by omega)))
  have c1 := mul_le_mul_of_nonneg_right b1.1 hdd.le
  have c2 := mul_le_mul_of_nonneg_right b1.2 hdd.le
  have c3 := mul_le_mul_of_nonneg_right b2.1 hdd.le
  have c4 := mul_le_mul_of_nonneg_right b2.2 hdd.le
  rcases abs_cases (c.fpp (k + 1)) with ⟨q, -⟩ | ⟨q, -⟩ <;> rw [q] at c1 c2 c3 c4 ⊢ <;> linarith [a1.1, a1.2, a2.1, a2.2]

/-- C49: a natural spline on nodes in equal steps, between two nodes, is within twice the largest change of the values from node to node. -/
theorem C49_natural {n m : Nat} {x f : Nat → ℝ} {c : Cubic ℝ} (h : newCubic n m x f ⟨2, 0⟩ ⟨2, 0⟩ = some c) {d W : ℝ} (hd : 0 < d) (huni : ∀ k, k + 1 < n → x (k + 1) - x k = d)
    (hW : ∀ k, k + 1 < n → |f (k + 1) - f k| ≤ W) (k : Nat) (hk : k + 1 < n) (z : ℝ) (h1 : x k ≤ z) (h2 : z ≤ x (k + 1)) : |c.eval z - f k| ≤ 2 * W := by
  have hW0 : 0 ≤ W := (abs_nonneg _).trans (hW k hk)
  have p1 := natural_fpp h hd huni hW k (by omega)
  have p2 := natural_fpp h hd huni hW (k + 1) hk
  have hf := hW k hk
  rw [Interp.eval_piece h k hk z h1 h2, huni k hk]
  have hb0 : 0 ≤ (z - x k) / d := div_nonneg (by linarith) hd.le
  have hb1 : (z - x k) / d ≤ 1 := (div_le_one hd).2 (by linarith [huni k hk])
  generalize (z - x k) / d = b at hb0 hb1
  have e : (1 - b) * f k + b * f (k + 1) - (1 - b) * b * ((1 + (1 - b)) * c.fpp k + (1 + b) * c.fpp (k + 1)) * (d * d) / 6 - f k =
      b * (f (k + 1) - f k) + -((1 - b) * b * ((2 - b) * (c.fpp k * (d * d)) + (1 + b) * (c.fpp (k + 1) * (d * d))) / 6) := by ring
  rw [e]
  have q1 : |c.fpp k * (d * d)| ≤ 6 * W := by rwa [abs_mul, abs_of_pos (mul_pos hd hd)]
  have q2 : |c.fpp (k + 1) * (d * d)| ≤ 6 * W := by rwa [abs_mul, abs_of_pos (mul_pos hd hd)]
  have t1 : |b * (f (k + 1) - f k)| ≤ W := by
    rw [abs_mul, abs_of_nonneg hb0]
    calc b * |f (k + 1) - f k| ≤ 1 * W := mul_le_mul hb1 hf (abs_nonneg _) zero_le_one
      _ = W := one_mul W
  have t2 : |(2 - b) * (c.fpp k * (d * d)) + (1 + b) * (c.fpp (k + 1) * (d * d))| ≤ 18 * W := by
    refine (abs_add_le _ _).trans ?_
    rw [abs_mul (2 - b), abs_mul (1 + b), abs_of_nonneg (show 0 ≤ 2 - b by linarith), abs_of_nonneg (show 0 ≤ 1 + b by linarith)]
    have := mul_le_mul_of_nonneg_left q1 (show 0 ≤ 2 - b by linarith)
    have := mul_le_mul_of_nonneg_left q2 (show 0 ≤ 1 + b by linarith)
    linarith
  have t3 : (1 - b) * b ≤ 1 / 4 := by nlinarith [sq_nonneg (b - 1 / 2)]
  have t4 : |(1 - b) * b * ((2 - b) * (c.fpp k * (d * d)) + (1 + b) * (c.fpp (k + 1) * (d * d))) / 6| ≤ W := by
    rw [abs_div, abs_mul, abs_of_nonneg (mul_nonneg (show 0 ≤ 1 - b by linarith) hb0), abs_of_pos (show (0 : ℝ) < 6 by norm_num), div_le_iff₀ (by norm_num)]
    calc _ ≤ 1 / 4 * (18 * W) := mul_le_mul t3 t2 (abs_nonneg _) (by norm_num)
      _ ≤ W * 6 := by linarith
  calc _ ≤ |b * (f (k + 1) - f k)| + |-((1 - b) * b * ((2 - b) * (c.fpp k * (d * d)) + (1 + b) * (c.fpp (k + 1) * (d * d))) / 6)| := abs_add_le _ _
    _ ≤ W + W := by rw [abs_neg]; exact add_le_add t1 t4
    _ = 2 * W := by ring

/-! ### The hypotheses hold -/

example : (newCubic 3 3 (fun i => (i : ℝ)) (fun i => (i : ℝ) * i) ⟨1, 0⟩ ⟨2, 2⟩).isSome = true :=
  (C49_accepted _ _ _ _ _ _).2 ⟨by decide, rfl, fun i _ => by simp, Or.inl rfl, Or.inr (Or.inl rfl)⟩

example : (newCubic 3 3 (fun i => (i : ℝ)) (fun i => (i : ℝ) * i) ⟨2, 0⟩ ⟨2, 0⟩).isSome = true :=
  (C49_accepted _ _ _ _ _ _).2 ⟨by decide, rfl, fun i _ => by simp, Or.inr (Or.inl rfl), Or.inr (Or.inl rfl)⟩

end Dal
