import Verif.Sim.DupireModel
import Verif.Sim.TimeLineProps
import Verif.Interp.SearchLemmas
import Mathlib.Probability.Distributions.Gaussian.Real
import Mathlib.Analysis.SpecialFunctions.Log.Deriv
import Mathlib.Analysis.SpecialFunctions.ExpDeriv
import Mathlib.Tactic.LinearCombination

/-!
# C77: paths of the simulation models and their derivatives

Specification: a path is compared with the recursion of the logarithm of the spot written out over the real numbers, its mean with the iterated Gaussian integral, and the
derivatives that `Number_` carries with the derivatives of the real path.
-/

namespace Dal
open Dal.TimeLine Dal.Models
open ProbabilityTheory (gaussianReal mgf mgf_id_gaussianReal)

/-! ## Values -/

private theorem litR (x : ℝ) : (Num.lit x : ℝ) = x := rfl
private theorem valR (x : ℝ) : Num.val x = x := rfl
private theorem expR (x : ℝ) : (Num.exp x : ℝ) = Real.exp x := rfl
private theorem logR (x : ℝ) : (Num.log x : ℝ) = Real.log x := rfl

private theorem interp_const {T : Type} [Add T] [Sub T] [Mul T] [Num T] (eps : ℝ) (n : Nat) (x : Nat → ℝ) (y : Nat → T) (x0 c : T) (hn : 0 < n)
    (hy : ∀ i, i < n → y i = c) (hz : ∀ g : ℝ, c + Num.lit g * (c - c) = c) : interpT eps n x y x0 = c := by
  unfold interpT
  have hle := Interp.lowerBound_le x n (Num.val x0)
  dsimp only
  split_ifs with h1 h2
  · exact hy _ (by omega)
  · exact hy _ (by omega)
  · rw [not_or] at h2
    rw [hy (Interp.lowerBound x n (Num.val x0) - 1) (by omega), hy (Interp.lowerBound x n (Num.val x0) - 1 + 1) (by omega)]
    exact hz _

/-- C77, values: with one volatility at every node a Dupire path is the Black–Scholes path, whatever the time line and the Gaussian numbers. -/
theorem C77_flat_is_black_scholes (eps : ℝ) (m : Dupire ℝ) (b : BS ℝ) (line gauss : Nat → ℝ) (n : Nat) (hS : 0 < m.nS) (hT : 0 < m.nT)
    (hv : ∀ j k, j < m.nS → k < m.nT → m.vols j k = b.vol) (hs : m.spot = b.spot) (hr : m.r = b.rate) (hq : m.q = b.div)
    (hl : ∀ i, line i ≤ line (i + 1)) :
    m.logAt eps line gauss n = some (b.logAt line gauss n) := by
  rw [Dupire.logAt, if_neg (by omega), BS.logAt, hs]
  congr 1
  have hstep : ∀ i x, m.step eps line gauss i x = b.step line gauss i x := by
    intro i x
    have h1 : ∀ j, j < m.nS → m.interpVols eps line i j = Real.sqrt (line (i + 1) - line i) * b.vol := by
      intro j hj
      rw [Dupire.interpVols, litR, interp_const eps m.nT m.times (m.vols j) _ b.vol hT (fun k hk => hv j k hj hk) (by intro g; rw [sub_self, mul_zero, add_zero])]
    have h2 : m.localVol eps line i x = Real.sqrt (line (i + 1) - line i) * b.vol :=
      interp_const eps m.nS m.logSpots _ x _ hS h1 (by intro g; rw [sub_self, mul_zero, add_zero])
    rw [Dupire.step, BS.step, Dupire.drift, BS.drift, BS.std, h2, hr, hq]
    simp only [litR]
    have h3 := Real.mul_self_sqrt (sub_nonneg.2 (hl i))
    linear_combination (-1 / 2 * b.vol * b.vol) * h3
  induction n with
  | zero => rfl
  | succ n ih => rw [stateAt, stateAt, ih, hstep]

example : (⟨100, 0.03, 0.01, 2, fun i => 90 + 20 * i, 1, fun _ => 0, fun _ _ => 0.2⟩ : Dupire ℝ).logAt 0 (fun i => i) (fun _ => 1) 3 =
    some ((⟨100, 0.03, 0.01, 0.2⟩ : BS ℝ).logAt (fun i => i) (fun _ => 1) 3) :=
  C77_flat_is_black_scholes 0 _ _ _ _ 3 (by decide) (by decide) (fun _ _ _ _ => rfl) rfl rfl rfl (fun i => by push_cast; linarith)

private theorem interp_line {T : Type} [Add T] [Sub T] [Mul T] [Num T] (eps : ℝ) (n : Nat) (x : Nat → ℝ) (y : Nat → T) (x0 : T)
    (hval : ∀ z : ℝ, Num.val (x0 - Num.lit z) = Num.val x0 - z) (hx : ∀ i j, i < j → j < n → x i < x j) (k : Nat) (hk : k + 1 < n)
    (h1 : x k < Num.val x0) (h2 : Num.val x0 + eps ≤ x (k + 1)) (he : 0 ≤ eps) :
    interpT eps n x y x0 = y k + Num.lit ((Num.val x0 - x k) / (x (k + 1) - x k)) * (y (k + 1) - y k) := by
  have hlb : Interp.lowerBound x n (Num.val x0) = k + 1 := by
    apply Interp.lowerBound_eq (fun i j hij hj => ?_) (by omega) (fun i hi => ?_) (fun _ => by linarith)
    · rcases Nat.lt_or_eq_of_le hij with h | rfl
      · exact (hx i j h hj).le
      · exact le_refl _
    · rcases Nat.lt_or_eq_of_le (Nat.lt_succ_iff.1 hi) with h | rfl
      · exact (hx i k h (by omega)).trans h1
      · exact h1
  unfold interpT
  simp only [hval, hlb]
  rw [if_neg (by omega), if_neg]
  · rfl
  · rintro (h | h)
    · omega
    · simp only [Interp.isZero, decide_eq_true_eq] at h
      linarith [h.2]

private theorem interp_node (eps : ℝ) (n : Nat) (x : Nat → ℝ) (y : Nat → ℝ) (k : Nat) (hx : ∀ i j, i < j → j < n → x i < x j) (hk : k < n)
    (he : 0 < eps) : interpT eps n x y (x k) = y k := by
  have hlb : Interp.lowerBound x n (x k) = k := by
    apply Interp.lowerBound_eq (fun i j hij hj => ?_) (by omega) (fun i hi => hx i k hi hk) (fun _ => lt_irrefl _)
    rcases Nat.lt_or_eq_of_le hij with h | rfl
    · exact (hx i j h hj).le
    · exact le_refl _
  unfold interpT
  simp only [valR, litR, hlb]
  rw [if_neg (by omega), if_pos]
  right
  simp only [Interp.isZero, decide_eq_true_eq, sub_self, neg_zero]
  exact ⟨he, he⟩

/-- C77, values: at a node of the grid, a step has the carry as its drift and the volatility of that node. -/
theorem C77_step_at_node (eps : ℝ) (he : 0 < eps) (m : Dupire ℝ) (line gauss : Nat → ℝ) (i j k : Nat) (hs : ∀ a b, a < b → b < m.nS → m.spots a < m.spots b)
    (hpos : ∀ a, a < m.nS → 0 < m.spots a) (ht : ∀ a b, a < b → b < m.nT → m.times a < m.times b) (hj : j < m.nS) (hk : k < m.nT) (hl : line i = m.times k)
    (hdt : line i ≤ line (i + 1)) :
    m.step eps line gauss i (Real.log (m.spots j)) = Real.log (m.spots j) + (m.r - m.q - m.vols j k ^ 2 / 2) * (line (i + 1) - line i) +
      m.vols j k * Real.sqrt (line (i + 1) - line i) * gauss i := by
  have h1 : m.localVol eps line i (Real.log (m.spots j)) = Real.sqrt (line (i + 1) - line i) * m.vols j k := by
    rw [Dupire.localVol, show Real.log (m.spots j) = m.logSpots j from rfl,
      interp_node eps m.nS m.logSpots _ j (fun a b hab hb => Real.log_lt_log (hpos a (by omega)) (hs a b hab hb)) hj he, Dupire.interpVols]
    simp only [litR]
    rw [hl, interp_node eps m.nT m.times _ k ht hk he]
  rw [Dupire.step, h1, Dupire.drift]
  simp only [litR]
  have h3 := Real.mul_self_sqrt (sub_nonneg.2 hdt)
  linear_combination (-1 / 2 * m.vols j k ^ 2) * h3

example : (⟨100, 0.03, 0.01, 2, fun i => 90 + 20 * i, 1, fun _ => 0, fun j _ => 0.2 + 0.1 * j⟩ : Dupire ℝ).step 1 (fun i => i) (fun _ => 1) 0 (Real.log (90 + 20 * (1 : Nat))) =
    Real.log (90 + 20 * (1 : Nat)) + (0.03 - 0.01 - (0.2 + 0.1 * (1 : Nat)) ^ 2 / 2) * (((0 + 1 : Nat) : ℝ) - (0 : Nat)) +
      (0.2 + 0.1 * (1 : Nat)) * Real.sqrt (((0 + 1 : Nat) : ℝ) - (0 : Nat)) * 1 :=
  C77_step_at_node 1 (by norm_num) (⟨100, 0.03, 0.01, 2, fun i => 90 + 20 * i, 1, fun _ => 0, fun j _ => 0.2 + 0.1 * j⟩ : Dupire ℝ) (fun i => i) (fun _ => 1) 0 1 0
    (fun a b h _ => by have : (a : ℝ) < b := by exact_mod_cast h
                       show (90 : ℝ) + 20 * a < 90 + 20 * b
                       linarith) (fun a _ => by show (0 : ℝ) < 90 + 20 * a; positivity)
    (fun a b h hb => by change b < 1 at hb; omega) (by decide) (by decide) (by norm_num) (by norm_num)

/-- `k` is the node for `x` on a grid: `x` itself, or the end of the grid beyond which `x` lies. -/
def NodeFor (grid : Nat → ℝ) (n k : Nat) (x : ℝ) : Prop := x = grid k ∨ (k = 0 ∧ x < grid 0) ∨ (k + 1 = n ∧ grid k < x)

private theorem interp_outside (eps : ℝ) (n : Nat) (x : Nat → ℝ) (y : Nat → ℝ) (k : Nat) (x0 : ℝ) (hx : ∀ i j, i < j → j < n → x i < x j) (hk : k < n)
    (he : 0 < eps) (h : NodeFor x n k x0) : interpT eps n x y x0 = y k := by
  have hm : ∀ i j, i ≤ j → j < n → x i ≤ x j := fun i j hij hj => by
    rcases Nat.lt_or_eq_of_le hij with h | rfl
    · exact (hx i j h hj).le
    · exact le_refl _
  rcases h with rfl | ⟨rfl, h⟩ | ⟨hn, h⟩
  · exact interp_node eps n x y k hx hk he
  · have hlb : Interp.lowerBound x n x0 = 0 :=
      Interp.lowerBound_eq hm (by omega) (fun i hi => absurd hi (Nat.not_lt_zero i)) (fun _ => by linarith)
    unfold interpT
    simp only [valR, hlb]
    rw [if_neg (by omega), if_pos (Or.inl trivial)]
  · have hlb : Interp.lowerBound x n x0 = n :=
      Interp.lowerBound_eq hm (le_refl _) (fun i hi => (hm i k (by omega) hk).trans_lt h) (fun hc => absurd hc (lt_irrefl _))
    unfold interpT
    simp only [valR, hlb]
    rw [if_pos trivial, show n - 1 = k by omega]

/-- C77, values: outside of the grid of spots or times, a step has the volatility of the nearest node. -/
theorem C77_step_outside (eps : ℝ) (he : 0 < eps) (m : Dupire ℝ) (line gauss : Nat → ℝ) (i j k : Nat) (x : ℝ) (hs : ∀ a b, a < b → b < m.nS → m.spots a < m.spots b)
    (hpos : ∀ a, a < m.nS → 0 < m.spots a) (ht : ∀ a b, a < b → b < m.nT → m.times a < m.times b) (hj : j < m.nS) (hk : k < m.nT)
    (hl : NodeFor m.times m.nT k (line i)) (hx : NodeFor (fun a => Real.log (m.spots a)) m.nS j x) (hdt : line i ≤ line (i + 1)) :
    m.step eps line gauss i x = x + (m.r - m.q - m.vols j k ^ 2 / 2) * (line (i + 1) - line i) +
      m.vols j k * Real.sqrt (line (i + 1) - line i) * gauss i := by
  have h1 : m.localVol eps line i x = Real.sqrt (line (i + 1) - line i) * m.vols j k := by
    rw [Dupire.localVol,
      interp_outside eps m.nS m.logSpots _ j x (fun a b hab hb => Real.log_lt_log (hpos a (by omega)) (hs a b hab hb)) hj he hx, Dupire.interpVols]
    simp only [litR]
    rw [interp_outside eps m.nT m.times _ k _ ht hk he hl]
  rw [Dupire.step, h1, Dupire.drift]
  simp only [litR]
  have h3 := Real.mul_self_sqrt (sub_nonneg.2 hdt)
  linear_combination (-1 / 2 * m.vols j k ^ 2) * h3

example : NodeFor (fun i => (i : ℝ)) 3 2 7 := Or.inr (Or.inr ⟨rfl, by norm_num⟩)

/-! ## Means -/

/-- The mean of the spot after `k` further steps from position `i` and logarithm `x`, for independent standard Gaussian numbers: the integrals are taken one after the
other. -/
noncomputable def meanSpot (step : Nat → ℝ → ℝ → ℝ) : Nat → Nat → ℝ → ℝ
  | 0, _, x => Real.exp x
  | k + 1, i, x => ∫ g, meanSpot step k (i + 1) (step i x g) ∂gaussianReal 0 1

private theorem gauss_exp (a v : ℝ) : ∫ g, Real.exp (a + v * (-0.5 * v + g)) ∂gaussianReal 0 1 = Real.exp a := by
  have h := congrFun (mgf_id_gaussianReal (μ := 0) (v := 1)) v
  simp only [mgf, id] at h
  have h1 : ∀ g : ℝ, Real.exp (a + v * (-0.5 * v + g)) = Real.exp (a - 0.5 * v * v) * Real.exp (v * g) := by
    intro g; rw [← Real.exp_add]; congr 1; ring
  simp only [h1]
  rw [MeasureTheory.integral_const_mul, h, ← Real.exp_add]
  congr 1
  norm_num
  ring

private theorem mean_of_drift (step : Nat → ℝ → ℝ → ℝ) (drift : Nat → ℝ) (vol : Nat → ℝ → ℝ)
    (h : ∀ i x g, step i x g = x + (drift i + vol i x * (-0.5 * vol i x + g))) :
    ∀ (k i : Nat) (x : ℝ), meanSpot step k i x = Real.exp (x + ∑ l ∈ Finset.range k, drift (i + l)) := by
  intro k
  induction k with
  | zero => intro i x; simp [meanSpot]
  | succ k ih =>
    intro i x
    rw [meanSpot]
    have h1 : ∀ g, meanSpot step k (i + 1) (step i x g) =
        Real.exp ((x + drift i + ∑ l ∈ Finset.range k, drift (i + 1 + l)) + vol i x * (-0.5 * vol i x + g)) := by
      intro g; rw [ih, h]; congr 1; ring
    simp only [h1]
    rw [gauss_exp, Finset.sum_range_succ']
    congr 1
    have : ∑ l ∈ Finset.range k, drift (i + 1 + l) = ∑ l ∈ Finset.range k, drift (i + (l + 1)) :=
      Finset.sum_congr rfl fun l _ => by congr 1; omega
    rw [this, add_assoc, add_comm (drift i), Nat.add_zero i]

private theorem sum_steps (c : ℝ) (line : Nat → ℝ) (i : Nat) : ∀ k, ∑ l ∈ Finset.range k, (line (i + l + 1) - line (i + l)) * c = (line (i + k) - line i) * c := by
  intro k
  induction k with
  | zero => simp
  | succ k ih => rw [Finset.sum_range_succ, ih, show i + (k + 1) = i + k + 1 from rfl]; ring

/-- C77, means: in a Dupire model the mean of the spot at any later position of the line is the spot now, grown at the rate less the repo; the volatilities
have no influence, on any grid and for any line. -/
theorem C77_dupire_mean (eps : ℝ) (m : Dupire ℝ) (line : Nat → ℝ) (i k : Nat) (x : ℝ) :
    meanSpot (fun i x g => m.step eps line (fun _ => g) i x) k i x = Real.exp x * Real.exp ((m.r - m.q) * (line (i + k) - line i)) := by
  rw [mean_of_drift (fun i x g => m.step eps line (fun _ => g) i x) (fun i => m.drift line i) (fun i x => m.localVol eps line i x) (fun i x g => rfl), Real.exp_add]
  congr 2
  rw [mul_comm, ← sum_steps]
  rfl

/-- C77, means: the same for Black–Scholes on an increasing line, and the mean of the spot over the numeraire is the spot of today less the dividends. -/
theorem C77_bs_mean (b : BS ℝ) (line : Nat → ℝ) (hl : ∀ i, line i ≤ line (i + 1)) (i k : Nat) (x : ℝ) :
    meanSpot (fun i x g => b.step line (fun _ => g) i x) k i x = Real.exp x * Real.exp ((b.rate - b.div) * (line (i + k) - line i)) ∧
    (line 0 = 0 → 0 < b.spot → meanSpot (fun i x g => b.step line (fun _ => g) i x) k 0 (Real.log b.spot) / b.numeraire (line k) = b.spot * Real.exp (-b.div * line k)) := by
  have key : ∀ i x, meanSpot (fun i x g => b.step line (fun _ => g) i x) k i x = Real.exp x * Real.exp ((b.rate - b.div) * (line (i + k) - line i)) := by
    intro i x
    rw [mean_of_drift _ (fun i => (line (i + 1) - line i) * (b.rate - b.div)) (fun i _ => b.std line i) (fun i x g => ?_), Real.exp_add]
    · congr 2
      rw [mul_comm (b.rate - b.div), ← sum_steps]
    · rw [BS.step, BS.drift, BS.std]
      simp only [litR]
      have h3 := Real.mul_self_sqrt (sub_nonneg.2 (hl i))
      linear_combination (b.vol * b.vol / 2) * h3
  refine ⟨key i x, fun h0 hs => ?_⟩
  rw [key, Real.exp_log hs, h0, Nat.zero_add, BS.numeraire]
  simp only [litR, expR]
  rw [mul_div_assoc, ← Real.exp_sub]
  congr 2
  ring

example : meanSpot (fun i x g => (⟨100, 0.03, 0.01, 0.2⟩ : BS ℝ).step (fun i => i) (fun _ => g) i x) 3 0 (Real.log 100) / (⟨100, 0.03, 0.01, 0.2⟩ : BS ℝ).numeraire (3 : Nat) =
    100 * Real.exp (-0.01 * (3 : Nat)) :=
  (C77_bs_mean (⟨100, 0.03, 0.01, 0.2⟩ : BS ℝ) (fun i => i) (fun i => by push_cast; linarith) 0 3 0).2 (by norm_num) (by norm_num)

/-! ## Derivatives -/

/-- The dual number is the value and the derivative of the function at the point. -/
def Tracks (f : ℝ → ℝ) (u : ℝ) (a : Dual) : Prop := a.v = f u ∧ HasDerivAt f a.d u

theorem tr_lit (c u : ℝ) : Tracks (fun _ => c) u (Num.lit c) := ⟨rfl, hasDerivAt_const u c⟩

theorem tr_add {f g : ℝ → ℝ} {u : ℝ} {a b : Dual} (ha : Tracks f u a) (hb : Tracks g u b) : Tracks (fun t => f t + g t) u (a + b) :=
  ⟨congrArg₂ (· + ·) ha.1 hb.1, ha.2.add hb.2⟩

theorem tr_sub {f g : ℝ → ℝ} {u : ℝ} {a b : Dual} (ha : Tracks f u a) (hb : Tracks g u b) : Tracks (fun t => f t - g t) u (a - b) :=
  ⟨congrArg₂ (· - ·) ha.1 hb.1, ha.2.sub hb.2⟩

theorem tr_mul {f g : ℝ → ℝ} {u : ℝ} {a b : Dual} (ha : Tracks f u a) (hb : Tracks g u b) : Tracks (fun t => f t * g t) u (a * b) := by
  refine ⟨congrArg₂ (· * ·) ha.1 hb.1, ?_⟩
  have := ha.2.mul hb.2
  rw [← ha.1, ← hb.1] at this
  exact this

theorem tr_exp {f : ℝ → ℝ} {u : ℝ} {a : Dual} (ha : Tracks f u a) : Tracks (fun t => Real.exp (f t)) u (Num.exp a) := by
  refine ⟨congrArg Real.exp ha.1, ?_⟩
  have := ha.2.exp
  rw [← ha.1, mul_comm] at this
  exact this

theorem tr_log {f : ℝ → ℝ} {u : ℝ} {a : Dual} (ha : Tracks f u a) (h0 : a.v ≠ 0) : Tracks (fun t => Real.log (f t)) u (Num.log a) := by
  refine ⟨congrArg Real.log ha.1, ?_⟩
  have := ha.2.log (by rw [← ha.1]; exact h0)
  rw [← ha.1] at this
  exact this

/-- C77, derivatives: for every way in which the four parameters of a Black–Scholes model depend on a number, the path and the numeraire computed with `Number_` carry the
derivatives of the real path and numeraire. -/
theorem C77_bs_gradient (fs fr fd fv : ℝ → ℝ) (u : ℝ) (b : BS Dual) (hs : Tracks fs u b.spot) (hr : Tracks fr u b.rate) (hd : Tracks fd u b.div)
    (hv : Tracks fv u b.vol) (h0 : fs u ≠ 0) (line gauss : Nat → ℝ) (n : Nat) (t : ℝ) :
    Tracks (fun u => Real.exp ((⟨fs u, fr u, fd u, fv u⟩ : BS ℝ).logAt line gauss n)) u (Num.exp (b.logAt line gauss n)) ∧
      Tracks (fun u => (⟨fs u, fr u, fd u, fv u⟩ : BS ℝ).numeraire t) u (b.numeraire t) := by
  refine ⟨tr_exp ?_, tr_exp (tr_mul hr (tr_lit t u))⟩
  induction n with
  | zero => exact tr_log hs (by rw [hs.1]; exact h0)
  | succ n ih =>
    exact tr_add ih (tr_add (tr_mul (tr_sub (tr_sub hr hd) (tr_mul (tr_mul (tr_lit 0.5 u) hv) hv)) (tr_lit _ u)) (tr_mul (tr_mul hv (tr_lit _ u)) (tr_lit _ u)))

/-- The sensitivity to the spot of a Black–Scholes path. -/
example : HasDerivAt (fun u => Real.exp ((⟨u, 0.03, 0.01, 0.2⟩ : BS ℝ).logAt (fun i => i) (fun _ => 1) 3))
    (Num.exp ((⟨⟨100, 1⟩, ⟨0.03, 0⟩, ⟨0.01, 0⟩, ⟨0.2, 0⟩⟩ : BS Dual).logAt (fun i => i) (fun _ => 1) 3)).d 100 :=
  (C77_bs_gradient (fun u => u) (fun _ => 0.03) (fun _ => 0.01) (fun _ => 0.2) 100 ⟨⟨100, 1⟩, ⟨0.03, 0⟩, ⟨0.01, 0⟩, ⟨0.2, 0⟩⟩ ⟨rfl, hasDerivAt_id _⟩ (tr_lit _ _)
    (tr_lit _ _) (tr_lit _ _) (by norm_num) _ _ 3 0).1.2

private theorem interp_val (eps : ℝ) (n : Nat) (x : Nat → ℝ) (y : Nat → Dual) (x0 : Dual) :
    (interpT eps n x y x0).v = interpT eps n x (fun i => (y i).v) x0.v := by
  unfold interpT
  dsimp only
  have h1 : ∀ z : ℝ, Num.val (x0 - (Num.lit z : Dual)) = x0.v - z := fun z => rfl
  have h2 : ∀ z : ℝ, Num.val (x0.v - (Num.lit z : ℝ)) = x0.v - z := fun z => rfl
  have h3 : (Num.val x0 : ℝ) = x0.v := rfl
  have h4 : Num.val x0.v = x0.v := rfl
  simp only [h1, h2, h3, h4]
  split_ifs
  · rfl
  · rfl
  · rfl

/-- The model with the values of the parameters. -/
def valueOfDupire (m : Dupire Dual) : Dupire ℝ := ⟨m.spot.v, m.r.v, m.q.v, m.nS, m.spots, m.nT, m.times, fun i j => (m.vols i j).v⟩

/-- C77, values: a Dupire path computed with `Number_` has the values of the path computed with `double`. -/
theorem C77_same_values (eps : ℝ) (m : Dupire Dual) (line gauss : Nat → ℝ) (n : Nat) :
    (m.logAt eps line gauss n).map Dual.v = (valueOfDupire m).logAt eps line gauss n := by
  unfold Dupire.logAt
  have hn : (valueOfDupire m).nS = m.nS ∧ (valueOfDupire m).nT = m.nT := ⟨rfl, rfl⟩
  rw [hn.1, hn.2]
  split_ifs with h
  · rfl
  · rw [Option.map_some]
    congr 1
    clear h
    have hv : ∀ i j, (m.interpVols eps line i j).v = (valueOfDupire m).interpVols eps line i j := by
      intro i j
      show Real.sqrt (line (i + 1) - line i) * (interpT eps m.nT m.times (m.vols j) (Num.lit (line i))).v = _
      rw [interp_val]
      rfl
    have hs : ∀ i (x : Dual), (m.step eps line gauss i x).v = (valueOfDupire m).step eps line gauss i x.v := by
      intro i x
      have hl : (m.localVol eps line i x).v = (valueOfDupire m).localVol eps line i x.v := by
        rw [Dupire.localVol, interp_val, funext (hv i)]
        rfl
      show x.v + ((line (i + 1) - line i) * (m.r.v - m.q.v) + (m.localVol eps line i x).v * (-0.5 * (m.localVol eps line i x).v + gauss i)) = _
      rw [hl]
      rfl
    induction n with
    | zero => rfl
    | succ n ih => rw [stateAt, stateAt, hs, ih]

private theorem interp_tr (eps : ℝ) (n : Nat) (x : Nat → ℝ) (fy : ℝ → Nat → ℝ) (y : Nat → Dual) (x0 u : ℝ) (a : Dual) (ha : a.v = x0)
    (hy : ∀ i, Tracks (fun t => fy t i) u (y i)) : Tracks (fun t => interpT eps n x (fy t) x0) u (interpT eps n x y a) := by
  unfold interpT
  dsimp only
  have h1 : ∀ z : ℝ, Num.val (a - (Num.lit z : Dual)) = x0 - z := fun z => by rw [← ha]; rfl
  have h2 : ∀ z : ℝ, Num.val (x0 - (Num.lit z : ℝ)) = x0 - z := fun z => rfl
  have h3 : (Num.val a : ℝ) = x0 := ha
  have h4 : Num.val x0 = x0 := rfl
  simp only [h1, h2, h3, h4]
  split_ifs
  · exact hy _
  · exact hy _
  · exact tr_add (hy _) (tr_mul (tr_lit _ u) (tr_sub (hy _) (hy _)))

private theorem interpVols_tr (eps : ℝ) (fs fr fq : ℝ → ℝ) (fv : ℝ → Nat → Nat → ℝ) (u : ℝ) (m : Dupire Dual)
    (hv : ∀ j k, Tracks (fun t => fv t j k) u (m.vols j k)) (line : Nat → ℝ) (i j : Nat) :
    Tracks (fun t => (⟨fs t, fr t, fq t, m.nS, m.spots, m.nT, m.times, fv t⟩ : Dupire ℝ).interpVols eps line i j) u (m.interpVols eps line i j) :=
  tr_mul (tr_lit _ u) (interp_tr eps m.nT m.times (fun t => fv t j) (m.vols j) (line i) u (Num.lit (line i)) rfl (hv j))

/-- C77, derivatives: in a Dupire model whose volatilities do not vary with the spot the path computed with `Number_` carries the derivatives of the real path, for every way
in which the parameters depend on a number. Missing for other volatilities: see `C77_spot_violated`. -/
theorem C77_dupire_gradient_partial (eps : ℝ) (fs fr fq : ℝ → ℝ) (fv : ℝ → Nat → ℝ) (u : ℝ) (m : Dupire Dual) (hS : 0 < m.nS) (hT : 0 < m.nT)
    (hs : Tracks fs u m.spot) (hr : Tracks fr u m.r) (hq : Tracks fq u m.q) (hv : ∀ j k, Tracks (fun t => fv t k) u (m.vols j k)) (h0 : fs u ≠ 0)
    (line gauss : Nat → ℝ) (n : Nat) :
    ∃ a, m.logAt eps line gauss n = some a ∧
      ∃ f : ℝ → ℝ, (∀ t, (⟨fs t, fr t, fq t, m.nS, m.spots, m.nT, m.times, fun _ => fv t⟩ : Dupire ℝ).logAt eps line gauss n = some (f t)) ∧
        Tracks (fun t => Real.exp (f t)) u (Num.exp a) := by
  refine ⟨_, by rw [Dupire.logAt, if_neg (by omega)], fun t => stateAt (Dupire.step eps ⟨fs t, fr t, fq t, m.nS, m.spots, m.nT, m.times, fun _ => fv t⟩ line gauss)
    (Num.log (fs t)) n, fun t => ?_, tr_exp ?_⟩
  · rw [Dupire.logAt, if_neg]
    rintro ⟨_, h | h⟩
    · exact absurd h (by show m.nS ≠ 0; omega)
    · exact absurd h (by show m.nT ≠ 0; omega)
  · have hcol : ∀ i j, m.interpVols eps line i j = m.interpVols eps line i 0 := by
      intro i j
      have : ∀ k, m.vols j k = m.vols 0 k := by
        intro k
        have a := hv j k
        have b := hv 0 k
        exact Dual.ext (a.1.trans b.1.symm) (a.2.unique b.2)
      rw [Dupire.interpVols, Dupire.interpVols, funext this]
    have dz : ∀ (c : Dual) (g : ℝ), c + (Num.lit g : Dual) * (c - c) = c := by
      intro c g
      apply Dual.ext
      · show c.v + g * (c.v - c.v) = c.v; ring
      · show c.d + (0 * (c.v - c.v) + g * (c.d - c.d)) = c.d; ring
    induction n with
    | zero => exact tr_log hs (by rw [hs.1]; exact h0)
    | succ n ih =>
      have hl : ∀ x, m.localVol eps line n x = m.interpVols eps line n 0 := fun x =>
        interp_const eps m.nS m.logSpots _ x _ hS (fun j _ => hcol n j) (dz _)
      have hlr : ∀ t x, (⟨fs t, fr t, fq t, m.nS, m.spots, m.nT, m.times, fun _ => fv t⟩ : Dupire ℝ).localVol eps line n x =
          (⟨fs t, fr t, fq t, m.nS, m.spots, m.nT, m.times, fun _ => fv t⟩ : Dupire ℝ).interpVols eps line n 0 := fun t x =>
        interp_const eps m.nS _ _ x _ hS (fun j _ => rfl) (by intro g; rw [sub_self, mul_zero, add_zero])
      have hvol := interpVols_tr eps fs fr fq (fun t _ => fv t) u m hv line n 0
      simp only [stateAt, Dupire.step, hl, hlr]
      exact tr_add ih (tr_add (tr_mul (tr_lit _ u) (tr_sub hr hq)) (tr_mul hvol (tr_add (tr_mul (tr_lit _ u) hvol) (tr_lit _ u))))

/-- One volatility that moves with the number, at both spots. -/
example : ∃ a, (⟨⟨100, 0⟩, ⟨0.03, 0⟩, ⟨0.01, 0⟩, 2, fun i => 90 + 20 * i, 1, fun _ => 0, fun _ _ => ⟨0.2, 1⟩⟩ : Dupire Dual).logAt 1 (fun i => i) (fun _ => 1) 3 = some a ∧
    ∃ f : ℝ → ℝ, (∀ t, (⟨100, 0.03, 0.01, 2, fun i => 90 + 20 * i, 1, fun _ => 0, fun _ _ => t⟩ : Dupire ℝ).logAt 1 (fun i => i) (fun _ => 1) 3 = some (f t)) ∧
      Tracks (fun t => Real.exp (f t)) 0.2 (Num.exp a) :=
  C77_dupire_gradient_partial 1 (fun _ => 100) (fun _ => 0.03) (fun _ => 0.01) (fun t _ => t) 0.2
    ⟨⟨100, 0⟩, ⟨0.03, 0⟩, ⟨0.01, 0⟩, 2, fun i => 90 + 20 * i, 1, fun _ => 0, fun _ _ => ⟨0.2, 1⟩⟩ (by decide) (by decide) (tr_lit _ _) (tr_lit _ _) (tr_lit _ _)
    (fun _ _ => ⟨rfl, hasDerivAt_id _⟩) (by norm_num) _ _ 3

/-- C77, derivatives: after the first step the derivatives with respect to everything but the spot are those of the real path, for all volatilities. -/
theorem C77_first_step_gradient (eps : ℝ) (s : ℝ) (fr fq : ℝ → ℝ) (fv : ℝ → Nat → Nat → ℝ) (u : ℝ) (m : Dupire Dual)
    (hs : m.spot = Num.lit s) (hr : Tracks fr u m.r) (hq : Tracks fq u m.q) (hv : ∀ j k, Tracks (fun t => fv t j k) u (m.vols j k)) (line gauss : Nat → ℝ) :
    Tracks (fun t => (⟨s, fr t, fq t, m.nS, m.spots, m.nT, m.times, fv t⟩ : Dupire ℝ).step eps line gauss 0 (Real.log s)) u
      (m.step eps line gauss 0 (Num.log m.spot)) := by
  have hvol := interp_tr eps m.nS m.logSpots _ _ (Real.log s) u (Num.log m.spot) (by rw [hs]; rfl) (fun j => interpVols_tr eps (fun _ => s) fr fq fv u m hv line 0 j)
  have hlog : Tracks (fun _ => Real.log s) u (Num.log m.spot) := by
    rw [hs]
    refine ⟨rfl, ?_⟩
    have : (Num.log (Num.lit s : Dual)).d = 0 := zero_div _
    rw [this]
    exact hasDerivAt_const u _
  exact tr_add hlog (tr_add (tr_mul (tr_lit _ u) (tr_sub hr hq)) (tr_mul hvol (tr_add (tr_mul (tr_lit _ u) hvol) (tr_lit _ u))))

/-- The sensitivity to the volatility at the second spot. -/
example : Tracks (fun t => (⟨100, 0.03, 0.01, 2, fun i => 90 + 20 * i, 1, fun _ => 0, fun j _ => if j = 0 then 0.2 else t⟩ : Dupire ℝ).step 1 (fun i => i) (fun _ => 1) 0
    (Real.log 100)) 0.3 ((⟨⟨100, 0⟩, ⟨0.03, 0⟩, ⟨0.01, 0⟩, 2, fun i => 90 + 20 * i, 1, fun _ => 0, fun j _ => if j = 0 then ⟨0.2, 0⟩ else ⟨0.3, 1⟩⟩ : Dupire Dual).step 1
      (fun i => i) (fun _ => 1) 0 (Num.log ⟨100, 0⟩)) :=
  C77_first_step_gradient 1 100 (fun _ => 0.03) (fun _ => 0.01) (fun t j _ => if j = 0 then 0.2 else t) 0.3
    ⟨⟨100, 0⟩, ⟨0.03, 0⟩, ⟨0.01, 0⟩, 2, fun i => 90 + 20 * i, 1, fun _ => 0, fun j _ => if j = 0 then ⟨0.2, 0⟩ else ⟨0.3, 1⟩⟩ rfl (tr_lit _ _) (tr_lit _ _)
    (fun j k => by
      by_cases h : j = 0
      · simp only [if_pos h]; exact tr_lit _ _
      · simp only [if_neg h]; exact ⟨rfl, hasDerivAt_id _⟩) _ _

private theorem interp_d0 (eps : ℝ) (n : Nat) (x : Nat → ℝ) (y : Nat → Dual) (x0 : Dual) (hy : ∀ i, (y i).d = 0) : (interpT eps n x y x0).d = 0 := by
  unfold interpT
  dsimp only
  split_ifs
  · exact hy _
  · exact hy _
  · show (y _).d + (0 * _ + _ * ((y _).d - (y _).d)) = 0
    rw [hy, hy, sub_self, mul_zero, zero_mul, add_zero, add_zero]

/-- C77: the derivative with respect to the spot that a Dupire path computed with `Number_` carries is that of Black–Scholes, the spot over the spot of today, whatever the
volatilities: how the volatility varies with the spot is lost. -/
theorem C77_spot_derivative (eps : ℝ) (m : Dupire Dual) (hr : m.r.d = 0) (hq : m.q.d = 0) (hv : ∀ j k, (m.vols j k).d = 0) (h1 : m.spot.d = 1) (line gauss : Nat → ℝ)
    (n : Nat) (a : Dual) (ha : m.logAt eps line gauss n = some a) : (Num.exp a : Dual).d = (Num.exp a : Dual).v / m.spot.v := by
  unfold Dupire.logAt at ha
  split_ifs at ha
  cases ha
  suffices h : ∀ n, (stateAt (m.step eps line gauss) (Num.log m.spot) n).d = 1 / m.spot.v by
    show (stateAt (m.step eps line gauss) (Num.log m.spot) n).d * Real.exp _ = Real.exp _ / m.spot.v
    rw [h]
    ring
  intro n
  induction n with
  | zero => show m.spot.d / m.spot.v = _; rw [h1]
  | succ n ih =>
    have hi : ∀ j, (m.interpVols eps line n j).d = 0 := by
      intro j
      show 0 * _ + _ * (interpT eps m.nT m.times (m.vols j) (Num.lit (line n))).d = 0
      rw [interp_d0 _ _ _ _ _ (hv j), zero_mul, mul_zero, add_zero]
    have hl : ∀ x, (m.localVol eps line n x).d = 0 := fun x => interp_d0 _ _ _ _ _ hi
    rw [stateAt]
    show (stateAt (m.step eps line gauss) (Num.log m.spot) n).d + ((0 * _ + _ * (m.r.d - m.q.d)) + ((m.localVol eps line n _).d * _ + _ * ((0 * _ + _ * (m.localVol eps line n _).d) + 0))) = _
    rw [hl, hr, hq, ih]
    ring

example : ∃ a, (⟨⟨100, 1⟩, ⟨0.03, 0⟩, ⟨0.01, 0⟩, 2, fun i => 90 + 20 * i, 1, fun _ => 0, fun j _ => ⟨0.2 + 0.1 * j, 0⟩⟩ : Dupire Dual).logAt 1 (fun i => i) (fun _ => 1) 3 =
    some a ∧ (Num.exp a : Dual).d = (Num.exp a : Dual).v / 100 :=
  ⟨_, rfl, C77_spot_derivative 1 ⟨⟨100, 1⟩, ⟨0.03, 0⟩, ⟨0.01, 0⟩, 2, fun i => 90 + 20 * i, 1, fun _ => 0, fun j _ => ⟨0.2 + 0.1 * j, 0⟩⟩ rfl rfl (fun _ _ => rfl) rfl
    (fun i => i) (fun _ => 1) 3 _ rfl⟩

/-- Two spots, 1 and e, one time, volatility `0` at the first and `c` at the second. -/
private noncomputable def skew {T : Type} [Num T] (s c : T) : Dupire T :=
  ⟨s, Num.lit 0, Num.lit 0, 2, fun i => Real.exp i, 1, fun _ => 0, fun j _ => if j = 0 then Num.lit 0 else c⟩

private theorem skew_log {T : Type} [Num T] (s c : T) : (skew s c).logSpots = fun i : Nat => (i : ℝ) := funext fun i => Real.log_exp _

private theorem skew_step (eps : ℝ) (he : 0 ≤ eps) (he1 : eps ≤ 1 / 4) (s c x : ℝ) (hx : 0 < x) (hx1 : x ≤ 3 / 4) (i : Nat) :
    (skew s c).step eps (fun i => i) (fun _ => 0) i x = x - c ^ 2 * x ^ 2 / 2 := by
  have hiv : ∀ j, (skew s c).interpVols eps (fun i => i) i j = if j = 0 then 0 else c := by
    intro j
    rw [Dupire.interpVols, interp_const eps (skew s c).nT (skew s c).times ((skew s c).vols j) _ (if j = 0 then 0 else c) (by show 0 < 1; decide) (fun k hk => rfl) (by intro g; rw [sub_self, mul_zero, add_zero])]
    simp only [litR]
    push_cast
    rw [add_sub_cancel_left, Real.sqrt_one, one_mul]
  have hl : (skew s c).localVol eps (fun i => i) i x = c * x := by
    rw [Dupire.localVol, skew_log, show (skew s c).nS = 2 from rfl,
      interp_line eps 2 _ _ x (fun z => rfl) (fun a b h _ => by exact_mod_cast h) 0 (by decide) (by simpa [valR] using hx) (by norm_num [valR]; linarith) he, hiv, hiv]
    norm_num [litR, valR]
    ring
  rw [Dupire.step, hl, Dupire.drift]
  simp only [litR, skew]
  ring

/-- C77 fails for the derivative with respect to the spot when the volatility varies with the spot: after one step the real derivative is half of what the path carries. -/
theorem C77_spot_violated (eps : ℝ) (he : 0 ≤ eps) (he1 : eps ≤ 1 / 4) : ∃ (m : ℝ → Dupire ℝ) (md : Dupire Dual) (line gauss : Nat → ℝ) (s d : ℝ) (f : ℝ → ℝ) (a : Dual),
    md = { spot := ⟨s, 1⟩, r := Num.lit (m s).r, q := Num.lit (m s).q, nS := (m s).nS, spots := (m s).spots, nT := (m s).nT, times := (m s).times,
           vols := fun i j => Num.lit ((m s).vols i j) } ∧ (∀ u, m u = { m s with spot := u }) ∧ 0 < s ∧ (∀ u, (m u).logAt eps line gauss 1 = some (f u)) ∧
      md.logAt eps line gauss 1 = some a ∧ a.v = f s ∧ HasDerivAt f d s ∧ d ≠ 0 ∧ a.d = 2 * d := by
  have hs : 0 < Real.exp (1 / 2) := Real.exp_pos _
  refine ⟨fun u => skew u 1, ⟨⟨Real.exp (1 / 2), 1⟩, Num.lit 0, Num.lit 0, 2, fun i => Real.exp i, 1, fun _ => 0, fun j _ => Num.lit (if j = 0 then 0 else 1)⟩,
    fun i => i, fun _ => 0, Real.exp (1 / 2), 1 / Real.exp (1 / 2) / 2, fun u => (skew u 1).step eps (fun i => i) (fun _ => 0) 0 (Real.log u), _, rfl, fun u => rfl, hs,
    fun u => rfl, rfl, ?_, ?_, ?_, ?_⟩
  · have := C77_same_values eps ⟨⟨Real.exp (1 / 2), 1⟩, Num.lit 0, Num.lit 0, 2, fun i => Real.exp i, 1, fun _ => 0, fun j _ => Num.lit (if j = 0 then 0 else 1)⟩
      (fun i => i) (fun _ => 0) 1
    exact Option.some.inj this
  · have h1 : HasDerivAt (fun u => Real.log u - 1 ^ 2 * Real.log u ^ 2 / 2) (1 / Real.exp (1 / 2) / 2) (Real.exp (1 / 2)) := by
      have h2 := Real.hasDerivAt_log hs.ne'
      have h3 := h2.sub (((h2.pow 2).const_mul (1 ^ 2)).div_const 2)
      exact h3.congr_deriv (by rw [Real.log_exp]; ring)
    refine h1.congr_of_eventuallyEq ?_
    have hev : ∀ᶠ u in nhds (Real.exp (1 / 2)), u ∈ Set.Ioo (Real.exp 0) (Real.exp (3 / 4)) :=
      Ioo_mem_nhds (Real.exp_lt_exp.2 (by norm_num)) (Real.exp_lt_exp.2 (by norm_num))
    filter_upwards [hev] with u hu
    have hu0 : 0 < u := lt_trans (Real.exp_pos _) hu.1
    exact skew_step eps he he1 u 1 (Real.log u) ((Real.lt_log_iff_exp_lt hu0).2 hu.1) ((Real.log_lt_iff_lt_exp hu0).2 hu.2).le 0
  · positivity
  · have := C77_spot_derivative eps ⟨⟨Real.exp (1 / 2), 1⟩, Num.lit 0, Num.lit 0, 2, fun i => Real.exp i, 1, fun _ => 0, fun j _ => Num.lit (if j = 0 then 0 else 1)⟩
      rfl rfl (fun _ _ => rfl) rfl (fun i => i) (fun _ => 0) 1 _ rfl
    have h2 : ∀ b : Dual, (Num.exp b : Dual).d = (Num.exp b : Dual).v / Real.exp (1 / 2) → b.d = 2 * (1 / Real.exp (1 / 2) / 2) := by
      intro b hb
      have hb' : b.d * Real.exp b.v = Real.exp b.v / Real.exp (1 / 2) := hb
      have := (Real.exp_pos b.v).ne'
      field_simp at hb' ⊢
      linarith
    exact h2 _ this

private theorem skew_step_dual (eps : ℝ) (he : 0 ≤ eps) (he1 : eps ≤ 1 / 4) (s c x : Dual) (hx : 0 < x.v) (hx1 : x.v ≤ 3 / 4) (i : Nat) :
    (skew s c).step eps (fun i => i) (fun _ => 0) i x = ⟨x.v - c.v ^ 2 * x.v ^ 2 / 2, x.d - c.v * c.d * x.v ^ 2⟩ := by
  have dz : ∀ (c : Dual) (g : ℝ), c + (Num.lit g : Dual) * (c - c) = c := by
    intro c g
    apply Dual.ext
    · show c.v + g * (c.v - c.v) = c.v; ring
    · show c.d + (0 * (c.v - c.v) + g * (c.d - c.d)) = c.d; ring
  have hiv : ∀ j, (skew s c).interpVols eps (fun i => i) i j = if j = 0 then Num.lit 0 else c := by
    intro j
    rw [Dupire.interpVols, interp_const eps (skew s c).nT (skew s c).times ((skew s c).vols j) _ (if j = 0 then Num.lit 0 else c) (by show 0 < 1; decide)
      (fun k hk => rfl) (dz _)]
    push_cast
    rw [add_sub_cancel_left, Real.sqrt_one]
    generalize (if j = 0 then (Num.lit 0 : Dual) else c) = w
    apply Dual.ext
    · show 1 * w.v = w.v; ring
    · show 0 * w.v + 1 * w.d = w.d; ring
  have hl : (skew s c).localVol eps (fun i => i) i x = ⟨c.v * x.v, c.d * x.v⟩ := by
    have h1 : ((0 : Nat) : ℝ) < (Num.val x : ℝ) := by rw [Nat.cast_zero]; exact hx
    have h2 : (Num.val x : ℝ) + eps ≤ ((0 + 1 : Nat) : ℝ) := by
      have : (Num.val x : ℝ) ≤ 3 / 4 := hx1
      push_cast
      linarith
    rw [Dupire.localVol, skew_log, show (skew s c).nS = 2 from rfl,
      interp_line eps 2 _ _ x (fun z => rfl) (fun a b h _ => by exact_mod_cast h) 0 (by decide) h1 h2 he, hiv, hiv, if_pos rfl, if_neg (by decide)]
    have h3 : ((Num.val x : ℝ) - ((0 : Nat) : ℝ)) / (((0 + 1 : Nat) : ℝ) - ((0 : Nat) : ℝ)) = x.v := by
      show (x.v - ((0 : Nat) : ℝ)) / (((0 + 1 : Nat) : ℝ) - ((0 : Nat) : ℝ)) = x.v
      norm_num
    rw [h3]
    apply Dual.ext
    · show 0 + x.v * (c.v - 0) = c.v * x.v; ring
    · show 0 + (0 * (c.v - 0) + x.v * (c.d - 0)) = c.d * x.v; ring
  rw [Dupire.step, hl, Dupire.drift]
  apply Dual.ext
  · show x.v + ((((i + 1 : Nat) : ℝ) - (i : ℝ)) * (0 - 0) + c.v * x.v * (-0.5 * (c.v * x.v) + 0)) = x.v - c.v ^ 2 * x.v ^ 2 / 2
    ring
  · show x.d + ((0 * (0 - 0) + (((i + 1 : Nat) : ℝ) - (i : ℝ)) * (0 - 0)) + (c.d * x.v * (-0.5 * (c.v * x.v) + 0) +
      c.v * x.v * ((0 * (c.v * x.v) + -0.5 * (c.d * x.v)) + 0))) = x.d - c.v * c.d * x.v ^ 2
    ring

/-- C77 fails for the derivative with respect to a volatility from the second step on, when the volatility varies with the spot: the path carries `-25/64` where the real
derivative is `-19/64`. -/
theorem C77_vega_violated (eps : ℝ) (he : 0 ≤ eps) (he1 : eps ≤ 1 / 4) : ∃ (m : ℝ → Dupire ℝ) (md : Dupire Dual) (line gauss : Nat → ℝ) (f : ℝ → ℝ) (a : Dual),
    md.spot = Num.lit (m 1).spot ∧ md.r = Num.lit (m 1).r ∧ md.q = Num.lit (m 1).q ∧ md.nS = (m 1).nS ∧ md.spots = (m 1).spots ∧ md.nT = (m 1).nT ∧
      md.times = (m 1).times ∧ (∀ u, m u = { m 1 with vols := (m u).vols }) ∧ (∀ j k, Tracks (fun u => (m u).vols j k) 1 (md.vols j k)) ∧
      (∀ u, (m u).logAt eps line gauss 2 = some (f u)) ∧ md.logAt eps line gauss 2 = some a ∧ HasDerivAt f (-19 / 64) 1 ∧ a.d = -25 / 64 := by
  refine ⟨fun u => skew (Real.exp (1 / 2)) u, skew (Num.lit (Real.exp (1 / 2))) ⟨1, 1⟩, fun i => i, fun _ => 0,
    fun u => (skew (Real.exp (1 / 2)) u).step eps (fun i => i) (fun _ => 0) 1 ((skew (Real.exp (1 / 2)) u).step eps (fun i => i) (fun _ => 0) 0 (Real.log (Real.exp (1 / 2)))),
    _, rfl, rfl, rfl, rfl, rfl, rfl, rfl, fun u => rfl, ?_, fun u => rfl, rfl, ?_, ?_⟩
  · intro j k
    by_cases hj : j = 0
    · simp only [skew, if_pos hj]
      exact tr_lit 0 1
    · simp only [skew, if_neg hj]
      exact ⟨rfl, hasDerivAt_id 1⟩
  · have h1 : HasDerivAt (fun u : ℝ => (1 / 2 - u ^ 2 * (1 / 2) ^ 2 / 2) - u ^ 2 * (1 / 2 - u ^ 2 * (1 / 2) ^ 2 / 2) ^ 2 / 2) (-19 / 64) 1 := by
      have hu : HasDerivAt (fun u : ℝ => u ^ 2) (2 * 1) 1 := by
        have := (hasDerivAt_id (1 : ℝ)).pow 2
        exact this.congr_deriv (by simp)
      have hx : HasDerivAt (fun u : ℝ => 1 / 2 - u ^ 2 * (1 / 2) ^ 2 / 2) (-1 / 4) 1 := by
        have := ((hu.mul_const ((1 / 2 : ℝ) ^ 2)).div_const 2).const_sub (1 / 2)
        exact this.congr_deriv (by norm_num)
      have := hx.sub ((hu.mul (hx.pow 2)).div_const 2)
      exact this.congr_deriv (by norm_num)
    refine h1.congr_of_eventuallyEq ?_
    have hev : ∀ᶠ u in nhds (1 : ℝ), u ∈ Set.Ioo (0 : ℝ) (3 / 2) := Ioo_mem_nhds (by norm_num) (by norm_num)
    filter_upwards [hev] with u hu
    have hu2 : u ^ 2 < 9 / 4 := by nlinarith [hu.1, hu.2]
    have hu0 : 0 < u ^ 2 := by have := hu.1; positivity
    rw [Real.log_exp, skew_step eps he he1 _ u (1 / 2) (by norm_num) (by norm_num) 0,
      skew_step eps he he1 _ u _ (by linarith) (by linarith) 1]
  · have h0 : (Num.log (Num.lit (Real.exp (1 / 2)) : Dual) : Dual) = ⟨1 / 2, 0⟩ := by
      apply Dual.ext
      · exact Real.log_exp _
      · exact zero_div _
    have hst : ∀ x0 : Dual, x0 = ⟨1 / 2, 0⟩ →
        (stateAt ((skew (Num.lit (Real.exp (1 / 2))) (⟨1, 1⟩ : Dual)).step eps (fun i => i) (fun _ => 0)) x0 2).d = -25 / 64 := by
      intro x0 hx0
      rw [stateAt, stateAt, stateAt, hx0, skew_step_dual eps he he1 _ _ ⟨1 / 2, 0⟩ (by norm_num) (by norm_num), skew_step_dual eps he he1 _ _ _ (by norm_num) (by norm_num)]
      norm_num
    exact hst _ h0

/-! ## Scenarios -/

/-- What a product may rely on at the date `t` with definition `d`, when the spot is `x`: the spot, the money market account if it is asked for (one otherwise), and the
values at `t` of one unit paid at each maturity. -/
structure SampleOk (m : Dupire ℝ) (t : ℝ) (d : SampleDef) (x : ℝ) (s : Sample ℝ) : Prop where
  spot : s.spot = x
  numeraire : s.numeraire = if d.numeraire then Real.exp (m.r * t) else 1
  discounts : s.discounts = d.discountMats.map fun mat => Real.exp (m.r * t) / Real.exp (m.r * mat)

private theorem mapM_all {A B : Type} (f : A → Option B) : ∀ (l : List A) (l' : List B), l.map f = l'.map some → l.mapM f = some l' := by
  intro l
  induction l with
  | nil => intro l' h; cases l' with
    | nil => rfl
    | cons => cases h
  | cons a l ih =>
    intro l' h
    cases l' with
    | nil => cases h
    | cons b l' =>
      rw [List.map_cons, List.map_cons, List.cons.injEq] at h
      rw [List.mapM_cons, h.1, ih l' h.2]
      rfl

/-- C77, scenarios: when the line contains the product dates, every entry of the path is filled with the spot that the simulation has at its product date, the numeraire and the
discounts. -/
theorem C77_scenario (eps : ℝ) (m : Dupire ℝ) (product : List ℝ) (defs : List SampleDef) (line : List ℝ) (gauss : Nat → ℝ) (hp : product.IsChain (· < ·))
    (hf : line.filter (fun t => decide (t ∈ product)) = product) (hd : defs.length = product.length) (hfw : ∀ d ∈ defs, d.forwardMats ≠ []) (hS : 0 < m.nS) (hT : 0 < m.nT) :
    ∃ path, m.scenario eps product defs line gauss = some path ∧ path.length = product.length ∧
      ∀ k (hk : k < product.length), ∃ pos x s, (line)[pos]? = some product[k] ∧ m.logAt eps (fun i => line.getD i 0) gauss pos = some x ∧
        path[k]? = some s ∧ SampleOk m product[k] (defs[k]'(by omega)) (Real.exp x) s := by
  obtain ⟨w, w1, w2, w3, w4⟩ := C63_paths (m.step eps (fun i => line.getD i 0) gauss) (Num.log m.spot) line product hf
  have hfl : line.map (onLine product) = line.map fun t => decide (t ∈ product) :=
    List.map_congr_left fun t _ => by
      rw [Bool.eq_iff_iff, decide_eq_true_eq]
      exact onLine_iff product hp t
  have hlen : w.length = product.length := by have := congrArg List.length w2; rwa [List.length_map, List.length_range] at this
  have hidx : ∀ k (hk : k < w.length), w[k].idx = k := by
    intro k hk
    have : (w.map (·.idx))[k]? = some k := by rw [w2, List.getElem?_range (by omega)]
    rw [List.getElem?_map, List.getElem?_eq_getElem hk] at this
    exact Option.some.inj this
  have hpos : ∀ k (hk : k < w.length), (line)[w[k].pos]? = some (product[k]'(by omega)) := by
    intro k hk
    have : (w.map (fun x => (line)[x.pos]?))[k]? = some (some (product[k]'(by omega))) := by
      rw [w3, List.getElem?_map, List.getElem?_eq_getElem (by omega)]; rfl
    rw [List.getElem?_map, List.getElem?_eq_getElem hk] at this
    exact Option.some.inj this
  let F : Fill ℝ → Option (Sample ℝ) := fun f => (product[f.idx]?).bind fun t => (defs[f.idx]?).bind fun d => m.fill t d (Num.exp f.state) (Sample.init d)
  have hF : ∀ k (hk : k < w.length), ∃ s, F w[k] = some s ∧ SampleOk m (product[k]'(by omega)) (defs[k]'(by omega)) (Real.exp w[k].state) s := by
    intro k hk
    have hd1 := hfw (defs[k]'(by omega)) (List.getElem_mem _)
    show ∃ s, ((product[w[k].idx]?).bind fun t => (defs[w[k].idx]?).bind fun d => m.fill t d (Num.exp w[k].state) (Sample.init d)) = some s ∧ _
    rw [hidx k hk, List.getElem?_eq_getElem (by omega : k < product.length), List.getElem?_eq_getElem (by omega : k < defs.length)]
    simp only [Option.bind_some]
    generalize defs[k]'(by omega) = d at hd1 ⊢
    cases hfm : d.forwardMats with
    | nil => exact absurd hfm hd1
    | cons f fs =>
      rw [Dupire.fill, Sample.init, hfm]
      refine ⟨_, rfl, rfl, ?_, ?_⟩
      · rfl
      · show d.discountMats.map _ = _
        refine List.map_congr_left fun mat _ => ?_
        rw [← Real.exp_sub]
        show Real.exp _ = _
        congr 1
        simp only [litR]
        ring
  choose s hs using hF
  let path := (List.range w.length).map fun k => if h : k < w.length then s k h else ⟨0, 0, [], []⟩
  have hpath : w.map F = path.map some := by
    apply List.ext_getElem?
    intro k
    by_cases hk : k < w.length
    · rw [List.getElem?_map, List.getElem?_map, List.getElem?_map, List.getElem?_range hk, List.getElem?_eq_getElem hk]
      simp only [Option.map_some, dif_pos hk]
      rw [(hs k hk).1]
    · rw [List.getElem?_eq_none (by rw [List.length_map]; omega), List.getElem?_eq_none (by simp [path]; omega)]
  refine ⟨path, ?_, by simp [path, hlen], fun k hk => ?_⟩
  · rw [Dupire.scenario, hfl, hd, w1, Option.bind_some, if_neg (by omega)]
    exact mapM_all F w path hpath
  · have hkw : k < w.length := by omega
    refine ⟨w[k].pos, w[k].state, s k hkw, hpos k hkw, ?_, ?_, (hs k hkw).2⟩
    · rw [Dupire.logAt, if_neg (by omega), w4 _ (List.getElem_mem _)]
    · rw [List.getElem?_map, List.getElem?_range hkw, Option.map_some, dif_pos hkw]

example : ∃ path, (⟨100, 0.03, 0.01, 1, fun _ => 100, 1, fun _ => 0, fun _ _ => 0.2⟩ : Dupire ℝ).scenario 1 [1, 2] [⟨true, [1], [[1]]⟩, ⟨true, [3], [[2]]⟩] [0, 1, 2]
    (fun _ => 1) = some path ∧ path.length = 2 := by
  obtain ⟨path, h1, h2, _⟩ := C77_scenario 1 (⟨100, 0.03, 0.01, 1, fun _ => 100, 1, fun _ => 0, fun _ _ => 0.2⟩ : Dupire ℝ) [1, 2]
    [⟨true, [1], [[1]]⟩, ⟨true, [3], [[2]]⟩] [0, 1, 2] (fun _ => 1) (by simp) (by norm_num [List.filter]) rfl (by simp) (by decide) (by decide)
  exact ⟨path, h1, h2⟩

/-- C77 fails for the forwards of a Dupire scenario: they are the spot, which is not the mean of the spot at the maturity of the forward unless the rate is the repo or there is
no time to it. -/
theorem C77_forward_violated (eps : ℝ) (m : Dupire ℝ) (line : Nat → ℝ) (i k : Nat) (x : ℝ) (d : SampleDef) (s : Sample ℝ) (f : List ℝ) (fs : List (List ℝ))
    (hd : d.forwardMats = [line (i + k)] :: []) (hs : m.fill (line i) d (Real.exp x) (Sample.init d) = some s) (hfs : s.forwards = f :: fs) :
    f = [meanSpot (fun i x g => m.step eps line (fun _ => g) i x) k i x] ↔ m.r = m.q ∨ line (i + k) = line i := by
  rw [C77_dupire_mean]
  rw [Dupire.fill, Sample.init, hd] at hs
  cases hs
  cases hfs
  show [Real.exp x] = _ ↔ _
  rw [List.cons.injEq, and_iff_left rfl, eq_comm, mul_eq_left₀ (Real.exp_pos x).ne', Real.exp_eq_one_iff, mul_eq_zero, sub_eq_zero, sub_eq_zero]

/-- C77 fails for a product without forwards: filling a Dupire scenario writes to the first vector of none. -/
theorem C77_no_forwards_violated (m : Dupire ℝ) (t x : ℝ) (d : SampleDef) (hd : d.forwardMats = []) : m.fill t d x (Sample.init d) = none := by
  rw [Dupire.fill, Sample.init, hd]
  rfl

/-- C77, the other forwards of a Dupire scenario: only the first vector is filled, the others stay at one. -/
theorem C77_forwards (m : Dupire ℝ) (t x : ℝ) (d : SampleDef) (f : List ℝ) (fs : List (List ℝ)) (hd : d.forwardMats = f :: fs) :
    ∃ s, m.fill t d x (Sample.init d) = some s ∧ s.forwards.map List.length = d.forwardMats.map List.length ∧ (∀ l, s.forwards.head? = some l → ∀ v ∈ l, v = x) ∧
      ∀ l ∈ s.forwards.tail, ∀ v ∈ l, v = 1 := by
  rw [Dupire.fill, Sample.init, hd]
  refine ⟨_, rfl, ?_, ?_, ?_⟩
  · show List.length (List.map _ (List.map _ f)) :: (List.map _ fs).map List.length = f.length :: fs.map List.length
    rw [List.length_map, List.length_map, List.map_map]
    exact congrArg _ (List.map_congr_left fun l _ => List.length_map _)
  · intro l hl v hv
    cases hl
    obtain ⟨_, _, rfl⟩ := List.mem_map.1 hv
    rfl
  · intro l hl v hv
    obtain ⟨a, _, rfl⟩ := List.mem_map.1 hl
    obtain ⟨_, _, rfl⟩ := List.mem_map.1 hv
    rfl

example : ∃ s, (⟨100, 0.03, 0.01, 1, fun _ => 100, 1, fun _ => 0, fun _ _ => 0.2⟩ : Dupire ℝ).fill 1 ⟨true, [], [[1, 2], [3]]⟩ 90
    (Sample.init ⟨true, [], [[1, 2], [3]]⟩) = some s ∧ ∀ l ∈ s.forwards.tail, ∀ v ∈ l, v = 1 := by
  obtain ⟨s, h1, _, _, h2⟩ := C77_forwards (⟨100, 0.03, 0.01, 1, fun _ => 100, 1, fun _ => 0, fun _ _ => 0.2⟩ : Dupire ℝ) 1 90 ⟨true, [], [[1, 2], [3]]⟩ [1, 2] [[3]] rfl
  exact ⟨s, h1, h2⟩

/-- C77, scenarios of Black–Scholes: the spot and the numeraire are filled as in a Dupire model, the forwards and the discounts stay at one. -/
theorem C77_bs_fill (b : BS ℝ) (t x : ℝ) (d : SampleDef) : (b.fill t d x (Sample.init d)).spot = x ∧
    (b.fill t d x (Sample.init d)).numeraire = (if d.numeraire then Real.exp (b.rate * t) else 1) ∧
    (∀ v ∈ (b.fill t d x (Sample.init d)).discounts, v = 1) ∧ (b.fill t d x (Sample.init d)).discounts.length = d.discountMats.length ∧
    (∀ l ∈ (b.fill t d x (Sample.init d)).forwards, ∀ v ∈ l, v = 1) ∧ (b.fill t d x (Sample.init d)).forwards.map List.length = d.forwardMats.map List.length := by
  refine ⟨rfl, rfl, ?_, ?_, ?_, ?_⟩
  · intro v hv
    obtain ⟨_, _, rfl⟩ := List.mem_map.1 hv
    rfl
  · exact List.length_map _
  · intro l hl v hv
    obtain ⟨a, _, rfl⟩ := List.mem_map.1 hl
    obtain ⟨_, _, rfl⟩ := List.mem_map.1 hv
    rfl
  · show (d.forwardMats.map fun l => l.map fun _ => (Num.lit 1 : ℝ)).map List.length = _
    rw [List.map_map]
    exact List.map_congr_left fun l _ => List.length_map _

/-- C77, scenarios of Black–Scholes, for either type of numbers: on the allocated time line every entry of the path is filled with the spot that the simulation has at its product date and the money market
account of that date, if it is asked for; the rest is one. -/
theorem C77_bs_scenario_any {T : Type} [Add T] [Sub T] [Mul T] [Num T] (b : BS T) (product : List ℝ) (defs : List SampleDef) (gauss : Nat → ℝ) (hne : product ≠ []) (hp : product.IsChain (· < ·))
    (h0 : ∀ t ∈ product, 0 ≤ t) (hd : defs.length = product.length) :
    ∃ line flags path, bsAllocate product = some (line, flags) ∧ b.scenario product defs line flags gauss = some path ∧ path.length = product.length ∧
      ∀ k (hk : k < product.length), ∃ pos, (line)[pos]? = some product[k] ∧
        path[k]? = some ⟨Num.exp (b.logAt (fun i => line.getD i 0) gauss pos), if (defs[k]'(by omega)).numeraire then b.numeraire product[k] else Num.lit 1,
          (defs[k]'(by omega)).discountMats.map fun _ => Num.lit 1, (defs[k]'(by omega)).forwardMats.map fun l => l.map fun _ => Num.lit 1⟩ := by
  obtain ⟨line, flags, ha, -, -, -, hflags, hf, -⟩ := C63_bs_line product hne hp h0
  obtain ⟨w, w1, w2, w3, w4⟩ := C63_paths (b.step (fun i => line.getD i 0) gauss) (Num.log b.spot) line product hf
  rw [← hflags] at w1
  have hlen : w.length = product.length := by have := congrArg List.length w2; rwa [List.length_map, List.length_range] at this
  have hidx : ∀ k (hk : k < w.length), w[k].idx = k := by
    intro k hk
    have : (w.map (·.idx))[k]? = some k := by rw [w2, List.getElem?_range (by omega)]
    rw [List.getElem?_map, List.getElem?_eq_getElem hk] at this
    exact Option.some.inj this
  have hpos : ∀ k (hk : k < w.length), (line)[w[k].pos]? = some (product[k]'(by omega)) := by
    intro k hk
    have : (w.map (fun x => (line)[x.pos]?))[k]? = some (some (product[k]'(by omega))) := by
      rw [w3, List.getElem?_map, List.getElem?_eq_getElem (by omega)]; rfl
    rw [List.getElem?_map, List.getElem?_eq_getElem hk] at this
    exact Option.some.inj this
  let F : Fill T → Option (Sample T) := fun f => (product[f.idx]?).bind fun t => (defs[f.idx]?).bind fun d => some (b.fill t d (Num.exp f.state) (Sample.init d))
  let s : ∀ k (_ : k < w.length), Sample T := fun k hk =>
    ⟨Num.exp w[k].state, if (defs[k]'(by omega)).numeraire then b.numeraire (product[k]'(by omega)) else Num.lit 1,
      (defs[k]'(by omega)).discountMats.map fun _ => Num.lit 1, (defs[k]'(by omega)).forwardMats.map fun l => l.map fun _ => Num.lit 1⟩
  have hF : ∀ k (hk : k < w.length), F w[k] = some (s k hk) := by
    intro k hk
    show ((product[w[k].idx]?).bind fun t => (defs[w[k].idx]?).bind fun d => some (b.fill t d (Num.exp w[k].state) (Sample.init d))) = _
    rw [hidx k hk, List.getElem?_eq_getElem (by omega : k < product.length), List.getElem?_eq_getElem (by omega : k < defs.length)]
    rfl
  let path := (List.range w.length).map fun k => if h : k < w.length then s k h else ⟨Num.lit 0, Num.lit 0, [], []⟩
  have hpath : w.map F = path.map some := by
    apply List.ext_getElem?
    intro k
    by_cases hk : k < w.length
    · rw [List.getElem?_map, List.getElem?_map, List.getElem?_map, List.getElem?_range hk, List.getElem?_eq_getElem hk]
      simp only [Option.map_some, dif_pos hk]
      rw [hF k hk]
    · rw [List.getElem?_eq_none (by rw [List.length_map]; omega), List.getElem?_eq_none (by simp [path]; omega)]
  refine ⟨line, flags, path, ha, ?_, by simp [path, hlen], fun k hk => ?_⟩
  · rw [BS.scenario, hd, w1, Option.bind_some]
    exact mapM_all F w path hpath
  · have hkw : k < w.length := by omega
    refine ⟨w[k].pos, hpos k hkw, ?_⟩
    rw [BS.logAt, ← w4 _ (List.getElem_mem hkw), List.getElem?_map, List.getElem?_range hkw, Option.map_some, dif_pos hkw]

/-- C77, scenarios of Black–Scholes: on the allocated time line every entry of the path is filled with the spot that the simulation has at its product date and the money market
account of that date, if it is asked for; the rest is one. -/
theorem C77_bs_scenario (b : BS ℝ) (product : List ℝ) (defs : List SampleDef) (gauss : Nat → ℝ) (hne : product ≠ []) (hp : product.IsChain (· < ·))
    (h0 : ∀ t ∈ product, 0 ≤ t) (hd : defs.length = product.length) :
    ∃ line flags path, bsAllocate product = some (line, flags) ∧ b.scenario product defs line flags gauss = some path ∧ path.length = product.length ∧
      ∀ k (hk : k < product.length), ∃ pos, (line)[pos]? = some product[k] ∧
        path[k]? = some ⟨Real.exp (b.logAt (fun i => line.getD i 0) gauss pos), if (defs[k]'(by omega)).numeraire then Real.exp (b.rate * product[k]) else 1,
          (defs[k]'(by omega)).discountMats.map fun _ => 1, (defs[k]'(by omega)).forwardMats.map fun l => l.map fun _ => 1⟩ :=
  C77_bs_scenario_any b product defs gauss hne hp h0 hd

example : ∃ line flags path, bsAllocate [(0 : ℝ), 1] = some (line, flags) ∧
    (⟨100, 0.2, 0.03, 0.01⟩ : BS ℝ).scenario [0, 1] [⟨true, [], []⟩, ⟨true, [2], []⟩] line flags (fun _ => 1) = some path ∧ path.length = 2 := by
  obtain ⟨l, f, p, h1, h2, h3, _⟩ := C77_bs_scenario (⟨100, 0.2, 0.03, 0.01⟩ : BS ℝ) [0, 1] [⟨true, [], []⟩, ⟨true, [2], []⟩] (fun _ => 1) (by simp) (by simp) (by simp) rfl
  exact ⟨l, f, p, h1, h2, h3⟩

/-- The same with numbers that carry derivatives. -/
example : ∃ line flags path, bsAllocate [(0 : ℝ), 1] = some (line, flags) ∧
    (⟨⟨100, 1⟩, ⟨0.03, 0⟩, ⟨0.01, 0⟩, ⟨0.2, 0⟩⟩ : BS Dual).scenario [0, 1] [⟨true, [], []⟩, ⟨true, [2], []⟩] line flags (fun _ => 1) = some path ∧ path.length = 2 := by
  obtain ⟨l, f, p, h1, h2, h3, _⟩ := C77_bs_scenario_any (⟨⟨100, 1⟩, ⟨0.03, 0⟩, ⟨0.01, 0⟩, ⟨0.2, 0⟩⟩ : BS Dual) [0, 1] [⟨true, [], []⟩, ⟨true, [2], []⟩] (fun _ => 1)
    (by simp) (by simp) (by simp) rfl
  exact ⟨l, f, p, h1, h2, h3⟩

end Dal
