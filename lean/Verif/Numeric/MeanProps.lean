import Verif.Numeric.MeanLemmas
import Mathlib.Analysis.Complex.ExponentialBounds
import Mathlib.Tactic.LinearCombination

/-!
# C97: the closed-form prices are means of the payoff

Specification: the mean of the payoff over a normally distributed number, written as a Lebesgue integral; under Black the spot is the exponential of a normal number with the forward
as its mean, under Bachelier it is the forward plus a normal number.
-/

namespace Dal
open Dal.Numeric Real MeasureTheory ProbabilityTheory Set

/-- The mean of a payoff when the spot at expiry is log-normal with mean `fwd`. -/
noncomputable def lognormalMean (p : ℝ → ℝ) (fwd vol : ℝ) : ℝ := ∫ g, p (fwd * exp (vol * g - vol * vol / 2)) ∂gaussianReal 0 1

/-- The mean of a payoff when the spot at expiry is normal with mean `fwd`. -/
noncomputable def normalMean (p : ℝ → ℝ) (fwd vol : ℝ) : ℝ := ∫ g, p (fwd + vol * g) ∂gaussianReal 0 1

private theorem spot_integrable (f v : ℝ) : Integrable (fun g : ℝ => f * exp (v * g - v * v / 2)) (gaussianReal 0 1) := by
  have h := integrable_exp (f * exp (-(v * v / 2))) v 0 1
  refine h.congr (Filter.Eventually.of_forall fun g => ?_)
  show f * exp (-(v * v / 2)) * exp (v * g) = f * exp (v * g - v * v / 2)
  rw [mul_assoc, ← Real.exp_add]
  congr 2
  ring

private theorem spot_mean (f v : ℝ) : ∫ g : ℝ, f * exp (v * g - v * v / 2) ∂gaussianReal 0 1 = f := by
  have h := congrFun (mgf_id_gaussianReal (μ := 0) (v := 1)) v
  simp only [mgf, id] at h
  have h1 : ∀ g : ℝ, f * exp (v * g - v * v / 2) = f * exp (-(v * v / 2)) * exp (v * g) := by
    intro g; rw [mul_assoc, ← Real.exp_add]; congr 2; ring
  simp only [h1]
  rw [integral_const_mul, h, mul_assoc, ← Real.exp_add]
  have : -(v * v / 2) + (0 * v + ((1 : NNReal) : ℝ) * v ^ 2 / 2) = 0 := by
    rw [NNReal.coe_one]; ring
  rw [this, Real.exp_zero, mul_one]

private theorem id_integrable : Integrable (fun g : ℝ => g) (gaussianReal 0 1) := (memLp_id_gaussianReal 1).integrable le_rfl

private theorem call_integrable {X : ℝ → ℝ} (h : Integrable X (gaussianReal 0 1)) (k : ℝ) : Integrable (fun g => max 0 (X g - k)) (gaussianReal 0 1) := by
  have := (h.sub (integrable_const k)).pos_part
  refine this.congr (Filter.Eventually.of_forall fun g => ?_)
  show max (X g - k) 0 = max 0 (X g - k)
  exact max_comm _ _

private theorem put_of_call {X : ℝ → ℝ} (h : Integrable X (gaussianReal 0 1)) (k : ℝ) :
    ∫ g, max 0 (k - X g) ∂gaussianReal 0 1 = ∫ g, max 0 (X g - k) ∂gaussianReal 0 1 - (∫ g, X g ∂gaussianReal 0 1 - k) := by
  have h1 : ∀ g, max 0 (k - X g) = max 0 (X g - k) - (X g - k) := by
    intro g
    rcases le_total (X g) k with hc | hc
    · rw [max_eq_right (by linarith), max_eq_left (by linarith)]; ring
    · rw [max_eq_left (by linarith), max_eq_right (by linarith)]; ring
  simp only [h1]
  rw [integral_sub (call_integrable h k) (show Integrable (fun g => X g - k) _ from h.sub (integrable_const k)), integral_sub h (integrable_const k), integral_const]
  simp

private theorem straddle_of_call {X : ℝ → ℝ} (h : Integrable X (gaussianReal 0 1)) (k : ℝ) :
    ∫ g, |X g - k| ∂gaussianReal 0 1 = 2 * ∫ g, max 0 (X g - k) ∂gaussianReal 0 1 - (∫ g, X g ∂gaussianReal 0 1 - k) := by
  have h1 : ∀ g, |X g - k| = 2 * max 0 (X g - k) - (X g - k) := by
    intro g
    rcases le_total (X g) k with hc | hc
    · rw [abs_of_nonpos (by linarith), max_eq_left (by linarith)]; ring
    · rw [abs_of_nonneg (by linarith), max_eq_right (by linarith)]; ring
  simp only [h1]
  rw [integral_sub ((call_integrable h k).const_mul 2) (show Integrable (fun g => X g - k) _ from h.sub (integrable_const k)), integral_sub h (integrable_const k), integral_const, integral_const_mul]
  simp

private theorem black_call_mean {f v k : ℝ} (hf : 0 < f) (hk : 0 < k) (hv : 0 < v) :
    lognormalMean (fun s => max 0 (s - k)) f v = f * ncdf (dMinus f v k + v) - k * ncdf (dMinus f v k) := call_mean hf hk hv

private theorem black_put_mean {f v k : ℝ} (hf : 0 < f) (hk : 0 < k) (hv : 0 < v) :
    lognormalMean (fun s => max 0 (k - s)) f v = k * ncdf (-dMinus f v k) - f * ncdf (-(dMinus f v k + v)) := by
  have h := put_of_call (spot_integrable f v) k
  rw [spot_mean, call_mean hf hk hv] at h
  rw [lognormalMean, h, ncdf_neg, ncdf_neg]
  ring

private theorem black_straddle_mean {f v k : ℝ} (hf : 0 < f) (hk : 0 < k) (hv : 0 < v) :
    lognormalMean (fun s => |s - k|) f v = f * (1 - 2 * ncdf (-(dMinus f v k + v))) + k * (1 - 2 * ncdf (dMinus f v k)) := by
  have h := straddle_of_call (spot_integrable f v) k
  rw [spot_mean, call_mean hf hk hv] at h
  rw [lognormalMean, h, ncdf_neg]
  ring

/-- C97: a Black price is the mean of the payoff of the option when the spot at expiry is log-normal around the forward. -/
theorem C97_black (type : OptionType) (fwd vol strike : ℝ) (p : ℝ → ℝ) (hp : ∀ s, payout type s strike = some (p s)) (hf : 0 < fwd) (hk : 0 < strike) (hv : epsilon ≤ vol)
    (he : epsilon ≤ fwd * strike) : blackOpt fwd vol strike type = some (lognormalMean p fwd vol) := by
  have hv0 : 0 < vol := lt_of_lt_of_le (by norm_num [epsilon]) hv
  have h0 : ¬(IsZero vol ∨ ¬ IsPositive (fwd * strike)) := by
    rintro (h | h)
    · exact absurd h.1 (not_lt.2 hv)
    · exact h he
  rw [blackOpt, if_neg h0]
  cases type with
  | notSet => exact absurd (hp 0) (by rw [payout]; exact fun h => by cases h)
  | call =>
    rw [show p = fun s => max 0 (s - strike) from funext fun s => (Option.some.inj (hp s)).symm, black_call_mean hf hk hv0]
  | put =>
    rw [show p = fun s => max 0 (strike - s) from funext fun s => (Option.some.inj (hp s)).symm, black_put_mean hf hk hv0]
  | straddle =>
    rw [show p = fun s => |s - strike| from funext fun s => (Option.some.inj (hp s)).symm, black_straddle_mean hf hk hv0]

example : blackOpt 100 0.2 110 .put = some (lognormalMean (fun s => max 0 (110 - s)) 100 0.2) :=
  C97_black .put 100 0.2 110 _ (fun _ => rfl) (by norm_num) (by norm_num) (by norm_num [epsilon]) (by norm_num [epsilon])

/-! ## Where the code returns the payoff of the forward -/

private theorem payoff_lipschitz (type : OptionType) (k : ℝ) (p : ℝ → ℝ) (hp : ∀ s, payout type s k = some (p s)) (s t : ℝ) : |p s - p t| ≤ |s - t| := by
  cases type with
  | notSet => exact absurd (hp 0) (by rw [payout]; exact fun h => by cases h)
  | call =>
    rw [← Option.some.inj (hp s), ← Option.some.inj (hp t)]
    refine (abs_max_sub_max_le_max _ _ _ _).trans (max_le (by simp) (le_of_eq ?_))
    congr 1; ring
  | put =>
    rw [← Option.some.inj (hp s), ← Option.some.inj (hp t)]
    refine (abs_max_sub_max_le_max _ _ _ _).trans (max_le (by simp) (le_of_eq ?_))
    rw [abs_sub_comm s t]; congr 1; ring
  | straddle =>
    rw [← Option.some.inj (hp s), ← Option.some.inj (hp t)]
    refine (abs_abs_sub_abs_le _ _).trans (le_of_eq ?_)
    congr 1; ring

private theorem payoff_integrable (type : OptionType) (k : ℝ) (p : ℝ → ℝ) (hp : ∀ s, payout type s k = some (p s)) {X : ℝ → ℝ} (h : Integrable X (gaussianReal 0 1)) :
    Integrable (fun g => p (X g)) (gaussianReal 0 1) := by
  have hc := call_integrable h k
  have hl : Integrable (fun g => X g - k) (gaussianReal 0 1) := h.sub (integrable_const k)
  cases type with
  | notSet => exact absurd (hp 0) (by rw [payout]; exact fun h => by cases h)
  | call => rw [show p = fun s => max 0 (s - k) from funext fun s => (Option.some.inj (hp s)).symm]; exact hc
  | put =>
    rw [show p = fun s => max 0 (k - s) from funext fun s => (Option.some.inj (hp s)).symm]
    refine (hc.sub hl).congr (Filter.Eventually.of_forall fun g => ?_)
    show max 0 (X g - k) - (X g - k) = max 0 (k - X g)
    rcases le_total (X g) k with hc | hc
    · rw [max_eq_left (by linarith), max_eq_right (by linarith)]; ring
    · rw [max_eq_right (by linarith), max_eq_left (by linarith)]; ring
  | straddle =>
    rw [show p = fun s => |s - k| from funext fun s => (Option.some.inj (hp s)).symm]
    exact hl.abs

/-- The payoff of an option on a log-normal spot is integrable. -/
theorem lognormal_payoff_integrable (type : OptionType) (k : ℝ) (p : ℝ → ℝ) (hp : ∀ s, payout type s k = some (p s)) (f v : ℝ) :
    Integrable (fun g => p (f * exp (v * g - v * v / 2))) (gaussianReal 0 1) := payoff_integrable type k p hp (spot_integrable f v)

/-- The mean of a payoff, from the mean of the call: `c` is one for a call or put and two for a straddle. -/
private theorem excess (type : OptionType) (k : ℝ) (p : ℝ → ℝ) (hp : ∀ s, payout type s k = some (p s)) {X : ℝ → ℝ} (h : Integrable X (gaussianReal 0 1)) (f : ℝ)
    (hf : ∫ g, X g ∂gaussianReal 0 1 = f) : ∃ c : ℝ, (c = 1 ∨ c = 2) ∧
      ∫ g, p (X g) ∂gaussianReal 0 1 - p f = c * (∫ g, max 0 (X g - k) ∂gaussianReal 0 1 - max 0 (f - k)) := by
  cases type with
  | notSet => exact absurd (hp 0) (by rw [payout]; exact fun h => by cases h)
  | call =>
    rw [show p = fun s => max 0 (s - k) from funext fun s => (Option.some.inj (hp s)).symm]
    exact ⟨1, Or.inl rfl, by rw [one_mul]⟩
  | put =>
    rw [show p = fun s => max 0 (k - s) from funext fun s => (Option.some.inj (hp s)).symm]
    refine ⟨1, Or.inl rfl, ?_⟩
    dsimp only
    rw [put_of_call h k, hf, one_mul]
    rcases le_total f k with hc | hc
    · rw [max_eq_right (by linarith : (0 : ℝ) ≤ k - f), max_eq_left (by linarith : f - k ≤ 0)]; ring
    · rw [max_eq_left (by linarith : k - f ≤ 0), max_eq_right (by linarith : (0 : ℝ) ≤ f - k)]; ring
  | straddle =>
    rw [show p = fun s => |s - k| from funext fun s => (Option.some.inj (hp s)).symm]
    refine ⟨2, Or.inr rfl, ?_⟩
    dsimp only
    rw [straddle_of_call h k, hf]
    rcases le_total f k with hc | hc
    · rw [abs_of_nonpos (by linarith), max_eq_left (by linarith : f - k ≤ 0)]; ring
    · rw [abs_of_nonneg (by linarith), max_eq_right (by linarith : (0 : ℝ) ≤ f - k)]; ring

private theorem call_nonneg (X : ℝ → ℝ) (k : ℝ) : 0 ≤ ∫ g, max 0 (X g - k) ∂gaussianReal 0 1 := integral_nonneg fun _ => le_max_left _ _

private theorem call_above {X : ℝ → ℝ} (h : Integrable X (gaussianReal 0 1)) (f k : ℝ) (hf : ∫ g, X g ∂gaussianReal 0 1 = f) :
    max 0 (f - k) ≤ ∫ g, max 0 (X g - k) ∂gaussianReal 0 1 := by
  refine max_le (call_nonneg X k) ?_
  have h1 : 0 ≤ ∫ g, max 0 (k - X g) ∂gaussianReal 0 1 := integral_nonneg fun _ => le_max_left _ _
  rw [put_of_call h k, hf] at h1
  linarith

private theorem density_le (x : ℝ) : density x ≤ 1 / 2 := by
  have h2 : (2 : ℝ) ≤ √(2 * π) := by
    rw [Real.le_sqrt (by norm_num) (by positivity)]
    linarith [Real.pi_gt_three]
  have h1 : exp (-(1 / 2) * x * x) ≤ 1 := Real.exp_le_one_iff.2 (by nlinarith [mul_self_nonneg x])
  rw [density, div_le_div_iff₀ (by linarith) (by norm_num)]
  linarith

private theorem ncdf_slope {x y : ℝ} (h : x ≤ y) : ncdf y - ncdf x ≤ (y - x) / 2 := by
  have hd : ∀ t, HasDerivAt (fun t => t / 2 - ncdf t) (1 / 2 - density t) t := fun t => ((hasDerivAt_id t).div_const 2).sub (ncdf_deriv t)
  have hm : Monotone fun t => t / 2 - ncdf t :=
    monotone_of_deriv_nonneg (fun t => (hd t).differentiableAt) fun t => by rw [(hd t).deriv]; linarith [density_le t]
  have := hm h
  dsimp only at this
  linarith

/-- C97: where the code takes a positive deviation, or the product of forward and strike, for zero and returns the payoff of the forward, it is never above the mean; for a small
deviation it is below by at most the forward times the deviation, for a small product by at most twice the root of the product. -/
theorem C97_black_small (type : OptionType) (fwd vol strike : ℝ) (p : ℝ → ℝ) (hp : ∀ s, payout type s strike = some (p s)) (hf : 0 < fwd) (hk : 0 < strike) (hv : 0 < vol)
    (he : vol < epsilon ∨ fwd * strike < epsilon) : ∃ price, blackOpt fwd vol strike type = some price ∧ price ≤ lognormalMean p fwd vol ∧
      lognormalMean p fwd vol - price ≤ fwd * vol ∧ (lognormalMean p fwd vol - price) ^ 2 ≤ 4 * (fwd * strike) := by
  have h0 : IsZero vol ∨ ¬ IsPositive (fwd * strike) := by
    rcases he with h | h
    · exact Or.inl ⟨h, by linarith [show (0 : ℝ) < epsilon by norm_num [epsilon]]⟩
    · exact Or.inr (not_le.2 h)
  refine ⟨p fwd, by rw [blackOpt, if_pos h0, hp], ?_⟩
  have hi := spot_integrable fwd vol
  obtain ⟨c, hc, hx⟩ := excess type strike p hp hi fwd (spot_mean fwd vol)
  have hab := call_above hi fwd strike (spot_mean fwd vol)
  rw [lognormalMean]
  have hcpos : 0 < c := by rcases hc with rfl | rfl <;> norm_num
  have hge : 0 ≤ ∫ g, p (fwd * exp (vol * g - vol * vol / 2)) ∂gaussianReal 0 1 - p fwd := by
    rw [hx]; exact mul_nonneg hcpos.le (by linarith)
  refine ⟨by linarith, ?_, ?_⟩
  · have h1 : ∫ g, p (fwd * exp (vol * g - vol * vol / 2)) ∂gaussianReal 0 1 - p fwd ≤ ∫ g, |fwd * exp (vol * g - vol * vol / 2) - fwd| ∂gaussianReal 0 1 := by
      have h2 : ∫ g, p (fwd * exp (vol * g - vol * vol / 2)) ∂gaussianReal 0 1 - p fwd = ∫ g, (p (fwd * exp (vol * g - vol * vol / 2)) - p fwd) ∂gaussianReal 0 1 := by
        rw [integral_sub (payoff_integrable type strike p hp hi) (integrable_const _), integral_const]
        simp
      rw [h2]
      refine integral_mono ((payoff_integrable type strike p hp hi).sub (integrable_const _)) (hi.sub (integrable_const _)).abs fun g => ?_
      exact (le_abs_self _).trans (payoff_lipschitz type strike p hp _ _)
    refine h1.trans ?_
    have h3 := black_straddle_mean hf hf hv
    rw [lognormalMean] at h3
    rw [h3, dMinus, div_self hf.ne', Real.log_one, zero_div, zero_sub]
    have h4 := ncdf_slope (show -(1 / 2 * vol) ≤ 1 / 2 * vol by linarith)
    have e1 : -(-(1 / 2 * vol) + vol) = -(1 / 2 * vol) := by ring
    rw [e1]
    have h5 := ncdf_neg (1 / 2 * vol)
    nlinarith
  · have hcall := black_call_mean hf hk hv
    rw [lognormalMean] at hcall
    rw [hx, hcall]
    have hle : fwd * ncdf (dMinus fwd vol strike + vol) - strike * ncdf (dMinus fwd vol strike) - max 0 (fwd - strike) ≤ min fwd strike := by
      have a1 := ncdf_nonneg (dMinus fwd vol strike + vol)
      have a2 := ncdf_le_one (dMinus fwd vol strike + vol)
      have a3 := ncdf_nonneg (dMinus fwd vol strike)
      have a4 := ncdf_le_one (dMinus fwd vol strike)
      rcases le_total fwd strike with h | h
      · rw [min_eq_left h, max_eq_left (by linarith)]; nlinarith
      · rw [min_eq_right h, max_eq_right (by linarith)]; nlinarith
    rw [hcall] at hab
    have hmin : min fwd strike ^ 2 ≤ fwd * strike := by
      rcases le_total fwd strike with h | h
      · rw [min_eq_left h]; nlinarith
      · rw [min_eq_right h]; nlinarith
    have h6 : c ^ 2 ≤ 4 := by rcases hc with rfl | rfl <;> norm_num
    rw [mul_pow]
    have h7 := pow_le_pow_left₀ (by linarith) hle 2
    exact mul_le_mul h6 (h7.trans hmin) (sq_nonneg _) (by norm_num)

example : ∃ price, blackOpt 1e-8 0.2 1e-8 .call = some price ∧ price ≤ lognormalMean (fun s => max 0 (s - 1e-8)) 1e-8 0.2 := by
  obtain ⟨price, h1, h2, _⟩ := C97_black_small .call 1e-8 0.2 1e-8 _ (fun _ => rfl) (by norm_num) (by norm_num) (by norm_num) (Or.inr (by norm_num [epsilon]))
  exact ⟨price, h1, h2⟩

/-- C97: with a strike that is not positive, a forward of zero or no deviation the price is the mean. -/
theorem C97_black_certain (type : OptionType) (fwd vol strike : ℝ) (p : ℝ → ℝ) (hp : ∀ s, payout type s strike = some (p s)) (hf : 0 ≤ fwd)
    (h : strike ≤ 0 ∨ fwd = 0 ∨ vol = 0) : blackOpt fwd vol strike type = some (lognormalMean p fwd vol) := by
  have he : (0 : ℝ) < epsilon := by norm_num [epsilon]
  have h0 : IsZero vol ∨ ¬ IsPositive (fwd * strike) := by
    rcases h with h | rfl | rfl
    · exact Or.inr (not_le.2 (lt_of_le_of_lt (mul_nonpos_of_nonneg_of_nonpos hf h) he))
    · exact Or.inr (not_le.2 (by rw [zero_mul]; exact he))
    · exact Or.inl ⟨he, by rw [neg_zero]; exact he⟩
  rw [blackOpt, if_pos h0, hp, lognormalMean]
  congr 1
  rcases h with h | rfl | rfl
  · have hi := spot_integrable fwd vol
    obtain ⟨c, -, hx⟩ := excess type strike p hp hi fwd (spot_mean fwd vol)
    have h1 : ∫ g, max 0 (fwd * exp (vol * g - vol * vol / 2) - strike) ∂gaussianReal 0 1 = fwd - strike := by
      have h2 : ∀ g : ℝ, max 0 (fwd * exp (vol * g - vol * vol / 2) - strike) = fwd * exp (vol * g - vol * vol / 2) - strike := fun g =>
        max_eq_right (by have := mul_nonneg hf (Real.exp_pos (vol * g - vol * vol / 2)).le; linarith)
      simp only [h2]
      rw [integral_sub hi (integrable_const _), spot_mean, integral_const]
      simp
    rw [h1, max_eq_right (by linarith), sub_self, mul_zero] at hx
    linarith
  · simp
  · simp

example : blackOpt 100 0.2 (-5) .straddle = some (lognormalMean (fun s => |s - -5|) 100 0.2) :=
  C97_black_certain .straddle 100 0.2 (-5) _ (fun _ => rfl) (by norm_num) (Or.inl (by norm_num))

/-! ## Bachelier -/

private theorem normal_integrable (f v : ℝ) : Integrable (fun g : ℝ => f + v * g) (gaussianReal 0 1) := (integrable_const f).add (id_integrable.const_mul v)

private theorem normal_mean (f v : ℝ) : ∫ g : ℝ, (f + v * g) ∂gaussianReal 0 1 = f := by
  rw [integral_add (integrable_const f) (id_integrable.const_mul v), integral_const_mul, integral_id_gaussianReal, integral_const]
  simp

private theorem normal_call {f v k : ℝ} (hv : 0 < v) : ∫ g, max 0 (f + v * g - k) ∂gaussianReal 0 1 = (f - k) * ncdf ((f - k) / v) + v * density ((f - k) / v) :=
  bachelier_mean hv

private theorem npdf_small {d : ℝ} (h : |d| ≤ 10) : npdf d = density d := by
  unfold npdf density
  rw [if_neg]
  rintro (hc | hc)
  · linarith [(abs_le.1 h).1]
  · linarith [(abs_le.1 h).2]

/-- The Bachelier price, with the mean in it: what is missing is a multiple of the density where the code takes it for zero. -/
private theorem bachelier_gap (type : OptionType) (fwd vol strike : ℝ) (p : ℝ → ℝ) (hp : ∀ s, payout type s strike = some (p s)) (hv : epsilon ≤ vol) (he : epsilon ≤ fwd * strike) :
    ∃ c : ℝ, (c = 1 ∨ c = 2) ∧ bachelierOpt fwd vol strike type = some (normalMean p fwd vol - c * vol * (density ((fwd - strike) / vol) - npdf ((fwd - strike) / vol))) := by
  have hv0 : 0 < vol := lt_of_lt_of_le (by norm_num [epsilon]) hv
  have h0 : ¬(IsZero vol ∨ ¬ IsPositive (fwd * strike)) := by
    rintro (h | h)
    · exact absurd h.1 (not_lt.2 hv)
    · exact h he
  rw [bachelierOpt, if_neg h0]
  have hi := normal_integrable fwd vol
  cases type with
  | notSet => exact absurd (hp 0) (by rw [payout]; exact fun h => by cases h)
  | call =>
    refine ⟨1, Or.inl rfl, ?_⟩
    rw [show p = fun s => max 0 (s - strike) from funext fun s => (Option.some.inj (hp s)).symm, normalMean, normal_call hv0]
    dsimp only
    congr 1
    ring
  | put =>
    refine ⟨1, Or.inl rfl, ?_⟩
    rw [show p = fun s => max 0 (strike - s) from funext fun s => (Option.some.inj (hp s)).symm, normalMean, put_of_call hi strike, normal_call hv0, normal_mean]
    dsimp only
    rw [ncdf_neg]
    congr 1
    ring
  | straddle =>
    refine ⟨2, Or.inr rfl, ?_⟩
    rw [show p = fun s => |s - strike| from funext fun s => (Option.some.inj (hp s)).symm, normalMean, straddle_of_call hi strike, normal_call hv0, normal_mean]
    dsimp only
    congr 1
    ring

/-- C97: a Bachelier price is the mean of the payoff of the option when the spot at expiry is normal around the forward, when the forward and the strike have the same sign and are at
most ten deviations apart. Missing otherwise: see `C97_bachelier_tail_violated` and `C97_bachelier_sign_violated`. -/
theorem C97_bachelier_partial (type : OptionType) (fwd vol strike : ℝ) (p : ℝ → ℝ) (hp : ∀ s, payout type s strike = some (p s)) (hv : epsilon ≤ vol) (he : epsilon ≤ fwd * strike)
    (hd : |(fwd - strike) / vol| ≤ 10) : bachelierOpt fwd vol strike type = some (normalMean p fwd vol) := by
  obtain ⟨c, -, h⟩ := bachelier_gap type fwd vol strike p hp hv he
  rw [h, npdf_small hd, sub_self, mul_zero, sub_zero]

example : bachelierOpt (-0.01) 0.005 (-0.02) .put = some (normalMean (fun s => max 0 (-0.02 - s)) (-0.01) 0.005) :=
  C97_bachelier_partial .put (-0.01) 0.005 (-0.02) _ (fun _ => rfl) (by norm_num [epsilon]) (by norm_num [epsilon]) (by norm_num)

/-- C97 fails for a Bachelier price when forward and strike are more than ten deviations apart: it is below the mean, by less than `1e-20` deviations. -/
theorem C97_bachelier_tail_violated (type : OptionType) (fwd vol strike : ℝ) (p : ℝ → ℝ) (hp : ∀ s, payout type s strike = some (p s)) (hv : epsilon ≤ vol)
    (he : epsilon ≤ fwd * strike) (hd : 10 < |(fwd - strike) / vol|) :
    ∃ price, bachelierOpt fwd vol strike type = some price ∧ price < normalMean p fwd vol ∧ normalMean p fwd vol - price < 1e-20 * vol := by
  have hv0 : 0 < vol := lt_of_lt_of_le (by norm_num [epsilon]) hv
  obtain ⟨c, hc, h⟩ := bachelier_gap type fwd vol strike p hp hv he
  refine ⟨_, h, ?_⟩
  generalize (fwd - strike) / vol = d at hd
  have h1 : npdf d = 0 := by
    unfold npdf
    rw [if_pos]
    rcases lt_abs.1 hd with h | h
    · exact Or.inr h
    · exact Or.inl (by linarith)
  have h2 := density_pos d
  have h3 : density d < 1e-21 := by
    have hs : (2 : ℝ) ≤ √(2 * π) := by
      rw [Real.le_sqrt (by norm_num) (by positivity)]
      linarith [Real.pi_gt_three]
    have h4 : 100 ≤ d * d := by
      have := abs_mul_abs_self d
      nlinarith
    have h5 : exp (-(1 / 2) * d * d) ≤ exp (-50) := Real.exp_le_exp.2 (by nlinarith)
    have h6 : (1e21 : ℝ) < exp 50 := by
      have e : exp 50 = exp 1 ^ 50 := by rw [← Real.exp_nat_mul]; norm_num
      rw [e]
      have := pow_le_pow_left₀ (by norm_num : (0 : ℝ) ≤ 2.7) (le_of_lt (lt_trans (by norm_num) Real.exp_one_gt_d9)) 50
      refine lt_of_lt_of_le ?_ this
      norm_num
    have h7 : exp (-50) < 1e-21 := by
      rw [Real.exp_neg, inv_lt_comm₀ (Real.exp_pos _) (by norm_num)]
      refine lt_of_le_of_lt (le_of_eq ?_) h6
      norm_num
    rw [density, div_lt_iff₀ (by linarith)]
    have := Real.exp_pos (-(1 / 2) * d * d)
    nlinarith
  rw [h1, sub_zero]
  have h4 : 0 < vol * density d := mul_pos hv0 h2
  rcases hc with rfl | rfl
  · constructor
    · nlinarith
    · nlinarith
  · constructor
    · nlinarith
    · nlinarith

example : ∃ price, bachelierOpt 1 0.01 2 .call = some price ∧ price < normalMean (fun s => max 0 (s - 2)) 1 0.01 := by
  obtain ⟨price, h1, h2, _⟩ := C97_bachelier_tail_violated .call 1 0.01 2 _ (fun _ => rfl) (by norm_num [epsilon]) (by norm_num [epsilon]) (by norm_num)
  exact ⟨price, h1, h2⟩

private theorem h_mono : StrictMono fun d => d * ncdf d + density d := by
  have hn : ∀ d, 0 < ncdf d := fun d => by
    have hs : StrictMono ncdf := strictMono_of_deriv_pos fun x => by rw [(ncdf_deriv x).deriv]; exact density_pos x
    exact lt_of_le_of_lt (ncdf_nonneg (d - 1)) (hs (by linarith))
  have hd : ∀ d, HasDerivAt (fun d => d * ncdf d + density d) (ncdf d) d := fun d => by
    have := ((hasDerivAt_id d).mul (ncdf_deriv d)).add (density_deriv d)
    refine this.congr_deriv ?_
    simp only [id]
    ring
  exact strictMono_of_deriv_pos fun x => by rw [(hd x).deriv]; exact hn x

private theorem h_pos (d : ℝ) : 0 < d * ncdf d + density d := by
  have h1 : ∀ d, 0 ≤ d * ncdf d + density d := fun d => by
    have := call_nonneg (fun g => d + 1 * g) 0
    rw [normal_call one_pos, sub_zero, div_one, one_mul] at this
    exact this
  exact lt_of_le_of_lt (h1 (d - 1)) (h_mono (show d - 1 < d by linarith))

/-- C97 fails for a Bachelier price when the forward and the strike do not have the same sign, although spots of either sign are what Bachelier is for: the price is the payoff of the
forward, whatever the deviation, and below the mean. -/
theorem C97_bachelier_sign_violated (type : OptionType) (fwd vol strike : ℝ) (p : ℝ → ℝ) (hp : ∀ s, payout type s strike = some (p s)) (hv : 0 < vol)
    (he : fwd * strike < epsilon) : ∃ price, bachelierOpt fwd vol strike type = some price ∧ price = p fwd ∧ price < normalMean p fwd vol := by
  refine ⟨p fwd, by rw [bachelierOpt, if_pos (show IsZero vol ∨ ¬ IsPositive (fwd * strike) from Or.inr (not_le.2 he)), hp], rfl, ?_⟩
  obtain ⟨c, hc, hx⟩ := excess type strike p hp (normal_integrable fwd vol) fwd (normal_mean fwd vol)
  rw [normal_call hv] at hx
  rw [normalMean]
  have hcpos : 0 < c := by rcases hc with rfl | rfl <;> norm_num
  have hd : fwd - strike = vol * ((fwd - strike) / vol) := by field_simp
  have h1 : 0 < (fwd - strike) * ncdf ((fwd - strike) / vol) + vol * density ((fwd - strike) / vol) - max 0 (fwd - strike) := by
    generalize (fwd - strike) / vol = d at hd
    rw [hd]
    have p1 := mul_pos hv (h_pos d)
    have p2 := mul_pos hv (h_pos (-d))
    rw [ncdf_neg, density_even] at p2
    rcases le_total d 0 with h | h
    · rw [max_eq_left (mul_nonpos_of_nonneg_of_nonpos hv.le h)]; nlinarith
    · rw [max_eq_right (mul_nonneg hv.le h)]; nlinarith
  have := mul_pos hcpos h1
  linarith

/-- With forward and strike zero, the call is worth nothing for the code; the mean is almost 0.4 deviations. -/
example : bachelierOpt 0 1 0 .call = some 0 ∧ normalMean (fun s => max 0 (s - 0)) 0 1 = 1 / √(2 * π) := by
  refine ⟨?_, ?_⟩
  · obtain ⟨price, h1, h2, _⟩ := C97_bachelier_sign_violated .call 0 1 0 _ (fun _ => rfl) one_pos (by norm_num [epsilon])
    rw [h1, h2]; norm_num
  · rw [normalMean, normal_call one_pos, density]; norm_num

/-! ## For other files -/

theorem lognormal_integrable (f v : ℝ) : Integrable (fun g : ℝ => f * exp (v * g - v * v / 2)) (gaussianReal 0 1) := spot_integrable f v

theorem lognormal_mean (f v : ℝ) : ∫ g : ℝ, f * exp (v * g - v * v / 2) ∂gaussianReal 0 1 = f := spot_mean f v

theorem lognormal_call_integrable (f v k : ℝ) : Integrable (fun g : ℝ => max 0 (f * exp (v * g - v * v / 2) - k)) (gaussianReal 0 1) := call_integrable (spot_integrable f v) k

end Dal
