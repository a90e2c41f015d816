import Verif.Numeric.NormalLemmas
import Mathlib.Analysis.SpecialFunctions.Log.Deriv

/-!
# C59: relations between option prices, and C68: the reported greeks
-/

namespace Dal

open Real Filter Topology
open Dal.Numeric (OptionType payout blackOpt bachelierOpt blackGreeks bachelierGreeks ncdf npdf dMinus epsilon density)

/-- C59: payouts: call minus put is spot minus strike, the straddle is call plus put; an unset type throws. -/
theorem C59_payout (spot strike : ℝ) : ∃ c p s, payout .call spot strike = some c ∧ payout .put spot strike = some p ∧
    payout .straddle spot strike = some s ∧ c - p = spot - strike ∧ s = c + p ∧ 0 ≤ c ∧ 0 ≤ p ∧ payout .notSet spot strike = none := by
  refine ⟨_, _, _, rfl, rfl, rfl, ?_, ?_, le_max_left _ _, le_max_left _ _, rfl⟩
  · rcases le_total spot strike with h | h
    · rw [max_eq_left (by linarith : spot - strike ≤ 0), max_eq_right (by linarith : 0 ≤ strike - spot)]; ring
    · rw [max_eq_right (by linarith : 0 ≤ spot - strike), max_eq_left (by linarith : strike - spot ≤ 0)]; ring
  · rcases le_total spot strike with h | h
    · rw [max_eq_left (by linarith : spot - strike ≤ 0), max_eq_right (by linarith : 0 ≤ strike - spot), abs_of_nonpos (by linarith)]; ring
    · rw [max_eq_right (by linarith : 0 ≤ spot - strike), max_eq_left (by linarith : strike - spot ≤ 0), abs_of_nonneg (by linarith)]; ring

/-- C59: for Black prices, whatever the forward, the volatility and the strike. -/
theorem C59_black (fwd vol strike : ℝ) : ∃ c p s, blackOpt fwd vol strike .call = some c ∧ blackOpt fwd vol strike .put = some p ∧
    blackOpt fwd vol strike .straddle = some s ∧ c - p = fwd - strike ∧ s = c + p ∧ blackOpt fwd vol strike .notSet = none := by
  unfold blackOpt
  by_cases h : Numeric.IsZero vol ∨ ¬ Numeric.IsPositive (fwd * strike)
  · simp only [if_pos h]
    obtain ⟨c, p, s, h1, h2, h3, h4, h5, _, _, h6⟩ := C59_payout fwd strike
    exact ⟨c, p, s, h1, h2, h3, h4, h5, h6⟩
  · simp only [if_neg h]
    refine ⟨_, _, _, rfl, rfl, rfl, ?_, ?_, trivial⟩
    · rw [Numeric.ncdf_neg, Numeric.ncdf_neg]; ring
    · rw [Numeric.ncdf_neg, Numeric.ncdf_neg]; ring

/-- C59: for Bachelier prices, whatever the forward, the volatility and the strike. -/
theorem C59_bachelier (fwd vol strike : ℝ) : ∃ c p s, bachelierOpt fwd vol strike .call = some c ∧ bachelierOpt fwd vol strike .put = some p ∧
    bachelierOpt fwd vol strike .straddle = some s ∧ c - p = fwd - strike ∧ s = c + p ∧ bachelierOpt fwd vol strike .notSet = none := by
  unfold bachelierOpt
  by_cases h : Numeric.IsZero vol ∨ ¬ Numeric.IsPositive (fwd * strike)
  · simp only [if_pos h]
    obtain ⟨c, p, s, h1, h2, h3, h4, h5, _, _, h6⟩ := C59_payout fwd strike
    exact ⟨c, p, s, h1, h2, h3, h4, h5, h6⟩
  · simp only [if_neg h]
    refine ⟨_, _, _, rfl, rfl, rfl, ?_, ?_, trivial⟩
    · rw [Numeric.ncdf_neg]; ring
    · rw [Numeric.ncdf_neg]; ring

private theorem density_shift (s v : ℝ) : density (s + v) = exp (-(s * v) - 1 / 2 * v * v) * density s := by
  unfold density
  rw [mul_div_assoc', ← exp_add]
  congr 2
  ring

/-- The price as a function of where exercise ends is largest at `dMinus`. -/
theorem call_bounds {f v k : ℝ} (hf : 0 < f) (hk : 0 < k) (hv : 0 < v) :
    0 ≤ f * ncdf (dMinus f v k + v) - k * ncdf (dMinus f v k) ∧ f - k ≤ f * ncdf (dMinus f v k + v) - k * ncdf (dMinus f v k) := by
  obtain ⟨m, hm⟩ : ∃ m, m = dMinus f v k := ⟨_, rfl⟩
  rw [← hm]
  have hkey : f * exp (-(m * v) - 1 / 2 * v * v) = k := by
    have : -(m * v) - 1 / 2 * v * v = -log (f / k) := by
      rw [hm]; unfold dMinus; field_simp; ring
    rw [this, exp_neg, exp_log (div_pos hf hk)]
    field_simp
  have hder : ∀ s, HasDerivAt (fun s => f * ncdf (s + v) - k * ncdf s) (density s * (f * exp (-(s * v) - 1 / 2 * v * v) - k)) s := by
    intro s
    have h1 : HasDerivAt (fun s => ncdf (s + v)) (density (s + v)) s := by
      have := (Numeric.ncdf_deriv (s + v)).comp s ((hasDerivAt_id s).add_const v)
      rw [mul_one] at this
      exact this
    refine ((h1.const_mul f).sub ((Numeric.ncdf_deriv s).const_mul k)).congr_deriv ?_
    rw [density_shift]; ring
  have hcont : Continuous fun s => f * ncdf (s + v) - k * ncdf s := continuous_iff_continuousAt.2 fun s => (hder s).continuousAt
  have hmono : MonotoneOn (fun s => f * ncdf (s + v) - k * ncdf s) (Set.Iic m) := by
    refine monotoneOn_of_deriv_nonneg (convex_Iic m) hcont.continuousOn (fun s _ => (hder s).differentiableAt.differentiableWithinAt) fun s hs => ?_
    rw [interior_Iic] at hs
    rw [(hder s).deriv]
    refine mul_nonneg (Numeric.density_pos s).le ?_
    have : exp (-(m * v) - 1 / 2 * v * v) ≤ exp (-(s * v) - 1 / 2 * v * v) := by
      apply exp_le_exp.2
      have := mul_le_mul_of_nonneg_right (le_of_lt hs) hv.le
      linarith
    have := mul_le_mul_of_nonneg_left this hf.le
    linarith
  have hanti : AntitoneOn (fun s => f * ncdf (s + v) - k * ncdf s) (Set.Ici m) := by
    refine antitoneOn_of_deriv_nonpos (convex_Ici m) hcont.continuousOn (fun s _ => (hder s).differentiableAt.differentiableWithinAt) fun s hs => ?_
    rw [interior_Ici] at hs
    rw [(hder s).deriv]
    refine mul_nonpos_of_nonneg_of_nonpos (Numeric.density_pos s).le ?_
    have : exp (-(s * v) - 1 / 2 * v * v) ≤ exp (-(m * v) - 1 / 2 * v * v) := by
      apply exp_le_exp.2
      have := mul_le_mul_of_nonneg_right (le_of_lt hs) hv.le
      linarith
    have := mul_le_mul_of_nonneg_left this hf.le
    linarith
  constructor
  · have ht : Tendsto (fun s => f * ncdf (s + v) - k * ncdf s) atBot (𝓝 (f * 0 - k * 0)) :=
      ((Numeric.ncdf_atBot.comp (tendsto_atBot_add_const_right _ v tendsto_id)).const_mul f).sub (Numeric.ncdf_atBot.const_mul k)
    have : f * 0 - k * 0 ≤ f * ncdf (m + v) - k * ncdf m := by
      refine le_of_tendsto ht ?_
      filter_upwards [eventually_le_atBot m] with s hs
      exact hmono hs (Set.mem_Iic.2 le_rfl) hs
    linarith
  · have ht : Tendsto (fun s => f * ncdf (s + v) - k * ncdf s) atTop (𝓝 (f * 1 - k * 1)) :=
      ((Numeric.ncdf_atTop.comp (tendsto_atTop_add_const_right _ v tendsto_id)).const_mul f).sub (Numeric.ncdf_atTop.const_mul k)
    have : f * 1 - k * 1 ≤ f * ncdf (m + v) - k * ncdf m := by
      refine le_of_tendsto ht ?_
      filter_upwards [eventually_ge_atTop m] with s hs
      exact hanti (Set.mem_Ici.2 le_rfl) hs hs
    linarith

/-- C59: Black prices of positive forwards and strikes lie between the payout and the forward, for puts the strike. -/
theorem C59_black_bounds (fwd vol strike : ℝ) (hf : 0 < fwd) (hk : 0 < strike) (hv : 0 ≤ vol) (c p : ℝ)
    (hc : blackOpt fwd vol strike .call = some c) (hp : blackOpt fwd vol strike .put = some p) :
    max 0 (fwd - strike) ≤ c ∧ c ≤ fwd ∧ max 0 (strike - fwd) ≤ p ∧ p ≤ strike := by
  obtain ⟨c', p', _, h1, h2, _, h4, _⟩ := C59_black fwd vol strike
  rw [hc] at h1; rw [hp] at h2
  rw [← Option.some.inj h1, ← Option.some.inj h2] at h4
  have hmain : max 0 (fwd - strike) ≤ c ∧ c ≤ fwd := by
    unfold blackOpt at hc
    split at hc
    · rw [payout] at hc
      rw [← Option.some.inj hc]
      exact ⟨le_refl _, max_le hf.le (by linarith)⟩
    · rename_i hn
      have hv' : 0 < vol := by
        rcases hv.eq_or_lt with h | h
        · exact absurd (Or.inl ⟨by rw [← h]; unfold epsilon; norm_num, by rw [← h]; unfold epsilon; norm_num⟩) hn
        · exact h
      rw [← Option.some.inj hc]
      refine ⟨max_le (call_bounds hf hk hv').1 (call_bounds hf hk hv').2, ?_⟩
      have h1 := mul_le_mul_of_nonneg_left (Numeric.ncdf_le_one (dMinus fwd vol strike + vol)) hf.le
      have h2 := mul_nonneg hk.le (Numeric.ncdf_nonneg (dMinus fwd vol strike))
      linarith
  refine ⟨hmain.1, hmain.2, max_le ?_ ?_, by linarith [hmain.2]⟩
  · have := le_max_right 0 (fwd - strike); linarith [hmain.1]
  · have := le_max_left 0 (fwd - strike); linarith [hmain.1]

private theorem density_deriv (x : ℝ) : HasDerivAt density (-x * density x) x := by
  unfold density
  have h1 : HasDerivAt (fun z : ℝ => -(1 / 2) * z * z) (-x) x := by
    have := ((hasDerivAt_id x).const_mul (-(1 / 2) : ℝ)).mul (hasDerivAt_id x)
    refine this.congr_deriv ?_
    simp only [id]; ring
  refine (h1.exp.div_const _).congr_deriv ?_
  ring

private theorem density_le (x : ℝ) : density x ≤ density 0 := by
  unfold density
  have : 0 ≤ √(2 * π) := Real.sqrt_nonneg _
  refine div_le_div_of_nonneg_right (exp_le_exp.2 ?_) this
  nlinarith [mul_self_nonneg x]

/-- The bound of Mills. -/
private theorem mills (x : ℝ) : 0 ≤ x * ncdf x + density x := by
  by_cases hx : 0 ≤ x
  · have := mul_nonneg hx (Numeric.ncdf_nonneg x); linarith [Numeric.density_pos x]
  have hx : x < 0 := not_le.1 hx
  have hder : ∀ s < 0, HasDerivAt (fun s => ncdf s + density s / s) (-(density s / s ^ 2)) s := by
    intro s hs
    refine ((Numeric.ncdf_deriv s).add ((density_deriv s).div (hasDerivAt_id s) hs.ne)).congr_deriv ?_
    simp only [id]
    have hs' : s ≠ 0 := hs.ne
    field_simp
    ring
  have hanti : AntitoneOn (fun s => ncdf s + density s / s) (Set.Iic x) := by
    refine antitoneOn_of_deriv_nonpos (convex_Iic x) (fun s hs => (hder s (lt_of_le_of_lt hs hx)).continuousAt.continuousWithinAt)
      (fun s hs => ?_) fun s hs => ?_
    · rw [interior_Iic] at hs
      exact (hder s (lt_trans hs hx)).differentiableAt.differentiableWithinAt
    · rw [interior_Iic] at hs
      rw [(hder s (lt_trans hs hx)).deriv]
      have := div_nonneg (Numeric.density_pos s).le (sq_nonneg s)
      linarith
  have ht : Tendsto (fun s => ncdf s + density s / s) atBot (𝓝 (0 + 0)) := by
    refine Numeric.ncdf_atBot.add ?_
    have hb : Tendsto (fun s : ℝ => density 0 * s⁻¹) atBot (𝓝 (density 0 * 0)) := tendsto_inv_atBot_zero.const_mul _
    rw [mul_zero] at hb
    refine tendsto_of_tendsto_of_tendsto_of_le_of_le' hb tendsto_const_nhds ?_ ?_
    · filter_upwards [eventually_lt_atBot (0 : ℝ)] with s hs
      rw [div_eq_mul_inv]
      exact mul_le_mul_of_nonpos_right (density_le s) (inv_nonpos.2 hs.le)
    · filter_upwards [eventually_lt_atBot (0 : ℝ)] with s hs
      exact div_nonpos_of_nonneg_of_nonpos (Numeric.density_pos s).le hs.le
  have hle : ncdf x + density x / x ≤ 0 + 0 := by
    refine ge_of_tendsto ht ?_
    filter_upwards [eventually_le_atBot x] with s hs
    exact hanti hs (Set.mem_Iic.2 le_rfl) hs
  have h1 := mul_le_mul_of_nonpos_left hle hx.le
  have hx' : x ≠ 0 := hx.ne
  have h2 : x * (density x / x) = density x := by field_simp
  rw [mul_add x (ncdf x), h2] at h1
  linarith

theorem npdf_eq {d : ℝ} (h : |d| ≤ 10) : npdf d = density d := by
  unfold npdf density
  rw [if_neg]
  rintro (hc | hc)
  · linarith [(abs_le.1 h).1]
  · linarith [(abs_le.1 h).2]

/-- C59: Bachelier prices are not below the payout, unless the moneyness is beyond ten standard deviations, where the code takes the density to be 0. -/
theorem C59_bachelier_bounds (fwd vol strike : ℝ) (hv : 0 ≤ vol) (hd : |(fwd - strike) / vol| ≤ 10) (c p : ℝ)
    (hc : bachelierOpt fwd vol strike .call = some c) (hp : bachelierOpt fwd vol strike .put = some p) :
    max 0 (fwd - strike) ≤ c ∧ max 0 (strike - fwd) ≤ p := by
  obtain ⟨c', p', _, h1, h2, _, h4, _⟩ := C59_bachelier fwd vol strike
  rw [hc] at h1; rw [hp] at h2
  rw [← Option.some.inj h1, ← Option.some.inj h2] at h4
  have hmain : max 0 (fwd - strike) ≤ c := by
    unfold bachelierOpt at hc
    split at hc
    · rw [payout] at hc
      rw [← Option.some.inj hc]
    · rename_i hn
      have hv' : 0 < vol := by
        rcases hv.eq_or_lt with h | h
        · exact absurd (Or.inl ⟨by rw [← h]; unfold epsilon; norm_num, by rw [← h]; unfold epsilon; norm_num⟩) hn
        · exact h
      rw [← Option.some.inj hc, npdf_eq hd]
      obtain ⟨d, hdd⟩ : ∃ d, d = (fwd - strike) / vol := ⟨_, rfl⟩
      have he : fwd - strike = d * vol := by rw [hdd]; field_simp
      rw [← hdd, he]
      refine max_le ?_ ?_
      · have := mul_nonneg hv'.le (mills d); linarith
      · have h1 := mul_nonneg hv'.le (mills (-d))
        rw [Numeric.ncdf_neg] at h1
        have : density (-d) = density d := by unfold density; congr 2; ring
        rw [this] at h1
        linarith
  refine ⟨hmain, max_le ?_ ?_⟩
  · have := le_max_right 0 (fwd - strike); linarith
  · have := le_max_left 0 (fwd - strike); linarith

/-! ### C68 -/

private theorem not_zero {v : ℝ} (h : epsilon < v) : ¬ Numeric.IsZero v := fun hc => absurd hc.1 (not_lt.2 h.le)

private theorem eps_pos : 0 < epsilon := by unfold epsilon; norm_num

/-- The three prices where the formula applies, by the call. -/
private theorem black_formula {f v k : ℝ} (hv : epsilon < v) (hfk : epsilon ≤ f * k) (t : OptionType) :
    blackOpt f v k t = (match t with
      | .call => some (f * ncdf (dMinus f v k + v) - k * ncdf (dMinus f v k))
      | .put => some (f * ncdf (dMinus f v k + v) - k * ncdf (dMinus f v k) - (f - k))
      | .straddle => some (2 * (f * ncdf (dMinus f v k + v) - k * ncdf (dMinus f v k)) - (f - k))
      | .notSet => none) := by
  unfold blackOpt
  rw [if_neg (by rintro (h | h); exacts [not_zero hv h, h hfk])]
  cases t with
  | notSet => rfl
  | call => rfl
  | put => dsimp only; rw [Numeric.ncdf_neg, Numeric.ncdf_neg]; congr 1; ring
  | straddle => dsimp only; rw [Numeric.ncdf_neg]; congr 1; ring

/-- The forward's density over the strike's. -/
theorem black_key {f v k : ℝ} (hf : 0 < f) (hk : 0 < k) (hv : 0 < v) : f * density (dMinus f v k + v) = k * density (dMinus f v k) := by
  have hkey : f * exp (-(dMinus f v k * v) - 1 / 2 * v * v) = k := by
    have : -(dMinus f v k * v) - 1 / 2 * v * v = -log (f / k) := by unfold dMinus; field_simp; ring
    rw [this, exp_neg, exp_log (div_pos hf hk)]
    field_simp
  rw [density_shift, ← mul_assoc, hkey]

/-- C68: Black: wherever the formula applies, the reported delta is the derivative of the price by the forward. -/
theorem C68_black_delta (fwd vol strike : ℝ) (hf : 0 < fwd) (hk : 0 < strike) (hv : epsilon < vol) (hfk : epsilon < fwd * strike) (t : OptionType)
    (delta vega : ℝ) (h : blackGreeks fwd vol strike t = some (delta, vega)) :
    ∃ g : ℝ → ℝ, (∀ᶠ f in 𝓝 fwd, blackOpt f vol strike t = some (g f)) ∧ HasDerivAt g delta fwd := by
  have hv0 : 0 < vol := lt_trans eps_pos hv
  have hnear : ∀ᶠ f in 𝓝 fwd, epsilon ≤ f * strike := by
    have hc : Continuous fun f : ℝ => f * strike := by fun_prop
    filter_upwards [(hc.tendsto fwd).eventually (lt_mem_nhds hfk)] with f hf
    exact hf.le
  have hdm : HasDerivAt (fun f => dMinus f vol strike) (1 / (fwd * vol)) fwd := by
    unfold dMinus
    have h1 : HasDerivAt (fun f : ℝ => f / strike) (1 / strike) fwd := (hasDerivAt_id fwd).div_const strike
    have h2 := ((h1.log (div_pos hf hk).ne').div_const vol).sub_const (1 / 2 * vol)
    refine h2.congr_deriv ?_
    field_simp
  have hcall : HasDerivAt (fun f => f * ncdf (dMinus f vol strike + vol) - strike * ncdf (dMinus f vol strike)) (ncdf (dMinus fwd vol strike + vol)) fwd := by
    have h1 := (Numeric.ncdf_deriv (dMinus fwd vol strike + vol)).comp fwd (hdm.add_const vol)
    have h2 := (Numeric.ncdf_deriv (dMinus fwd vol strike)).comp fwd hdm
    refine (((hasDerivAt_id fwd).mul h1).sub (h2.const_mul strike)).congr_deriv ?_
    have hk' := black_key hf hk hv0
    simp only [id, Function.comp_apply]
    have : fwd * (density (dMinus fwd vol strike + vol) * (1 / (fwd * vol))) = strike * (density (dMinus fwd vol strike) * (1 / (fwd * vol))) := by
      rw [← mul_assoc, hk', mul_assoc]
    rw [this]; ring
  have hlin : HasDerivAt (fun f : ℝ => f - strike) 1 fwd := (hasDerivAt_id fwd).sub_const strike
  have hg : ¬ (strike = 0 ∨ fwd / strike ≤ 0 ∨ vol = 0) := by
    rintro (h | h | h)
    · exact hk.ne' h
    · exact absurd h (not_le.2 (div_pos hf hk))
    · exact hv0.ne' h
  unfold blackGreeks at h
  rw [if_neg hg] at h
  cases t with
  | notSet => cases h
  | call =>
    refine ⟨_, hnear.mono fun f hf => black_formula hv hf .call, ?_⟩
    rw [← (Prod.mk.inj (Option.some.inj h)).1]
    exact hcall
  | put =>
    refine ⟨_, hnear.mono fun f hf => black_formula hv hf .put, ?_⟩
    rw [← (Prod.mk.inj (Option.some.inj h)).1]
    refine (hcall.sub hlin).congr_deriv ?_
    rw [Numeric.ncdf_neg]; ring
  | straddle =>
    refine ⟨_, hnear.mono fun f hf => black_formula hv hf .straddle, ?_⟩
    rw [← (Prod.mk.inj (Option.some.inj h)).1]
    refine ((hcall.const_mul 2).sub hlin).congr_deriv ?_
    rw [Numeric.ncdf_neg]; ring

/-- C68: Black: wherever the formula applies and the moneyness is within ten standard deviations, the reported vega is the derivative of the price by the
volatility. -/
theorem C68_black_vega (fwd vol strike : ℝ) (hf : 0 < fwd) (hk : 0 < strike) (hv : epsilon < vol) (hfk : epsilon ≤ fwd * strike) (t : OptionType)
    (hd : |dMinus fwd vol strike + vol| ≤ 10) (delta vega : ℝ) (h : blackGreeks fwd vol strike t = some (delta, vega)) :
    ∃ g : ℝ → ℝ, (∀ᶠ v in 𝓝 vol, blackOpt fwd v strike t = some (g v)) ∧ HasDerivAt g vega vol := by
  have hv0 : 0 < vol := lt_trans eps_pos hv
  have hnear : ∀ᶠ v in 𝓝 vol, epsilon < v := lt_mem_nhds hv
  obtain ⟨a, ha⟩ : ∃ a, HasDerivAt (fun v => dMinus fwd v strike) a vol := by
    unfold dMinus
    exact ⟨_, ((hasDerivAt_const vol (log (fwd / strike))).div (hasDerivAt_id vol) hv0.ne').sub ((hasDerivAt_id vol).const_mul (1 / 2 : ℝ))⟩
  have hcall : HasDerivAt (fun v => fwd * ncdf (dMinus fwd v strike + v) - strike * ncdf (dMinus fwd v strike))
      (fwd * npdf (dMinus fwd vol strike + vol)) vol := by
    have h0 : HasDerivAt (fun v => dMinus fwd v strike + v) (a + 1) vol := ha.add (hasDerivAt_id vol)
    have h1 := (Numeric.ncdf_deriv (dMinus fwd vol strike + vol)).comp (h₂ := ncdf) (h := fun v => dMinus fwd v strike + v) vol h0
    have h2 := (Numeric.ncdf_deriv (dMinus fwd vol strike)).comp vol ha
    refine ((h1.const_mul fwd).sub (h2.const_mul strike)).congr_deriv ?_
    rw [npdf_eq hd]
    have hk' := black_key hf hk hv0
    have : strike * (density (dMinus fwd vol strike) * a) = fwd * (density (dMinus fwd vol strike + vol) * a) := by
      rw [← mul_assoc, ← hk', mul_assoc]
    rw [this]; ring
  have hg : ¬ (strike = 0 ∨ fwd / strike ≤ 0 ∨ vol = 0) := by
    rintro (h | h | h)
    · exact hk.ne' h
    · exact absurd h (not_le.2 (div_pos hf hk))
    · exact hv0.ne' h
  unfold blackGreeks at h
  rw [if_neg hg] at h
  cases t with
  | notSet => cases h
  | call =>
    refine ⟨_, hnear.mono fun v hv => black_formula hv hfk .call, ?_⟩
    rw [← (Prod.mk.inj (Option.some.inj h)).2]
    exact hcall
  | put =>
    refine ⟨_, hnear.mono fun v hv => black_formula hv hfk .put, ?_⟩
    rw [← (Prod.mk.inj (Option.some.inj h)).2]
    exact hcall.sub_const _
  | straddle =>
    refine ⟨_, hnear.mono fun v hv => black_formula hv hfk .straddle, ?_⟩
    rw [← (Prod.mk.inj (Option.some.inj h)).2]
    refine ((hcall.const_mul 2).sub_const _).congr_deriv ?_
    ring

private theorem bachelier_formula {f v k : ℝ} (hv : epsilon < v) (hfk : epsilon ≤ f * k) (hd : |(f - k) / v| ≤ 10) (t : OptionType) :
    bachelierOpt f v k t = (match t with
      | .call => some ((f - k) * ncdf ((f - k) / v) + v * density ((f - k) / v))
      | .put => some ((f - k) * ncdf ((f - k) / v) + v * density ((f - k) / v) - (f - k))
      | .straddle => some (2 * ((f - k) * ncdf ((f - k) / v) + v * density ((f - k) / v)) - (f - k))
      | .notSet => none) := by
  unfold bachelierOpt
  rw [if_neg (by rintro (h | h); exacts [not_zero hv h, h hfk])]
  dsimp only
  rw [npdf_eq hd]
  cases t with
  | notSet => rfl
  | call => rfl
  | put => dsimp only; rw [Numeric.ncdf_neg]; congr 1; ring
  | straddle => dsimp only; congr 1; ring

/-- C68: Bachelier: wherever the formula applies within ten standard deviations, the reported delta and vega are the derivatives of the price by the forward
and by the volatility. -/
theorem C68_bachelier (fwd vol strike : ℝ) (hv : epsilon < vol) (hfk : epsilon < fwd * strike) (t : OptionType) (hd : |(fwd - strike) / vol| < 10)
    (delta vega : ℝ) (h : bachelierGreeks fwd vol strike t = some (delta, vega)) :
    (∃ g : ℝ → ℝ, (∀ᶠ f in 𝓝 fwd, bachelierOpt f vol strike t = some (g f)) ∧ HasDerivAt g delta fwd) ∧
    ∃ g : ℝ → ℝ, (∀ᶠ v in 𝓝 vol, bachelierOpt fwd v strike t = some (g v)) ∧ HasDerivAt g vega vol := by
  have hv0 : 0 < vol := lt_trans eps_pos hv
  have hn1 : ∀ᶠ f in 𝓝 fwd, epsilon ≤ f * strike ∧ |(f - strike) / vol| ≤ 10 := by
    have hc : Continuous fun f : ℝ => f * strike := by fun_prop
    have hc2 : Continuous fun f : ℝ => |(f - strike) / vol| := by fun_prop
    filter_upwards [(hc.tendsto fwd).eventually (lt_mem_nhds hfk), (hc2.tendsto fwd).eventually (gt_mem_nhds hd)] with f h1 h2
    exact ⟨h1.le, h2.le⟩
  have hn2 : ∀ᶠ v in 𝓝 vol, epsilon < v ∧ |(fwd - strike) / v| ≤ 10 := by
    have hc : ContinuousAt (fun v : ℝ => |(fwd - strike) / v|) vol := (continuousAt_const.div continuousAt_id hv0.ne').abs
    filter_upwards [lt_mem_nhds hv, hc.eventually (gt_mem_nhds hd)] with v h1 h2
    exact ⟨h1, h2.le⟩
  have hdf : HasDerivAt (fun f => (f - strike) / vol) (1 / vol) fwd := ((hasDerivAt_id fwd).sub_const strike).div_const vol
  have hlin : HasDerivAt (fun f : ℝ => f - strike) 1 fwd := (hasDerivAt_id fwd).sub_const strike
  have hc1 : HasDerivAt (fun f => (f - strike) * ncdf ((f - strike) / vol) + vol * density ((f - strike) / vol)) (ncdf ((fwd - strike) / vol)) fwd := by
    have h1 := (Numeric.ncdf_deriv ((fwd - strike) / vol)).comp fwd hdf
    have h2 := (density_deriv ((fwd - strike) / vol)).comp fwd hdf
    refine ((hlin.mul h1).add (h2.const_mul vol)).congr_deriv ?_
    simp only [Function.comp_apply]
    field_simp
    ring
  obtain ⟨a, ha0⟩ : ∃ a, a = -(fwd - strike) / vol ^ 2 := ⟨_, rfl⟩
  have hdv : HasDerivAt (fun v => (fwd - strike) / v) a vol := by
    refine ((hasDerivAt_const vol (fwd - strike)).div (hasDerivAt_id vol) hv0.ne').congr_deriv ?_
    rw [ha0]; simp only [id]; ring
  have hc2 : HasDerivAt (fun v => (fwd - strike) * ncdf ((fwd - strike) / v) + v * density ((fwd - strike) / v)) (npdf ((fwd - strike) / vol)) vol := by
    have h1 := (Numeric.ncdf_deriv ((fwd - strike) / vol)).comp vol hdv
    have h2 := (density_deriv ((fwd - strike) / vol)).comp vol hdv
    refine ((h1.const_mul (fwd - strike)).add ((hasDerivAt_id vol).mul h2)).congr_deriv ?_
    simp only [Function.comp_apply, id]
    rw [npdf_eq hd.le]
    field_simp
    ring
  unfold bachelierGreeks at h
  rw [if_neg hv0.ne'] at h
  cases t with
  | notSet => cases h
  | call =>
    refine ⟨⟨_, hn1.mono fun f hf => bachelier_formula hv hf.1 hf.2 .call, ?_⟩, ⟨_, hn2.mono fun v hv => bachelier_formula hv.1 hfk.le hv.2 .call, ?_⟩⟩
    · rw [← (Prod.mk.inj (Option.some.inj h)).1]; exact hc1
    · rw [← (Prod.mk.inj (Option.some.inj h)).2]; exact hc2
  | put =>
    refine ⟨⟨_, hn1.mono fun f hf => bachelier_formula hv hf.1 hf.2 .put, ?_⟩, ⟨_, hn2.mono fun v hv => bachelier_formula hv.1 hfk.le hv.2 .put, ?_⟩⟩
    · rw [← (Prod.mk.inj (Option.some.inj h)).1]
      refine (hc1.sub hlin).congr_deriv ?_
      rw [Numeric.ncdf_neg]; ring
    · rw [← (Prod.mk.inj (Option.some.inj h)).2]; exact hc2.sub_const _
  | straddle =>
    refine ⟨⟨_, hn1.mono fun f hf => bachelier_formula hv hf.1 hf.2 .straddle, ?_⟩, ⟨_, hn2.mono fun v hv => bachelier_formula hv.1 hfk.le hv.2 .straddle, ?_⟩⟩
    · rw [← (Prod.mk.inj (Option.some.inj h)).1]
      refine ((hc1.const_mul 2).sub hlin).congr_deriv ?_
      rw [Numeric.ncdf_neg]; ring
    · rw [← (Prod.mk.inj (Option.some.inj h)).2]
      exact (hc2.const_mul 2).sub_const _

/-- C68 fails for the Bachelier model where forward and strike differ in sign: the price does not depend on the volatility at all, but the reported vega is
positive. -/
theorem C68_bachelier_sign_violated (fwd vol strike : ℝ) (hfk : fwd * strike ≤ 0) (hv : 0 < vol) (hd : |(fwd - strike) / vol| ≤ 10) :
    (∀ v, bachelierOpt fwd v strike .call = payout .call fwd strike) ∧ ∃ delta vega, bachelierGreeks fwd vol strike .call = some (delta, vega) ∧ 0 < vega := by
  refine ⟨fun v => ?_, ncdf ((fwd - strike) / vol), npdf ((fwd - strike) / vol), ?_, ?_⟩
  · unfold bachelierOpt
    exact if_pos (Or.inr fun hc => absurd (lt_of_lt_of_le eps_pos hc) (not_lt.2 hfk))
  · unfold bachelierGreeks; rw [if_neg hv.ne']
  · rw [npdf_eq hd]; exact Numeric.density_pos _

/-- C68: there are no greeks at zero volatility, where there is a price. -/
theorem C68_zero_vol_violated (fwd strike : ℝ) (t : OptionType) (ht : t ≠ .notSet) :
    (∃ p, blackOpt fwd 0 strike t = some p) ∧ (∃ p, bachelierOpt fwd 0 strike t = some p) ∧ blackGreeks fwd 0 strike t = none ∧
    bachelierGreeks fwd 0 strike t = none := by
  have h0 : Numeric.IsZero 0 := ⟨eps_pos, by rw [neg_zero]; exact eps_pos⟩
  refine ⟨?_, ?_, ?_, ?_⟩
  · unfold blackOpt; rw [if_pos (Or.inl h0)]; cases t <;> first | exact absurd rfl ht | exact ⟨_, rfl⟩
  · unfold bachelierOpt; rw [if_pos (Or.inl h0)]; cases t <;> first | exact absurd rfl ht | exact ⟨_, rfl⟩
  · unfold blackGreeks; exact if_pos (Or.inr (Or.inr rfl))
  · unfold bachelierGreeks; exact if_pos rfl

/-! ### The hypotheses hold -/

example : (0 : ℝ) < 100 ∧ (0 : ℝ) < 90 ∧ epsilon < (1 / 5 : ℝ) ∧ epsilon < (100 : ℝ) * 90 ∧ |((100 : ℝ) - 90) / (1 / 5 * 100)| < 10 := by
  unfold epsilon; norm_num

example : ∃ delta vega, blackGreeks 100 (1 / 5) 100 .put = some (delta, vega) ∧ |dMinus 100 (1 / 5) 100 + 1 / 5| ≤ 10 := by
  refine ⟨-ncdf (-(dMinus 100 (1 / 5) 100 + 1 / 5)), 100 * npdf (dMinus 100 (1 / 5) 100 + 1 / 5), ?_, ?_⟩
  · unfold blackGreeks; rw [if_neg (by norm_num)]
  · unfold dMinus; rw [div_self (by norm_num), log_one]; norm_num

example : (1 : ℝ) * (-1) ≤ 0 ∧ (0 : ℝ) < 1 ∧ |((1 : ℝ) - (-1)) / 1| ≤ 10 := by norm_num

end Dal
