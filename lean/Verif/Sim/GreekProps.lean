import Verif.Sim.GreekLemmas
import Verif.Script.GradientProps

/-!
# C100: simulated sensitivities

Specification: the mean of what a path computes as its derivative, over the Gaussian numbers of the path, against the derivative of the closed-form price when all the parameters move
along a line.
-/

namespace Dal
open Dal.Numeric Dal.Models Dal.TimeLine Dal.Implied MeasureTheory ProbabilityTheory Filter Topology

/-- The values of the parameters. -/
def BS.values (b : BS Dual) : BS ℝ := ⟨b.spot.v, b.rate.v, b.div.v, b.vol.v⟩

theorem dual_log (b : BS Dual) (line gauss : Nat → ℝ) (k : Nat) :
    (b.logAt line gauss k).v = (BS.values b).logAt line gauss k ∧
    (b.logAt line gauss k).d = b.spot.d / b.spot.v + (b.rate.d - b.div.d - b.vol.v * b.vol.d) * (line k - line 0) +
      b.vol.d * ∑ i ∈ Finset.range k, Real.sqrt (line (i + 1) - line i) * gauss i := by
  rw [BS.logAt, BS.logAt]
  induction k with
  | zero =>
    refine ⟨rfl, ?_⟩
    show b.spot.d / b.spot.v = _
    rw [Finset.sum_range_zero]; ring
  | succ k ih =>
    rw [stateAt, stateAt]
    refine ⟨?_, ?_⟩
    · have h := ih.1
      generalize stateAt (b.step line gauss) (Num.log b.spot) k = x at h
      generalize stateAt ((BS.values b).step line gauss) (Num.log (BS.values b).spot) k = y at h
      show x.v + ((((b.rate.v - b.div.v) - 0.5 * b.vol.v * b.vol.v) * (line (k + 1) - line k)) + (b.vol.v * Real.sqrt (line (k + 1) - line k)) * gauss k) =
        y + ((((b.rate.v - b.div.v) - 0.5 * b.vol.v * b.vol.v) * (line (k + 1) - line k)) + (b.vol.v * Real.sqrt (line (k + 1) - line k)) * gauss k)
      rw [h]
    · have h := ih.2
      generalize stateAt (b.step line gauss) (Num.log b.spot) k = x at h
      show x.d + ((((b.rate.d - b.div.d) - (((0 : ℝ) * b.vol.v + 0.5 * b.vol.d) * b.vol.v + 0.5 * b.vol.v * b.vol.d)) * (line (k + 1) - line k) +
          ((b.rate.v - b.div.v) - 0.5 * b.vol.v * b.vol.v) * 0) +
        ((b.vol.d * Real.sqrt (line (k + 1) - line k) + b.vol.v * 0) * gauss k + (b.vol.v * Real.sqrt (line (k + 1) - line k)) * 0)) = _
      rw [h, Finset.sum_range_succ]
      ring

/-- What the script pays at a date, with numbers that carry derivatives. -/
noncomputable def dualPay (put : Bool) (K : Dual) (num spot : Dual) : Dual :=
  dualOps.div (Script.evalBin dualOps .max (if put then dualOps.sub K spot else dualOps.sub spot K) ⟨0, 0⟩) num

/-- The derivative of the payoff at a date, as a function of the sum of the Gaussian numbers with the deviations of their steps. -/
noncomputable def payD (put : Bool) (disc f v K a c rho kd : ℝ) (x : ℝ) : ℝ :=
  let S := f * Real.exp (x - v ^ 2 / 2)
  if put then disc * (if K < S then 0 else (kd - rho * K) - S * ((a - rho) + c * x))
  else disc * (if S < K then 0 else S * ((a - rho) + c * x) - (kd - rho * K))

theorem payD_measurable (put : Bool) (disc f v K a c rho kd : ℝ) : Measurable (payD put disc f v K a c rho kd) := by
  unfold payD
  cases put
  · simp only [Bool.false_eq_true, if_false]
    exact (Measurable.ite (measurableSet_lt (by fun_prop) measurable_const) measurable_const (by fun_prop)).const_mul disc
  · simp only [if_true]
    exact (Measurable.ite (measurableSet_lt measurable_const (by fun_prop)) measurable_const (by fun_prop)).const_mul disc

private theorem pay_form (put : Bool) (b : BS Dual) (Kd : Dual) (line gauss : Nat → ℝ) (k : Nat) (hs : 0 < b.spot.v) (hv : b.vol.v ≠ 0) (hk : line 0 ≤ line k) (h0 : line 0 = 0) :
    (dualPay put Kd (b.numeraire (line k)) (Num.exp (b.logAt line gauss k))).d =
      payD put (Real.exp (-b.rate.v * line k)) (b.spot.v * Real.exp ((b.rate.v - b.div.v) * line k)) (b.vol.v * Real.sqrt (line k)) Kd.v
        (b.spot.d / b.spot.v + (b.rate.d - b.div.d - b.vol.v * b.vol.d) * line k) (b.vol.d / b.vol.v) (b.rate.d * line k) Kd.d
        (∑ i ∈ Finset.range k, (BS.values b).std line i * gauss i) := by
  obtain ⟨h1, h2⟩ := dual_log b line gauss k
  set x := ∑ i ∈ Finset.range k, (BS.values b).std line i * gauss i with hx
  have h3 : b.vol.d * ∑ i ∈ Finset.range k, Real.sqrt (line (i + 1) - line i) * gauss i = b.vol.d / b.vol.v * x := by
    have : x = b.vol.v * ∑ i ∈ Finset.range k, Real.sqrt (line (i + 1) - line i) * gauss i := by
      rw [hx, Finset.mul_sum]
      refine Finset.sum_congr rfl fun i _ => ?_
      show b.vol.v * Real.sqrt (line (i + 1) - line i) * gauss i = _
      ring
    rw [this]; field_simp
  rw [h3, h0, sub_zero] at h2
  have hS : Real.exp (b.logAt line gauss k).v = b.spot.v * Real.exp ((b.rate.v - b.div.v) * line k) * Real.exp (x - (b.vol.v * Real.sqrt (line k)) ^ 2 / 2) := by
    have := spot_form (BS.values b) line gauss k hs x hx.symm hk
    rw [h0, sub_zero] at this
    rw [h1, this]
    rfl
  generalize b.logAt line gauss k = L at h1 h2 hS
  have hN : Real.exp (-b.rate.v * line k) = 1 / Real.exp (b.rate.v * line k) := by rw [neg_mul, Real.exp_neg, one_div]
  have hNd : (b.numeraire (line k)) = ⟨Real.exp (b.rate.v * line k), (b.rate.d * line k + b.rate.v * 0) * Real.exp (b.rate.v * line k)⟩ := rfl
  have hE : (Num.exp L : Dual) = ⟨Real.exp L.v, L.d * Real.exp L.v⟩ := rfl
  rw [hNd, hE, hN]
  have hpos := (Real.exp_pos (b.rate.v * line k)).ne'
  cases put with
  | false =>
    unfold payD dualPay
    simp only [Bool.false_eq_true, if_false]
    rw [← hS, h2]
    show 1 / Real.exp (b.rate.v * line k) * (if decide (Real.exp L.v - Kd.v < 0) = true then (⟨0, 0⟩ : Dual) else ⟨_, _⟩ : Dual).d +
      -(if decide (Real.exp L.v - Kd.v < 0) = true then (⟨0, 0⟩ : Dual) else ⟨_, _⟩ : Dual).v / Real.exp (b.rate.v * line k) / Real.exp (b.rate.v * line k) *
        ((b.rate.d * line k + b.rate.v * 0) * Real.exp (b.rate.v * line k)) = _
    by_cases hlt : Real.exp L.v < Kd.v
    · rw [if_pos (decide_eq_true (sub_neg.2 hlt)), if_pos hlt]
      show 1 / Real.exp (b.rate.v * line k) * 0 + -0 / _ / _ * _ = _
      simp
    · rw [if_neg (by rw [decide_eq_true_eq, sub_neg]; exact hlt), if_neg hlt]
      show 1 / Real.exp (b.rate.v * line k) * (_ * Real.exp L.v + -1 * Kd.d) + -(Real.exp L.v - Kd.v) / _ / _ * _ = _
      field_simp
      ring
  | true =>
    unfold payD dualPay
    simp only [if_true]
    rw [← hS, h2]
    show 1 / Real.exp (b.rate.v * line k) * (if decide (Kd.v - Real.exp L.v < 0) = true then (⟨0, 0⟩ : Dual) else ⟨_, _⟩ : Dual).d +
      -(if decide (Kd.v - Real.exp L.v < 0) = true then (⟨0, 0⟩ : Dual) else ⟨_, _⟩ : Dual).v / Real.exp (b.rate.v * line k) / Real.exp (b.rate.v * line k) *
        ((b.rate.d * line k + b.rate.v * 0) * Real.exp (b.rate.v * line k)) = _
    by_cases hlt : Kd.v < Real.exp L.v
    · rw [if_pos (decide_eq_true (sub_neg.2 hlt)), if_pos hlt]
      show 1 / Real.exp (b.rate.v * line k) * 0 + -0 / _ / _ * _ = _
      simp
    · rw [if_neg (by rw [decide_eq_true_eq, sub_neg]; exact hlt), if_neg hlt]
      show 1 / Real.exp (b.rate.v * line k) * (Kd.d + -1 * (_ * Real.exp L.v)) + -(Kd.v - Real.exp L.v) / _ / _ * _ = _
      field_simp
      ring

theorem payD_scaled (put : Bool) (disc f v K a c rho kd : ℝ) (hf : 0 < f) (hK : 0 < K) (hv : 0 < v) :
    (fun z => payD put disc f v K a c rho kd (v * z)) =ᵐ[gaussianReal 0 1] fun z => disc * (if put then (if K < spotAt f v z then 0 else (kd - rho * K) - spotAt f v z * ((a - rho) + (c * v) * z))
      else (if K < spotAt f v z then spotAt f v z * ((a - rho) + (c * v) * z) - (kd - rho * K) else 0)) := by
  have hS : ∀ z, f * Real.exp (v * z - v ^ 2 / 2) = spotAt f v z := fun z => by rw [spotAt, sq]
  cases put with
  | true =>
    refine Eventually.of_forall fun z => ?_
    simp only [payD, if_true, hS]
    split_ifs <;> ring
  | false =>
    have : NullSingletonClass (gaussianReal 0 1) := nullSingletonClass_gaussianReal one_ne_zero
    have hne : ∀ᵐ z ∂gaussianReal 0 1, z ≠ -dMinus f v K := by
      rw [ae_iff]
      have he : {z : ℝ | ¬ z ≠ -dMinus f v K} = {-dMinus f v K} := by ext z; simp
      rw [he]
      exact measure_singleton _
    filter_upwards [hne] with z hz
    simp only [payD, Bool.false_eq_true, if_false, hS]
    by_cases h : K < spotAt f v z
    · rw [if_neg (not_lt.2 h.le), if_pos h]; ring
    · have h2 : spotAt f v z < K := by
        refine lt_of_le_of_ne (not_lt.1 h) fun he => hz ?_
        have h3 : ¬ -dMinus f v K < z := fun hc => h ((region_iff hf hK hv z).2 hc)
        have h4 : ¬ z < -dMinus f v K := by
          intro hc
          have h5 : spotAt f v z < spotAt f v (-dMinus f v K) := mul_lt_mul_of_pos_left (Real.exp_lt_exp.2 (by nlinarith)) hf
          have h6 : spotAt f v (-dMinus f v K) ≤ K := not_lt.1 fun hc => lt_irrefl _ ((region_iff hf hK hv _).1 hc)
          linarith
        exact le_antisymm (not_lt.1 h3) (not_lt.1 h4)
      rw [if_pos h2, if_neg h]

theorem payD_integrable (put : Bool) (disc f v K a c rho kd : ℝ) (hf : 0 < f) (hK : 0 < K) (hv : 0 < v) :
    Integrable (fun z => payD put disc f v K a c rho kd (v * z)) (gaussianReal 0 1) := by
  refine Integrable.congr ?_ (payD_scaled put disc f v K a c rho kd hf hK hv).symm
  refine Integrable.const_mul ?_ disc
  cases put with
  | true =>
    simp only [if_true]
    have h := (region_integrable K f v (linear_integrable f v (a - rho) (c * v) (kd - rho * K))).sub (linear_integrable f v (a - rho) (c * v) (kd - rho * K))
    refine h.congr (Eventually.of_forall fun z => ?_)
    show (if K < spotAt f v z then spotAt f v z * ((a - rho) + (c * v) * z) - (kd - rho * K) else 0) - (spotAt f v z * ((a - rho) + (c * v) * z) - (kd - rho * K)) =
      if K < spotAt f v z then 0 else (kd - rho * K) - spotAt f v z * ((a - rho) + (c * v) * z)
    split_ifs <;> ring
  | false =>
    simp only [Bool.false_eq_true, if_false]
    exact region_integrable K f v (linear_integrable f v (a - rho) (c * v) (kd - rho * K))

theorem payD_mean (put : Bool) (disc f v K a c rho kd : ℝ) (hf : 0 < f) (hK : 0 < K) (hv : 0 < v) :
    ∫ z, payD put disc f v K a c rho kd (v * z) ∂gaussianReal 0 1 =
      disc * (if put then (kd - rho * K) * (1 - ncdf (dMinus f v K)) -
          f * ((a - rho + c * v * v) * (1 - ncdf (dMinus f v K + v)) - c * v * density (dMinus f v K + v))
        else f * ((a - rho + c * v * v) * ncdf (dMinus f v K + v) + c * v * density (dMinus f v K + v)) - (kd - rho * K) * ncdf (dMinus f v K)) := by
  rw [integral_congr_ae (payD_scaled put disc f v K a c rho kd hf hK hv), integral_const_mul]
  cases put with
  | true => simp only [if_true]; rw [mean_put_side hf hK hv]
  | false => simp only [Bool.false_eq_true, if_false]; rw [mean_call_side hf hK hv]

theorem pay_mean (put : Bool) (b : BS Dual) (Kd : Dual) (line : Nat → ℝ) (n k : Nat) (hk : k ≤ n) (hl : ∀ i, i < k → line i ≤ line (i + 1)) (h0 : line 0 = 0)
    (hT : 0 < line k) (hs : 0 < b.spot.v) (hv : 0 < b.vol.v) (hK : 0 < Kd.v) :
    Integrable (fun g => (dualPay put Kd (b.numeraire (line k)) (Num.exp (b.logAt line (numbers g) k))).d) (Measure.pi fun _ : Fin n => gaussianReal 0 1) ∧
    gaussMean n (fun gauss => (dualPay put Kd (b.numeraire (line k)) (Num.exp (b.logAt line gauss k))).d) =
      ∫ z, payD put (Real.exp (-b.rate.v * line k)) (b.spot.v * Real.exp ((b.rate.v - b.div.v) * line k)) (b.vol.v * Real.sqrt (line k)) Kd.v
        (b.spot.d / b.spot.v + (b.rate.d - b.div.d - b.vol.v * b.vol.d) * line k) (b.vol.d / b.vol.v) (b.rate.d * line k) Kd.d (b.vol.v * Real.sqrt (line k) * z) ∂gaussianReal 0 1 := by
  have hle := line_le line k hl
  have hw := sum_vars (BS.values b) line n k hl hk
  rw [h0, sub_zero] at hw
  have hform := fun g : Fin n → ℝ => pay_form put b Kd line (numbers g) k hs hv.ne' hle h0
  simp only [sum_numbers _ ((BS.values b).std line) k hk] at hform
  have hf : 0 < b.spot.v * Real.exp ((b.rate.v - b.div.v) * line k) := mul_pos hs (Real.exp_pos _)
  have hv2 : 0 < b.vol.v * Real.sqrt (line k) := mul_pos hv (Real.sqrt_pos.2 hT)
  rw [gaussMean]
  simp only [hform]
  exact ⟨weighted_integrable n _ _ hw _ (payD_measurable _ _ _ _ _ _ _ _ _) (payD_integrable put _ _ _ _ _ _ _ _ hf hK hv2),
    weighted_mean n _ _ hw _ (payD_measurable _ _ _ _ _ _ _ _ _)⟩

theorem price_moves (put : Bool) {F K v r : ℝ → ℝ} {F' K' v' r' u T : ℝ} (hF : HasDerivAt F F' u) (hK : HasDerivAt K K' u) (hv : HasDerivAt v v' u) (hr : HasDerivAt r r' u)
    (f0 : 0 < F u) (k0 : 0 < K u) (v0 : epsilon < v u) (fk : epsilon < F u * K u) :
    ∃ price : ℝ → ℝ, (∀ᶠ t in 𝓝 u, blackOpt (F t) (v t) (K t) (if put then .put else .call) = some (price t)) ∧
      HasDerivAt (fun t => Real.exp (-r t * T) * price t)
        (Real.exp (-r u * T) * (if put then (K' - r' * T * K u) * (1 - ncdf (dMinus (F u) (v u) (K u))) -
          ((F' - F u * (r' * T)) * (1 - ncdf (dMinus (F u) (v u) (K u) + v u)) - F u * v' * density (dMinus (F u) (v u) (K u) + v u))
        else (F' - F u * (r' * T)) * ncdf (dMinus (F u) (v u) (K u) + v u) + F u * v' * density (dMinus (F u) (v u) (K u) + v u) -
          (K' - r' * T * K u) * ncdf (dMinus (F u) (v u) (K u)))) u := by
  have hv0 : 0 < v u := lt_trans (by norm_num [epsilon]) v0
  have hc := call_moves hF hK hv f0 k0 hv0
  have hd : HasDerivAt (fun t => Real.exp (-r t * T)) (Real.exp (-r u * T) * (-r' * T)) u := (hr.neg.mul_const T).exp
  have hnear : ∀ᶠ t in 𝓝 u, epsilon ≤ v t ∧ epsilon ≤ F t * K t := by
    filter_upwards [hv.continuousAt.eventually (lt_mem_nhds v0), (hF.mul hK).continuousAt.eventually (lt_mem_nhds fk)] with t h1 h2
    exact ⟨h1.le, h2.le⟩
  cases put with
  | false =>
    simp only [Bool.false_eq_true, if_false]
    refine ⟨fun t => callF (F t) (K t) (v t), ?_, (hd.mul hc).congr_deriv ?_⟩
    · filter_upwards [hnear] with t ht
      exact black_call ht.1 ht.2
    · simp only [callF, Pi.add_apply, Pi.sub_apply]; ring
  | true =>
    simp only [if_true]
    refine ⟨fun t => callF (F t) (K t) (v t) - F t + K t, ?_, (hd.mul ((hc.sub hF).add hK)).congr_deriv ?_⟩
    · filter_upwards [hnear] with t ht
      unfold blackOpt
      rw [if_neg (by rintro (h | h); exacts [not_lt.2 ht.1 h.1, h ht.2])]
      simp only [ncdf_neg, callF]
      congr 1
      ring
    · simp only [callF, Pi.add_apply, Pi.sub_apply]; ring

/-- C100, at a date: the mean over Black–Scholes paths of the derivative that a path computes for the discounted payoff of a call or a put is the derivative of the discounted Black
price, in whatever way spot, rate, dividend, volatility and strike move. -/
theorem C100_date (put : Bool) (fs fr fd fv fk : ℝ → ℝ) (u : ℝ) (b : BS Dual) (Kd : Dual) (hs : Tracks fs u b.spot) (hr : Tracks fr u b.rate) (hd : Tracks fd u b.div)
    (hv : Tracks fv u b.vol) (hK : Tracks fk u Kd) (line : Nat → ℝ) (n k : Nat) (hk : k ≤ n) (hl : ∀ i, i < k → line i ≤ line (i + 1)) (h0 : line 0 = 0) (hT : 0 < line k)
    (s0 : 0 < fs u) (k0 : 0 < fk u) (v0 : epsilon < fv u * Real.sqrt (line k)) (e0 : epsilon < fs u * Real.exp ((fr u - fd u) * line k) * fk u) :
    ∃ price : ℝ → ℝ,
      (∀ᶠ t in 𝓝 u, blackOpt (fs t * Real.exp ((fr t - fd t) * line k)) (fv t * Real.sqrt (line k)) (fk t) (if put then .put else .call) = some (price t)) ∧
      HasDerivAt (fun t => Real.exp (-fr t * line k) * price t)
        (gaussMean n fun gauss => (dualPay put Kd (b.numeraire (line k)) (Num.exp (b.logAt line gauss k))).d) u ∧
      Integrable (fun g => (dualPay put Kd (b.numeraire (line k)) (Num.exp (b.logAt line (numbers g) k))).d) (Measure.pi fun _ : Fin n => gaussianReal 0 1) := by
  have hvp : 0 < fv u := by
    by_contra hc
    have := mul_nonpos_of_nonpos_of_nonneg (not_lt.1 hc) (Real.sqrt_nonneg (line k))
    have : (0 : ℝ) < epsilon := by norm_num [epsilon]
    linarith
  have h1 := pay_mean put b Kd line n k hk hl h0 hT (by rw [hs.1]; exact s0) (by rw [hv.1]; exact hvp) (by rw [hK.1]; exact k0)
  have hf : 0 < fs u * Real.exp ((fr u - fd u) * line k) := mul_pos s0 (Real.exp_pos _)
  have hF : HasDerivAt (fun t => fs t * Real.exp ((fr t - fd t) * line k)) _ u := hs.2.mul (((hr.2.sub hd.2).mul_const (line k)).exp)
  obtain ⟨price, p1, p2⟩ := price_moves put (T := line k) hF hK.2 (hv.2.mul_const (Real.sqrt (line k))) hr.2 hf k0 v0 e0
  refine ⟨price, p1, p2.congr_deriv ?_, h1.1⟩
  have hsq : Real.sqrt (line k) * Real.sqrt (line k) = line k := Real.mul_self_sqrt hT.le
  rw [h1.2, hs.1, hr.1, hd.1, hv.1, hK.1, payD_mean put _ _ _ _ _ _ _ _ hf k0 (mul_pos hvp (Real.sqrt_pos.2 hT))]
  congr 1
  have e1 : fs u * Real.exp ((fr u - fd u) * line k) * (b.spot.d / fs u + (b.rate.d - b.div.d - fv u * b.vol.d) * line k - b.rate.d * line k +
      b.vol.d / fv u * (fv u * Real.sqrt (line k)) * (fv u * Real.sqrt (line k))) =
      b.spot.d * Real.exp ((fr u - fd u) * line k) + fs u * (Real.exp ((fr u - fd u) * line k) * ((b.rate.d - b.div.d) * line k)) -
        fs u * Real.exp ((fr u - fd u) * line k) * (b.rate.d * line k) := by
    have e2 : b.vol.d / fv u * (fv u * Real.sqrt (line k)) * (fv u * Real.sqrt (line k)) = b.vol.d * fv u * line k := by
      rw [show b.vol.d / fv u * (fv u * Real.sqrt (line k)) * (fv u * Real.sqrt (line k)) = b.vol.d / fv u * fv u * fv u * (Real.sqrt (line k) * Real.sqrt (line k)) by ring, hsq,
        div_mul_cancel₀ _ hvp.ne']
    rw [e2]
    field_simp
    ring
  have e3 : b.vol.d / fv u * (fv u * Real.sqrt (line k)) = b.vol.d * Real.sqrt (line k) := by field_simp
  cases put with
  | false =>
    simp only [Bool.false_eq_true, if_false, Pi.sub_apply]
    linear_combination (-ncdf (dMinus (fs u * Real.exp ((fr u - fd u) * line k)) (fv u * Real.sqrt (line k)) (fk u) + fv u * Real.sqrt (line k))) * e1 -
      fs u * Real.exp ((fr u - fd u) * line k) * density (dMinus (fs u * Real.exp ((fr u - fd u) * line k)) (fv u * Real.sqrt (line k)) (fk u) + fv u * Real.sqrt (line k)) * e3
  | true =>
    simp only [if_true, Pi.sub_apply]
    linear_combination (1 - ncdf (dMinus (fs u * Real.exp ((fr u - fd u) * line k)) (fv u * Real.sqrt (line k)) (fk u) + fv u * Real.sqrt (line k))) * e1 -
      fs u * Real.exp ((fr u - fd u) * line k) * density (dMinus (fs u * Real.exp ((fr u - fd u) * line k)) (fv u * Real.sqrt (line k)) (fk u) + fv u * Real.sqrt (line k)) * e3

private noncomputable def demoBS : BS Dual := ⟨⟨100, 1⟩, ⟨0.03, 0⟩, ⟨0.01, 0⟩, ⟨0.2, 0⟩⟩

private theorem demo_bounds (t : ℝ) (h : 1 ≤ t) : epsilon < 0.2 * Real.sqrt t ∧ epsilon < 100 * Real.exp ((0.03 - 0.01) * t) * 110 := by
  have h1 := Real.one_le_exp (show (0 : ℝ) ≤ (0.03 - 0.01) * t by nlinarith)
  have h2 : (1 : ℝ) ≤ Real.sqrt t := by rw [Real.le_sqrt (by norm_num) (by linarith)]; linarith
  refine ⟨?_, ?_⟩
  · exact lt_of_lt_of_le (show epsilon < 0.2 * 1 by norm_num [epsilon]) (mul_le_mul_of_nonneg_left h2 (by norm_num))
  · rw [epsilon]; nlinarith

/-- The derivative with respect to the spot of a put struck at 110, in two of three years. -/
example : ∃ price : ℝ → ℝ,
    (∀ᶠ t in 𝓝 (100 : ℝ), blackOpt (t * Real.exp ((0.03 - 0.01) * ((2 : Nat) : ℝ))) (0.2 * Real.sqrt ((2 : Nat) : ℝ)) 110 .put = some (price t)) ∧
    HasDerivAt (fun t => Real.exp (-0.03 * ((2 : Nat) : ℝ)) * price t)
      (gaussMean 3 fun gauss => (dualPay true ⟨110, 0⟩ (demoBS.numeraire ((2 : Nat) : ℝ)) (Num.exp (demoBS.logAt (fun i => i) gauss 2))).d) 100 := by
  obtain ⟨p, h1, h2, -⟩ := C100_date true (fun t => t) (fun _ => 0.03) (fun _ => 0.01) (fun _ => 0.2) (fun _ => 110) 100 demoBS ⟨110, 0⟩ ⟨rfl, hasDerivAt_id _⟩
    ⟨rfl, hasDerivAt_const _ _⟩ ⟨rfl, hasDerivAt_const _ _⟩ ⟨rfl, hasDerivAt_const _ _⟩ ⟨rfl, hasDerivAt_const _ _⟩ (fun i => i) 3 2 (by omega) (fun i _ => by push_cast; linarith)
    (by norm_num) (by norm_num) (by norm_num) (by norm_num) (demo_bounds _ (by norm_num)).1 (demo_bounds _ (by norm_num)).2
  exact ⟨p, h1, h2⟩

/-- C100, the closed-form greeks: with the delta and the vega of `BlackGreeks` and the price of `BlackOpt` at the forward, the mean derivative is the discount times delta times the move of
the forward, plus vega times the move of the deviation, less the price times the move of the rate times the time. -/
theorem C100_greeks (put : Bool) (b : BS Dual) (K : ℝ) (line : Nat → ℝ) (n k : Nat) (hk : k ≤ n) (hl : ∀ i, i < k → line i ≤ line (i + 1)) (h0 : line 0 = 0) (hT : 0 < line k)
    (s0 : 0 < b.spot.v) (k0 : 0 < K) (v0 : epsilon < b.vol.v * Real.sqrt (line k)) (e0 : epsilon < b.spot.v * Real.exp ((b.rate.v - b.div.v) * line k) * K)
    (delta vega price : ℝ)
    (hg : blackGreeks (b.spot.v * Real.exp ((b.rate.v - b.div.v) * line k)) (b.vol.v * Real.sqrt (line k)) K (if put then .put else .call) = some (delta, vega))
    (hp : blackOpt (b.spot.v * Real.exp ((b.rate.v - b.div.v) * line k)) (b.vol.v * Real.sqrt (line k)) K (if put then .put else .call) = some price)
    (hd : |dMinus (b.spot.v * Real.exp ((b.rate.v - b.div.v) * line k)) (b.vol.v * Real.sqrt (line k)) K + b.vol.v * Real.sqrt (line k)| ≤ 10) :
    gaussMean n (fun gauss => (dualPay put ⟨K, 0⟩ (b.numeraire (line k)) (Num.exp (b.logAt line gauss k))).d) =
      Real.exp (-b.rate.v * line k) * (delta * (Real.exp ((b.rate.v - b.div.v) * line k) * (b.spot.d + b.spot.v * (b.rate.d - b.div.d) * line k)) +
        vega * (b.vol.d * Real.sqrt (line k)) - price * (b.rate.d * line k)) := by
  have hvp : 0 < b.vol.v := by
    by_contra hc
    have := mul_nonpos_of_nonpos_of_nonneg (not_lt.1 hc) (Real.sqrt_nonneg (line k))
    have : (0 : ℝ) < epsilon := by norm_num [epsilon]
    linarith
  have hf : 0 < b.spot.v * Real.exp ((b.rate.v - b.div.v) * line k) := mul_pos s0 (Real.exp_pos _)
  have hv2 : 0 < b.vol.v * Real.sqrt (line k) := mul_pos hvp (Real.sqrt_pos.2 hT)
  have hsq : Real.sqrt (line k) * Real.sqrt (line k) = line k := Real.mul_self_sqrt hT.le
  rw [(pay_mean put b ⟨K, 0⟩ line n k hk hl h0 hT s0 hvp k0).2, payD_mean put _ _ _ _ _ _ _ _ hf k0 hv2]
  congr 1
  have e2 : b.vol.d / b.vol.v * (b.vol.v * Real.sqrt (line k)) * (b.vol.v * Real.sqrt (line k)) = b.vol.d * b.vol.v * line k := by
    rw [show b.vol.d / b.vol.v * (b.vol.v * Real.sqrt (line k)) * (b.vol.v * Real.sqrt (line k)) = b.vol.d / b.vol.v * b.vol.v * b.vol.v * (Real.sqrt (line k) * Real.sqrt (line k)) by ring,
      hsq, div_mul_cancel₀ _ hvp.ne']
  have e3 : b.vol.d / b.vol.v * (b.vol.v * Real.sqrt (line k)) = b.vol.d * Real.sqrt (line k) := by field_simp
  have e4 : b.spot.v * (b.spot.d / b.spot.v) = b.spot.d := by field_simp
  rw [e2, e3]
  unfold blackGreeks at hg
  unfold blackOpt at hp
  rw [if_neg (by rintro (h | h | h); exacts [k0.ne' h, absurd (div_pos hf k0) (not_lt.2 h), hv2.ne' h])] at hg
  rw [if_neg (by rintro (h | h); exacts [not_lt.2 v0.le h.1, h e0.le])] at hp
  cases put with
  | false =>
    simp only [Bool.false_eq_true, if_false, Option.some.injEq, Prod.mk.injEq] at hg hp ⊢
    obtain ⟨rfl, rfl⟩ := hg
    subst hp
    rw [npdf_eq hd]
    generalize ncdf (dMinus (b.spot.v * Real.exp ((b.rate.v - b.div.v) * line k)) (b.vol.v * Real.sqrt (line k)) K + b.vol.v * Real.sqrt (line k)) = N
    linear_combination N * Real.exp ((b.rate.v - b.div.v) * line k) * e4
  | true =>
    simp only [if_true, Option.some.injEq, Prod.mk.injEq] at hg hp ⊢
    obtain ⟨rfl, rfl⟩ := hg
    subst hp
    rw [npdf_eq hd, ncdf_neg, ncdf_neg]
    generalize ncdf (dMinus (b.spot.v * Real.exp ((b.rate.v - b.div.v) * line k)) (b.vol.v * Real.sqrt (line k)) K + b.vol.v * Real.sqrt (line k)) = N
    linear_combination -(1 - N) * Real.exp ((b.rate.v - b.div.v) * line k) * e4

/-- A call at the money forward, with respect to the spot. -/
example (F : ℝ) (h : F = 100 * Real.exp ((0.03 - 0.01) * ((2 : Nat) : ℝ))) : ∃ delta vega, blackGreeks F (0.2 * Real.sqrt ((2 : Nat) : ℝ)) F .call = some (delta, vega) ∧
    gaussMean 3 (fun gauss => (dualPay false ⟨F, 0⟩ (demoBS.numeraire ((2 : Nat) : ℝ)) (Num.exp (demoBS.logAt (fun i => i) gauss 2))).d) =
      Real.exp (-0.03 * ((2 : Nat) : ℝ)) * (delta * Real.exp ((0.03 - 0.01) * ((2 : Nat) : ℝ))) := by
  subst h
  have hb := demo_bounds ((2 : Nat) : ℝ) (by norm_num)
  have hF : (0 : ℝ) < 100 * Real.exp ((0.03 - 0.01) * ((2 : Nat) : ℝ)) := by positivity
  have h1 : (1 : ℝ) ≤ Real.exp ((0.03 - 0.01) * ((2 : Nat) : ℝ)) := Real.one_le_exp (by norm_num)
  have hv : (0 : ℝ) < 0.2 * Real.sqrt ((2 : Nat) : ℝ) := by positivity
  have hs2 : Real.sqrt ((2 : Nat) : ℝ) ≤ 2 := by rw [Real.sqrt_le_left (by norm_num)]; norm_num
  have he : epsilon < 100 * Real.exp ((0.03 - 0.01) * ((2 : Nat) : ℝ)) * (100 * Real.exp ((0.03 - 0.01) * ((2 : Nat) : ℝ))) := by rw [epsilon]; nlinarith
  have hdm : dMinus (100 * Real.exp ((0.03 - 0.01) * ((2 : Nat) : ℝ))) (0.2 * Real.sqrt ((2 : Nat) : ℝ)) (100 * Real.exp ((0.03 - 0.01) * ((2 : Nat) : ℝ))) + 0.2 * Real.sqrt ((2 : Nat) : ℝ) =
      0.1 * Real.sqrt ((2 : Nat) : ℝ) := by
    unfold dMinus
    rw [div_self hF.ne', Real.log_one, zero_div]; ring
  obtain ⟨delta, vega, hg⟩ : ∃ delta vega, blackGreeks (100 * Real.exp ((0.03 - 0.01) * ((2 : Nat) : ℝ))) (0.2 * Real.sqrt ((2 : Nat) : ℝ))
      (100 * Real.exp ((0.03 - 0.01) * ((2 : Nat) : ℝ))) .call = some (delta, vega) := by
    unfold blackGreeks
    rw [if_neg (by rintro (h | h | h); exacts [hF.ne' h, absurd (div_pos hF hF) (not_lt.2 h), hv.ne' h])]
    exact ⟨_, _, rfl⟩
  refine ⟨delta, vega, hg, ?_⟩
  have := C100_greeks false demoBS _ (fun i => i) 3 2 (by omega) (fun i _ => by push_cast; linarith) (by norm_num) (by norm_num) (show (0 : ℝ) < 100 by norm_num) hF hb.1 he delta vega _ hg
    (black_call hb.1.le he.le) (by
      show |dMinus (100 * Real.exp ((0.03 - 0.01) * ((2 : Nat) : ℝ))) (0.2 * Real.sqrt ((2 : Nat) : ℝ)) (100 * Real.exp ((0.03 - 0.01) * ((2 : Nat) : ℝ))) + 0.2 * Real.sqrt ((2 : Nat) : ℝ)| ≤ 10
      rw [hdm, abs_of_nonneg (by positivity)]
      exact (mul_le_mul_of_nonneg_left hs2 (by norm_num)).trans (by norm_num))
  refine this.trans ?_
  show Real.exp (-0.03 * ((2 : Nat) : ℝ)) * (delta * (Real.exp ((0.03 - 0.01) * ((2 : Nat) : ℝ)) * (1 + 100 * (0 - 0) * ((2 : Nat) : ℝ))) + vega * (0 * Real.sqrt ((2 : Nat) : ℝ)) -
    _ * (0 * ((2 : Nat) : ℝ))) = _
  congr 1
  ring

/-! ## From the text of a script to its sensitivities -/

private theorem option_run_dual (put : Bool) (K : ℝ) (cv : Nat → Dual) : ∀ (L : List (Models.Sample Dual)) (σ : Nat → Dual),
    (Script.evaluate dualOps cv (((List.replicate L.length (optionTree put 0 0 K)).map Script.Stmts.lift).zip (L.map fun s => ⟨s.spot, s.numeraire⟩)) σ 0).d =
      (σ 0).d + (L.map fun s => (dualPay put (cv 0) s.numeraire s.spot).d).sum := by
  intro L
  induction L with
  | nil => intro σ; simp [Script.evaluate]
  | cons s L ih =>
    intro σ
    have h1 : (Script.execs dualOps cv ⟨s.spot, s.numeraire⟩ (optionTree put 0 0 K).lift σ 0).d = (σ 0).d + (dualPay put (cv 0) s.numeraire s.spot).d := by cases put <;> rfl
    have h2 := ih (Script.execs dualOps cv ⟨s.spot, s.numeraire⟩ (optionTree put 0 0 K).lift σ)
    rw [List.map_cons, List.map_cons, List.sum_cons, List.length_cons, List.replicate_succ, List.map_cons, List.zip_cons_cons]
    show (Script.evaluate dualOps cv (((List.replicate L.length (optionTree put 0 0 K)).map Script.Stmts.lift).zip (L.map fun s => ⟨s.spot, s.numeraire⟩))
      (Script.execs dualOps cv ⟨s.spot, s.numeraire⟩ (optionTree put 0 0 K).lift σ) 0).d = _
    rw [h2, h1]
    ring

/-- C100, from the text to the sensitivities: the script that pays a call or a put at each of its dates is parsed, indexed and run with `Number_` on the scenarios of the Black–Scholes
model; the mean of the derivative of its payoff variable is the derivative of the sum of the discounted Black prices. -/
theorem C100_script (put : Bool) (fs fr fd fv fk : ℝ → ℝ) (u : ℝ) (b : BS Dual) (Kd : Dual) (hs : Tracks fs u b.spot) (hr : Tracks fr u b.rate) (hd : Tracks fd u b.div)
    (hv : Tracks fv u b.vol) (hK : Tracks fk u Kd) (product : List ℝ) (hne : product ≠ []) (hp : product.IsChain (· < ·)) (hpos : ∀ t ∈ product, 0 < t)
    (s0 : 0 < fs u) (k0 : 0 < fk u) (v0 : ∀ t ∈ product, epsilon < fv u * Real.sqrt t) (e0 : ∀ t ∈ product, epsilon < fs u * Real.exp ((fr u - fd u) * t) * fk u)
    (v : Script.PEnv ℝ) (h1 : v.cvs ['o', 'p', 't'] = none) (h2 : v.cvs ['K'] = some Kd.v) (h3 : v.toD (.num ['0', '.', '0']) = some 0) (cval : List Char → ℝ) :
    ∃ (prog : Script.PStmts ℝ) (line : List ℝ) (flags : List Bool) (paths : (Nat → ℝ) → List (Models.Sample Dual)) (ix : Script.Indexer (List Char) ℝ) (code : List (Script.Stmts Nat ℝ))
      (i : Nat) (prices : ℝ → Fin product.length → ℝ),
      (∃ N, ∀ n, N ≤ n → Script.pEvent v n (Script.tokens (optionText put)) = .ok prog) ∧
      (⟨[], []⟩ : Script.Indexer (List Char) ℝ).events cval (List.replicate product.length prog) = (ix, code) ∧
      Script.payoffIdx ['o', 'p', 't'] ix.varNames = some i ∧
      bsAllocate product = some (line, flags) ∧
      (∀ gauss, b.scenario product (product.map fun t => ⟨true, [t], [[t]]⟩) line flags gauss = some (paths gauss)) ∧
      (∀ᶠ t in 𝓝 u, ∀ k, blackOpt (fs t * Real.exp ((fr t - fd t) * product[k])) (fv t * Real.sqrt product[k]) (fk t) (if put then .put else .call) = some (prices t k)) ∧
      ∀ cv : Nat → Dual, cv 0 = Kd →
        HasDerivAt (fun t => ∑ k, Real.exp (-fr t * product[k]) * prices t k)
          (gaussMean (line.length - 1) fun gauss =>
            (Script.evaluate dualOps cv ((code.map Script.Stmts.lift).zip ((paths gauss).map fun s => ⟨s.spot, s.numeraire⟩)) (fun _ => ⟨0, 0⟩) i).d) u := by
  have hnn : ∀ t ∈ product, 0 ≤ t := fun t ht => (hpos t ht).le
  obtain ⟨line, flags, ha, hhead, -, hchain, -, -, -⟩ := C63_bs_line product hne hp hnn
  have hsc := fun gauss => C77_bs_scenario_any b product (product.map fun t => ⟨true, [t], [[t]]⟩) gauss hne hp hnn (List.length_map _)
  have hpw := List.isChain_iff_pairwise.1 hchain
  have huniq : ∀ (i j : Nat) (t : ℝ), (line)[i]? = some t → (line)[j]? = some t → i = j := by
    intro i j t hi hj
    have hnd : line.Nodup := hpw.imp fun h => ne_of_lt h
    obtain ⟨hi', hi⟩ := List.getElem?_eq_some_iff.1 hi
    obtain ⟨hj', hj⟩ := List.getElem?_eq_some_iff.1 hj
    exact (List.Nodup.getElem_inj_iff hnd).1 (hi.trans hj.symm)
  obtain ⟨l0, f0, p0, a0, -, -, q0⟩ := hsc fun _ => 0
  have hl0 : l0 = line := by rw [ha] at a0; injection a0 with a0; injection a0 with a0 _; exact a0.symm
  subst hl0
  choose pos hpos' _ using q0
  have hpaths : ∀ gauss, b.scenario product (product.map fun t => ⟨true, [t], [[t]]⟩) l0 flags gauss =
      some (List.ofFn fun k : Fin product.length =>
        (⟨Num.exp (b.logAt (fun i => l0.getD i 0) gauss (pos k.1 k.2)), b.numeraire product[k], [Num.lit 1], [[Num.lit 1]]⟩ : Models.Sample Dual)) := by
    intro gauss
    obtain ⟨l1, f1, p1, a1, s1, n1, q1⟩ := hsc gauss
    rw [ha] at a1
    injection a1 with a1
    injection a1 with a1 a2
    subst a1 a2
    rw [s1]
    congr 1
    apply List.ext_getElem?
    intro k
    by_cases hk : k < product.length
    · obtain ⟨ps, e1, e2⟩ := q1 k hk
      rw [e2, List.getElem?_ofFn, dif_pos hk, huniq ps _ _ e1 (hpos' k hk)]
      simp
    · rw [List.getElem?_eq_none (by omega), List.getElem?_eq_none (by rw [List.length_ofFn]; omega)]
  have hline0 : l0.getD 0 0 = 0 := by
    rw [List.getD_eq_getElem?_getD, ← List.head?_eq_getElem?, hhead]; rfl
  have hlinek : ∀ k (hk : k < product.length), l0.getD (pos k hk) 0 = product[k] := by
    intro k hk
    rw [List.getD_eq_getElem?_getD, hpos' k hk]; rfl
  have hposlt : ∀ k (hk : k < product.length), pos k hk ≤ l0.length - 1 := by
    intro k hk
    have := (List.getElem?_eq_some_iff.1 (hpos' k hk)).1
    omega
  have hmono : ∀ k (hk : k < product.length) i, i < pos k hk → l0.getD i 0 ≤ l0.getD (i + 1) 0 := by
    intro k hk i hi
    have := (List.getElem?_eq_some_iff.1 (hpos' k hk)).1
    rw [List.getD_eq_getElem?_getD, List.getD_eq_getElem?_getD, List.getElem?_eq_getElem (by omega), List.getElem?_eq_getElem (by omega)]
    exact (List.pairwise_iff_getElem.1 hpw i (i + 1) (by omega) (by omega) (by omega)).le
  have hdate := fun k : Fin product.length => C100_date put fs fr fd fv fk u b Kd hs hr hd hv hK (fun i => l0.getD i 0) (l0.length - 1) (pos k.1 k.2) (hposlt k.1 k.2) (hmono k.1 k.2) hline0
    (by rw [hlinek]; exact hpos _ (List.getElem_mem _)) s0 k0 (by rw [hlinek]; exact v0 _ (List.getElem_mem _)) (by rw [hlinek]; exact e0 _ (List.getElem_mem _))
  simp only [hlinek] at hdate
  choose prices x1 x2 x3 using hdate
  refine ⟨_, l0, flags, _, _, _, 0, fun t k => prices k t, option_parsed put v Kd.v h1 h2 h3, option_indexed put cval Kd.v product.length (List.length_pos_of_ne_nil hne), rfl, ha, hpaths,
    eventually_all.2 x1, ?_⟩
  intro cv hcv
  have hsum : ∀ gauss : Nat → ℝ, (Script.evaluate dualOps cv (((List.replicate product.length (optionTree put 0 0 Kd.v)).map Script.Stmts.lift).zip
      ((List.ofFn fun k : Fin product.length =>
        (⟨Num.exp (b.logAt (fun i => l0.getD i 0) gauss (pos k.1 k.2)), b.numeraire product[k], [Num.lit 1], [[Num.lit 1]]⟩ : Models.Sample Dual)).map fun s => ⟨s.spot, s.numeraire⟩))
      (fun _ => ⟨0, 0⟩) 0).d =
      ∑ k : Fin product.length, (dualPay put Kd (b.numeraire product[k]) (Num.exp (b.logAt (fun i => l0.getD i 0) gauss (pos k.1 k.2)))).d := by
    intro gauss
    have h := option_run_dual put Kd.v cv (List.ofFn fun k : Fin product.length =>
        (⟨Num.exp (b.logAt (fun i => l0.getD i 0) gauss (pos k.1 k.2)), b.numeraire product[k], [Num.lit 1], [[Num.lit 1]]⟩ : Models.Sample Dual)) (fun _ => ⟨0, 0⟩)
    rw [List.length_ofFn] at h
    rw [h, List.map_ofFn, List.sum_ofFn, zero_add, hcv]
    rfl
  simp only [hsum]
  rw [gaussMean, integral_finset_sum]
  · exact HasDerivAt.fun_sum fun k _ => x2 k
  · exact fun k _ => x3 k

/-- Calls struck at 110 in one year and in two, with respect to the volatility. -/
example : ∃ (line : List ℝ) (flags : List Bool) (prices : ℝ → Fin 2 → ℝ), bsAllocate [(1 : ℝ), 2] = some (line, flags) ∧
    ∀ᶠ t in 𝓝 (0.2 : ℝ), ∀ k, blackOpt (100 * Real.exp ((0.03 - 0.01) * ([1, 2] : List ℝ).get k)) (t * Real.sqrt (([1, 2] : List ℝ).get k)) 110 .call = some (prices t k) := by
  obtain ⟨_, line, flags, _, _, _, _, prices, _, _, _, h1, _, h2, _⟩ := C100_script false (fun _ => 100) (fun _ => 0.03) (fun _ => 0.01) (fun t => t) (fun _ => 110) 0.2
    ⟨⟨100, 0⟩, ⟨0.03, 0⟩, ⟨0.01, 0⟩, ⟨0.2, 1⟩⟩ ⟨110, 0⟩ ⟨rfl, hasDerivAt_const _ _⟩ ⟨rfl, hasDerivAt_const _ _⟩ ⟨rfl, hasDerivAt_const _ _⟩ ⟨rfl, hasDerivAt_id _⟩
    ⟨rfl, hasDerivAt_const _ _⟩ [1, 2] (by simp) (by simp) (by simp) (by norm_num) (by norm_num)
    (by
      intro t ht
      simp only [List.mem_cons, List.not_mem_nil, or_false] at ht
      exact (demo_bounds t (by rcases ht with rfl | rfl <;> norm_num)).1)
    (by
      intro t ht
      simp only [List.mem_cons, List.not_mem_nil, or_false] at ht
      exact (demo_bounds t (by rcases ht with rfl | rfl <;> norm_num)).2)
    ⟨fun _ => some 0, fun s => if s = ['K'] then some 110 else none, fun _ _ => some none, -1, 0⟩ rfl rfl rfl (fun _ => 0)
  exact ⟨line, flags, prices, h1, h2⟩

/-! ## Payoffs that jump -/

/-- `IF spot() > K THEN x pays 1 ENDIF`. -/
def digitalTree (K : ℝ) : Script.Stmts Nat ℝ :=
  .cons (.ite (.cmp .sup (.bin .sub .spot (.constVar 0 K) none) ⟨-1, false, 0, 0⟩ {}) (.cons (.pays ⟨0, false⟩ (.const 1)) .nil) false .nil [0] {}) .nil

/-- What the digital pays on a path at the end of one step. -/
noncomputable def digitalValue (b : BS ℝ) (K T : ℝ) (gauss : Nat → ℝ) : ℝ :=
  Script.evaluate realOps (fun _ => K) [(digitalTree K, ⟨Real.exp (b.logAt (fun i => i * T) gauss 1), b.numeraire T⟩)] (fun _ => 0) 0

/-- C100 for payoffs that jump: on every path the derivative that a digital option computes with respect to the spot is zero, and so is the mean, but the price rises with the spot. -/
theorem C100_digital_violated (s r q vol K T : ℝ) (hs : 0 < s) (hv : 0 < vol) (hK : 0 < K) (hT : 0 < T) :
    (∀ gauss, (Script.evaluate dualOps (fun _ => ⟨K, 0⟩) [((digitalTree K).lift, ⟨Num.exp ((⟨⟨s, 1⟩, ⟨r, 0⟩, ⟨q, 0⟩, ⟨vol, 0⟩⟩ : BS Dual).logAt (fun i => i * T) gauss 1),
        (⟨⟨s, 1⟩, ⟨r, 0⟩, ⟨q, 0⟩, ⟨vol, 0⟩⟩ : BS Dual).numeraire T⟩)] (fun _ => ⟨0, 0⟩) 0).d = 0) ∧
      ∃ d > 0, HasDerivAt (fun t => gaussMean 1 (digitalValue ⟨t, r, q, vol⟩ K T)) d s := by
  refine ⟨fun gauss => ?_, ?_⟩
  · generalize (Num.exp ((⟨⟨s, 1⟩, ⟨r, 0⟩, ⟨q, 0⟩, ⟨vol, 0⟩⟩ : BS Dual).logAt (fun i => i * T) gauss 1) : Dual) = S
    have hN : (⟨⟨s, 1⟩, ⟨r, 0⟩, ⟨q, 0⟩, ⟨vol, 0⟩⟩ : BS Dual).numeraire T = ⟨Real.exp (r * T), (0 * T + r * 0) * Real.exp (r * T)⟩ := rfl
    rw [hN]
    show ((if decide (0 < S.v - K) = true then Script.upd (fun _ => (⟨0, 0⟩ : Dual)) 0 ⟨_, 0 + (1 / Real.exp (r * T) * 0 + -1 / Real.exp (r * T) / Real.exp (r * T) *
      ((0 * T + r * 0) * Real.exp (r * T)))⟩ else if false = true then _ else fun _ => (⟨0, 0⟩ : Dual)) 0).d = 0
    split_ifs
    · show 0 + (1 / Real.exp (r * T) * 0 + -1 / Real.exp (r * T) / Real.exp (r * T) * ((0 * T + r * 0) * Real.exp (r * T))) = 0
      ring
    all_goals rfl
  · have hval : ∀ t, 0 < t → gaussMean 1 (digitalValue ⟨t, r, q, vol⟩ K T) =
        Real.exp (-r * T) * ncdf (dMinus (t * Real.exp ((r - q) * T)) (vol * Real.sqrt T) K) := by
      intro t ht
      have h1 : ∀ gauss, digitalValue ⟨t, r, q, vol⟩ K T gauss = (fun S => if K < S then Real.exp (-r * T) else 0) (Real.exp ((⟨t, r, q, vol⟩ : BS ℝ).logAt (fun i => i * T) gauss 1)) := by
        intro gauss
        unfold digitalValue
        generalize Real.exp ((⟨t, r, q, vol⟩ : BS ℝ).logAt (fun i => i * T) gauss 1) = S
        show (if decide (0 < S - K) = true then Script.upd (fun _ => (0 : ℝ)) 0 (0 + 1 / Real.exp (r * T)) else if false = true then _ else fun _ => (0 : ℝ)) 0 = if K < S then Real.exp (-r * T) else 0
        by_cases h : K < S
        · rw [if_pos (decide_eq_true (sub_pos.2 h)), if_pos h]
          show 0 + 1 / Real.exp (r * T) = _
          rw [neg_mul, Real.exp_neg]; ring
        · rw [if_neg (by rw [decide_eq_true_eq, sub_pos]; exact h), if_neg h]
          rfl
      have hF : Measurable fun S : ℝ => if K < S then Real.exp (-r * T) else 0 := Measurable.ite (measurableSet_lt measurable_const measurable_id) measurable_const measurable_const
      have h2 := C97_bs_law (⟨t, r, q, vol⟩ : BS ℝ) (fun i => i * T) 1 1 le_rfl (fun i _ => by push_cast; linarith) ht _ hF
      have h3 : (fun gauss => digitalValue ⟨t, r, q, vol⟩ K T gauss) = fun gauss => (fun S => if K < S then Real.exp (-r * T) else 0) (Real.exp ((⟨t, r, q, vol⟩ : BS ℝ).logAt (fun i => i * T) gauss 1)) :=
        funext h1
      rw [show digitalValue ⟨t, r, q, vol⟩ K T = _ from h3, h2]
      have h4 : (((1 : Nat) : ℝ) * T - ((0 : Nat) : ℝ) * T) = T := by push_cast; ring
      simp only [h4]
      rw [lognormalMean, ← mean_one (mul_pos ht (Real.exp_pos _)) hK (mul_pos hv (Real.sqrt_pos.2 hT)), ← integral_const_mul]
      refine integral_congr_ae (Eventually.of_forall fun z => ?_)
      show (if K < spotAt _ _ z then Real.exp (-r * T) else 0) = Real.exp (-r * T) * (if K < spotAt _ _ z then (1 : ℝ) else 0)
      split_ifs <;> ring
    have hE := Real.exp_pos ((r - q) * T)
    have hV : 0 < vol * Real.sqrt T := mul_pos hv (Real.sqrt_pos.2 hT)
    have hin : HasDerivAt (fun t => dMinus (t * Real.exp ((r - q) * T)) (vol * Real.sqrt T) K) (1 * Real.exp ((r - q) * T) / K / (s * Real.exp ((r - q) * T) / K) / (vol * Real.sqrt T)) s := by
      unfold dMinus
      exact (((((hasDerivAt_id s).mul_const _).div_const K).log (div_pos (mul_pos hs hE) hK).ne').div_const _).sub_const _
    have hout := ((ncdf_deriv (dMinus (s * Real.exp ((r - q) * T)) (vol * Real.sqrt T) K)).comp s hin).const_mul (Real.exp (-r * T))
    refine ⟨_, ?_, hout.congr_of_eventuallyEq ?_⟩
    · exact mul_pos (Real.exp_pos _) (mul_pos (density_pos _) (by positivity))
    · filter_upwards [lt_mem_nhds hs] with t ht
      exact hval t ht

example : ∃ d > 0, HasDerivAt (fun t => gaussMean 1 (digitalValue ⟨t, 0.03, 0.01, 0.2⟩ 110 1)) d 100 :=
  (C100_digital_violated 100 0.03 0.01 0.2 110 1 (by norm_num) (by norm_num) (by norm_num) (by norm_num)).2

end Dal
