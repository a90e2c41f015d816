import Verif.Sim.GreekProps
import Verif.Script.SmoothProps

/-!
# C101: the sensitivities of a smoothed digital option

Specification: as for C100, the mean over the Gaussian numbers of a path of the value and of the derivative that the smoothed evaluator computes, against closed-form prices of calls.
-/

namespace Dal
open Dal.Numeric Dal.Models Dal.TimeLine Dal.Implied Dal.Script MeasureTheory ProbabilityTheory Filter Topology

/-- What the smoothed digital pays, as a function of the spot and the numeraire. -/
private noncomputable def bandPay (K S N : Dual) (w eps : ℝ) : Dual :=
  if K.v + (1 / 2 - eps) * w < S.v then ⟨1 / N.v, -N.d / N.v / N.v⟩
  else if S.v < K.v - (1 / 2 - eps) * w then ⟨0, 0⟩
  else ⟨(S.v - K.v + w / 2) / w / N.v, (S.d - K.d) / w / N.v - (S.v - K.v + w / 2) / w * N.d / N.v / N.v⟩

private theorem band_run (K S N : Dual) (w eps : ℝ) (hw : 0 < w) (he : 0 < eps) (he1 : eps < 1 / 2) :
    ∃ st, smoothEvents (fun _ => K) w eps [(digitalTree K.v, ⟨S, N⟩)] ⟨fun _ => ⟨0, 0⟩, fun _ _ => ⟨0, 0⟩, fun _ _ => ⟨0, 0⟩⟩ = some st ∧ st.σ 0 = bandPay K S N w eps := by
  have hup : w / 2 < S.v - K.v → K.v + (1 / 2 - eps) * w < S.v := fun h => by nlinarith
  have hdn : S.v - K.v < -(w / 2) → S.v < K.v - (1 / 2 - eps) * w := fun h => by nlinarith
  have hord : K.v - (1 / 2 - eps) * w < K.v + (1 / 2 - eps) * w := by nlinarith
  have hpay : (upd (fun _ => (⟨0, 0⟩ : Dual)) 0 (dualOps.add ⟨0, 0⟩ (dualOps.div (lift 1) N))) 0 = ⟨1 / N.v, -N.d / N.v / N.v⟩ := by
    show (⟨0 + 1 / N.v, 0 + (1 / N.v * 0 + -1 / N.v / N.v * N.d)⟩ : Dual) = _
    congr 1 <;> ring
  have hcond : ∀ d, dualCspr (dualOps.sub S K) w = some d →
      smoothC (fun _ => K) ⟨S, N⟩ w (fun _ => (⟨0, 0⟩ : Dual)) (.cmp .sup (.bin .sub .spot (.constVar 0 K.v) none) ⟨-1, false, 0, 0⟩ {}) = some d := by
    intro d hd
    rw [← hd]
    simp only [smoothC, Bool.false_eq_true, if_false]
    rw [if_pos (by norm_num)]
    rfl
  have hx : (dualOps.sub S K).v = S.v - K.v := rfl
  rw [digitalTree, smoothEvents, smoothSs, smoothS]
  dsimp only
  by_cases h1 : w / 2 < S.v - K.v
  · have hd : dualCspr (dualOps.sub S K) w = some (lift 1) := by
      rw [dualCspr, hx, if_neg (by linarith), if_pos h1]
    rw [hcond _ hd]
    dsimp only
    rw [if_pos (show 1 - eps < (lift 1).v by show 1 - eps < (1 : ℝ); linarith)]
    refine ⟨_, rfl, ?_⟩
    rw [bandPay, if_pos (hup h1)]
    exact hpay
  · by_cases h2 : S.v - K.v < -(w / 2)
    · have hd : dualCspr (dualOps.sub S K) w = some (lift 0) := by rw [dualCspr, hx, if_pos h2]
      rw [hcond _ hd]
      dsimp only
      rw [if_neg (show ¬ 1 - eps < (lift 0).v by show ¬ 1 - eps < (0 : ℝ); linarith), if_pos (show (lift 0).v < eps from he), if_neg Bool.false_ne_true]
      refine ⟨_, rfl, ?_⟩
      rw [bandPay, if_neg (by have := hdn h2; linarith), if_pos (hdn h2)]
    · have hd : dualCspr (dualOps.sub S K) w = some (dualOps.div (dualOps.add (dualOps.sub S K) (lift (w / 2))) (lift w)) := by
        rw [dualCspr, hx, if_neg h2, if_neg h1, dualDiv, if_neg hw.ne']
      rw [hcond _ hd]
      dsimp only
      have hv : (dualOps.div (dualOps.add (dualOps.sub S K) (lift (w / 2))) (lift w)).v = (S.v - K.v + w / 2) / w := rfl
      rw [hv]
      by_cases h3 : 1 - eps < (S.v - K.v + w / 2) / w
      · rw [if_pos h3]
        refine ⟨_, rfl, ?_⟩
        rw [lt_div_iff₀ hw] at h3
        rw [bandPay, if_pos (by nlinarith)]
        exact hpay
      · rw [if_neg h3]
        rw [lt_div_iff₀ hw] at h3
        by_cases h4 : (S.v - K.v + w / 2) / w < eps
        · rw [if_pos h4, if_neg Bool.false_ne_true]
          rw [div_lt_iff₀ hw] at h4
          refine ⟨_, rfl, ?_⟩
          rw [bandPay, if_neg (by nlinarith), if_pos (by nlinarith)]
        · rw [if_neg h4]
          rw [div_lt_iff₀ hw] at h4
          refine ⟨_, rfl, ?_⟩
          rw [bandPay, if_neg (by nlinarith), if_neg (by nlinarith)]
          show dualOps.add (dualOps.mul _ ((upd (fun _ => (⟨0, 0⟩ : Dual)) 0 (dualOps.add ⟨0, 0⟩ (dualOps.div (lift 1) N))) 0)) (dualOps.mul _ ⟨0, 0⟩) = _
          rw [hpay]
          show (⟨(S.v - K.v + w / 2) / w * (1 / N.v) + (1 - (S.v - K.v + w / 2) / w) * 0,
            (1 / N.v * (1 / w * (S.d + -1 * K.d + 0) + -(S.v - K.v + w / 2) / w / w * 0) + (S.v - K.v + w / 2) / w * (-N.d / N.v / N.v)) +
              (0 * (0 + -1 * (1 / w * (S.d + -1 * K.d + 0) + -(S.v - K.v + w / 2) / w / w * 0)) + (1 - (S.v - K.v + w / 2) / w) * 0)⟩ : Dual) = _
          congr 1 <;> ring

private theorem dual_spot (b : BS Dual) (line gauss : Nat → ℝ) (k : Nat) (hs : 0 < b.spot.v) (hv : b.vol.v ≠ 0) (hk : line 0 ≤ line k) (h0 : line 0 = 0) (x : ℝ)
    (hx : ∑ i ∈ Finset.range k, (BS.values b).std line i * gauss i = x) :
    (Num.exp (b.logAt line gauss k) : Dual) =
      ⟨b.spot.v * Real.exp ((b.rate.v - b.div.v) * line k) * Real.exp (x - (b.vol.v * Real.sqrt (line k)) ^ 2 / 2),
        b.spot.v * Real.exp ((b.rate.v - b.div.v) * line k) * Real.exp (x - (b.vol.v * Real.sqrt (line k)) ^ 2 / 2) *
          ((b.spot.d / b.spot.v + (b.rate.d - b.div.d - b.vol.v * b.vol.d) * line k) + b.vol.d / b.vol.v * x)⟩ := by
  obtain ⟨h1, h2⟩ := dual_log b line gauss k
  have h3 : b.vol.d * ∑ i ∈ Finset.range k, Real.sqrt (line (i + 1) - line i) * gauss i = b.vol.d / b.vol.v * x := by
    have : x = b.vol.v * ∑ i ∈ Finset.range k, Real.sqrt (line (i + 1) - line i) * gauss i := by
      rw [← hx, Finset.mul_sum]
      refine Finset.sum_congr rfl fun i _ => ?_
      show b.vol.v * Real.sqrt (line (i + 1) - line i) * gauss i = _
      ring
    rw [this]; field_simp
  rw [h3, h0, sub_zero] at h2
  have hS : Real.exp (b.logAt line gauss k).v = b.spot.v * Real.exp ((b.rate.v - b.div.v) * line k) * Real.exp (x - (b.vol.v * Real.sqrt (line k)) ^ 2 / 2) := by
    have := spot_form (BS.values b) line gauss k hs x hx hk
    rw [h0, sub_zero] at this
    rw [h1, this]
    rfl
  generalize b.logAt line gauss k = L at h2 hS
  have hE : (Num.exp L : Dual) = ⟨Real.exp L.v, L.d * Real.exp L.v⟩ := rfl
  rw [hE, hS, h2, mul_comm (_ + _ : ℝ)]

/-- The value and the derivative on a path, as functions of the sum of the Gaussian numbers with the deviations of their steps. -/
private noncomputable def bandV (disc f v K w eps x : ℝ) : ℝ :=
  let S := f * Real.exp (x - v ^ 2 / 2)
  disc * (if K + (1 / 2 - eps) * w < S then 1 else if S < K - (1 / 2 - eps) * w then 0 else (S - K + w / 2) / w)

private noncomputable def bandD (disc f v K a c rho kd w eps x : ℝ) : ℝ :=
  let S := f * Real.exp (x - v ^ 2 / 2)
  disc * (if K + (1 / 2 - eps) * w < S then -rho else if S < K - (1 / 2 - eps) * w then 0 else (S * (a + c * x) - kd) / w - rho * ((S - K + w / 2) / w))

private theorem bandV_measurable (disc f v K w eps : ℝ) : Measurable (bandV disc f v K w eps) := by
  unfold bandV
  exact (Measurable.ite (measurableSet_lt measurable_const (by fun_prop)) measurable_const
    (Measurable.ite (measurableSet_lt (by fun_prop) measurable_const) measurable_const (by fun_prop))).const_mul disc

private theorem bandD_measurable (disc f v K a c rho kd w eps : ℝ) : Measurable (bandD disc f v K a c rho kd w eps) := by
  unfold bandD
  exact (Measurable.ite (measurableSet_lt measurable_const (by fun_prop)) measurable_const
    (Measurable.ite (measurableSet_lt (by fun_prop) measurable_const) measurable_const (by fun_prop))).const_mul disc

theorem spot_ne {f v k : ℝ} (hf : 0 < f) (hv : 0 < v) : ∀ᵐ z ∂gaussianReal 0 1, spotAt f v z ≠ k := by
  have : NullSingletonClass (gaussianReal 0 1) := nullSingletonClass_gaussianReal one_ne_zero
  have hsub : {z : ℝ | ¬ spotAt f v z ≠ k}.Subsingleton := by
    intro y hy z hz
    simp only [Set.mem_setOf_eq, not_not] at hy hz
    have h1 := hy.trans hz.symm
    unfold spotAt at h1
    have h2 := Real.exp_injective (mul_left_cancel₀ hf.ne' h1)
    have h3 : v * y = v * z := by linarith
    exact mul_left_cancel₀ hv.ne' h3
  rw [ae_iff]
  exact hsub.measure_zero _

private theorem bandV_scaled (disc f v K w eps : ℝ) (hf : 0 < f) (hv : 0 < v) (hw : 0 < w) (he1 : eps < 1 / 2) :
    (fun z => bandV disc f v K w eps (v * z)) =ᵐ[gaussianReal 0 1] fun z =>
      disc / w * (if K - (1 / 2 - eps) * w < spotAt f v z then spotAt f v z * (1 + 0 * z) - (K - (1 / 2 - eps) * w) else 0) -
      disc / w * (if K + (1 / 2 - eps) * w < spotAt f v z then spotAt f v z * (1 + 0 * z) - (K + (1 / 2 - eps) * w) else 0) +
      (disc * eps * (if K - (1 / 2 - eps) * w < spotAt f v z then 1 else 0) + disc * eps * (if K + (1 / 2 - eps) * w < spotAt f v z then 1 else 0)) := by
  have hS : ∀ z, f * Real.exp (v * z - v ^ 2 / 2) = spotAt f v z := fun z => by rw [spotAt, sq]
  filter_upwards [spot_ne (k := K - (1 / 2 - eps) * w) hf hv] with z hz
  simp only [bandV, hS]
  generalize spotAt f v z = S at *
  have hpos : 0 < (1 / 2 - eps) * w := mul_pos (by linarith) hw
  by_cases h1 : K + (1 / 2 - eps) * w < S
  · simp only [if_pos h1, if_pos (show K - (1 / 2 - eps) * w < S by linarith)]
    field_simp
    ring
  · by_cases h2 : S < K - (1 / 2 - eps) * w
    · simp only [if_neg h1, if_pos h2, if_neg (not_lt.2 h2.le)]
      ring
    · simp only [if_neg h1, if_neg h2, if_pos (lt_of_le_of_ne (not_lt.1 h2) (Ne.symm hz))]
      field_simp
      ring

private theorem bandD_scaled (disc f v K a c rho kd w eps : ℝ) (hf : 0 < f) (hv : 0 < v) (hw : 0 < w) (he1 : eps < 1 / 2) :
    (fun z => bandD disc f v K a c rho kd w eps (v * z)) =ᵐ[gaussianReal 0 1] fun z =>
      disc / w * (if K - (1 / 2 - eps) * w < spotAt f v z then spotAt f v z * (a - rho + c * v * z) - (kd - rho * (K - (1 / 2 - eps) * w)) else 0) -
      disc / w * (if K + (1 / 2 - eps) * w < spotAt f v z then spotAt f v z * (a - rho + c * v * z) - (kd - rho * (K + (1 / 2 - eps) * w)) else 0) +
      (-(disc * rho * eps) * (if K - (1 / 2 - eps) * w < spotAt f v z then 1 else 0) + -(disc * rho * eps) * (if K + (1 / 2 - eps) * w < spotAt f v z then 1 else 0)) := by
  have hS : ∀ z, f * Real.exp (v * z - v ^ 2 / 2) = spotAt f v z := fun z => by rw [spotAt, sq]
  filter_upwards [spot_ne (k := K - (1 / 2 - eps) * w) hf hv] with z hz
  simp only [bandD, hS]
  generalize spotAt f v z = S at *
  have hpos : 0 < (1 / 2 - eps) * w := mul_pos (by linarith) hw
  by_cases h1 : K + (1 / 2 - eps) * w < S
  · simp only [if_pos h1, if_pos (show K - (1 / 2 - eps) * w < S by linarith)]
    field_simp
    ring
  · by_cases h2 : S < K - (1 / 2 - eps) * w
    · simp only [if_neg h1, if_pos h2, if_neg (not_lt.2 h2.le)]
      ring
    · simp only [if_neg h1, if_neg h2, if_pos (lt_of_le_of_ne (not_lt.1 h2) (Ne.symm hz))]
      field_simp
      ring

private theorem four_means (f v k1 k2 A B c1 c2 p q : ℝ) (hf : 0 < f) (hv : 0 < v) (hk1 : 0 < k1) (hk2 : 0 < k2) :
    ∫ z, (p * (if k1 < spotAt f v z then spotAt f v z * (A + B * z) - c1 else 0) - p * (if k2 < spotAt f v z then spotAt f v z * (A + B * z) - c2 else 0) +
      (q * (if k1 < spotAt f v z then 1 else 0) + q * (if k2 < spotAt f v z then 1 else 0))) ∂gaussianReal 0 1 =
    p * (f * ((A + B * v) * ncdf (dMinus f v k1 + v) + B * density (dMinus f v k1 + v)) - c1 * ncdf (dMinus f v k1)) -
      p * (f * ((A + B * v) * ncdf (dMinus f v k2 + v) + B * density (dMinus f v k2 + v)) - c2 * ncdf (dMinus f v k2)) +
      (q * ncdf (dMinus f v k1) + q * ncdf (dMinus f v k2)) := by
  have i1 := (region_integrable k1 f v (linear_integrable f v A B c1)).const_mul p
  have i2 := (region_integrable k2 f v (linear_integrable f v A B c2)).const_mul p
  have i3 := (region_integrable k1 f v (integrable_const (μ := gaussianReal 0 1) (1 : ℝ))).const_mul q
  have i4 := (region_integrable k2 f v (integrable_const (μ := gaussianReal 0 1) (1 : ℝ))).const_mul q
  have i12 : Integrable (fun z => p * (if k1 < spotAt f v z then spotAt f v z * (A + B * z) - c1 else 0) - p * (if k2 < spotAt f v z then spotAt f v z * (A + B * z) - c2 else 0))
      (gaussianReal 0 1) := i1.sub i2
  have i34 : Integrable (fun z => q * (if k1 < spotAt f v z then (1 : ℝ) else 0) + q * (if k2 < spotAt f v z then (1 : ℝ) else 0)) (gaussianReal 0 1) := i3.add i4
  rw [integral_add i12 i34, integral_sub i1 i2, integral_add i3 i4, integral_const_mul, integral_const_mul, integral_const_mul, integral_const_mul, mean_call_side hf hk1 hv,
    mean_call_side hf hk2 hv, mean_one hf hk1 hv, mean_one hf hk2 hv]

/-- The means over the paths in closed form. -/
private theorem band_means (b : BS Dual) (Kd : Dual) (line : Nat → ℝ) (n k : Nat) (hk : k ≤ n) (hl : ∀ i, i < k → line i ≤ line (i + 1)) (h0 : line 0 = 0) (hT : 0 < line k)
    (w eps : ℝ) (hw : 0 < w) (he : 0 < eps) (he1 : eps < 1 / 2) (s0 : 0 < b.spot.v) (vp : 0 < b.vol.v) (k0 : 0 < Kd.v - (1 / 2 - eps) * w) (f v a c rho disc : ℝ)
    (hf : f = b.spot.v * Real.exp ((b.rate.v - b.div.v) * line k)) (hv : v = b.vol.v * Real.sqrt (line k)) (ha : a = b.spot.d / b.spot.v + (b.rate.d - b.div.d - b.vol.v * b.vol.d) * line k)
    (hc : c = b.vol.d / b.vol.v) (hrho : rho = b.rate.d * line k) (hdisc : disc = Real.exp (-b.rate.v * line k)) :
    ∃ run : (Nat → ℝ) → FSt Dual,
      (∀ gauss, smoothEvents (fun _ => Kd) w eps [(digitalTree Kd.v, ⟨Num.exp (b.logAt line gauss k), b.numeraire (line k)⟩)]
        ⟨fun _ => ⟨0, 0⟩, fun _ _ => ⟨0, 0⟩, fun _ _ => ⟨0, 0⟩⟩ = some (run gauss)) ∧
      gaussMean n (fun gauss => ((run gauss).σ 0).v) =
        disc / w * (f * ((1 + 0 * v) * ncdf (dMinus f v (Kd.v - (1 / 2 - eps) * w) + v) + 0 * density (dMinus f v (Kd.v - (1 / 2 - eps) * w) + v)) -
            (Kd.v - (1 / 2 - eps) * w) * ncdf (dMinus f v (Kd.v - (1 / 2 - eps) * w))) -
          disc / w * (f * ((1 + 0 * v) * ncdf (dMinus f v (Kd.v + (1 / 2 - eps) * w) + v) + 0 * density (dMinus f v (Kd.v + (1 / 2 - eps) * w) + v)) -
            (Kd.v + (1 / 2 - eps) * w) * ncdf (dMinus f v (Kd.v + (1 / 2 - eps) * w))) +
          (disc * eps * ncdf (dMinus f v (Kd.v - (1 / 2 - eps) * w)) + disc * eps * ncdf (dMinus f v (Kd.v + (1 / 2 - eps) * w))) ∧
      gaussMean n (fun gauss => ((run gauss).σ 0).d) =
        disc / w * (f * ((a - rho + c * v * v) * ncdf (dMinus f v (Kd.v - (1 / 2 - eps) * w) + v) + c * v * density (dMinus f v (Kd.v - (1 / 2 - eps) * w) + v)) -
            (Kd.d - rho * (Kd.v - (1 / 2 - eps) * w)) * ncdf (dMinus f v (Kd.v - (1 / 2 - eps) * w))) -
          disc / w * (f * ((a - rho + c * v * v) * ncdf (dMinus f v (Kd.v + (1 / 2 - eps) * w) + v) + c * v * density (dMinus f v (Kd.v + (1 / 2 - eps) * w) + v)) -
            (Kd.d - rho * (Kd.v + (1 / 2 - eps) * w)) * ncdf (dMinus f v (Kd.v + (1 / 2 - eps) * w))) +
          (-(disc * rho * eps) * ncdf (dMinus f v (Kd.v - (1 / 2 - eps) * w)) + -(disc * rho * eps) * ncdf (dMinus f v (Kd.v + (1 / 2 - eps) * w))) := by
  have hfp : 0 < f := hf ▸ mul_pos s0 (Real.exp_pos _)
  have hv2 : 0 < v := hv ▸ mul_pos vp (Real.sqrt_pos.2 hT)
  have hgap : 0 < (1 / 2 - eps) * w := mul_pos (by linarith) hw
  have k1 : 0 < Kd.v + (1 / 2 - eps) * w := by linarith
  have hrun := fun gauss => band_run Kd (Num.exp (b.logAt line gauss k)) (b.numeraire (line k)) w eps hw he he1
  choose run r1 r2 using hrun
  have hle := line_le line k hl
  have hNd : (b.numeraire (line k)) = ⟨Real.exp (b.rate.v * line k), (b.rate.d * line k + b.rate.v * 0) * Real.exp (b.rate.v * line k)⟩ := rfl
  have hN : 1 / Real.exp (b.rate.v * line k) = Real.exp (-b.rate.v * line k) := by rw [neg_mul, Real.exp_neg, one_div]
  have hform : ∀ gauss x, ∑ i ∈ Finset.range k, (BS.values b).std line i * gauss i = x →
      ((run gauss).σ 0).v = bandV disc f v Kd.v w eps x ∧ ((run gauss).σ 0).d = bandD disc f v Kd.v a c rho Kd.d w eps x := by
    intro gauss x hx
    rw [r2, dual_spot b line gauss k s0 vp.ne' hle h0 x hx, hNd, bandPay, bandV, bandD, hdisc, ← hN, ← hf, ← hv, ← ha, ← hc]
    dsimp only
    have hpos := (Real.exp_pos (b.rate.v * line k)).ne'
    generalize f * Real.exp (x - v ^ 2 / 2) = S
    rw [hrho]
    split_ifs
    · exact ⟨by field_simp, by field_simp; ring⟩
    · exact ⟨by ring, by ring⟩
    · refine ⟨by field_simp, by field_simp; ring⟩
  have hwt := sum_vars (BS.values b) line n k hl hk
  rw [h0, sub_zero, show (BS.values b).vol * Real.sqrt (line k) = v from hv.symm] at hwt
  refine ⟨run, r1, ?_, ?_⟩
  · have hform' := fun g : Fin n → ℝ => (hform (numbers g) _ (sum_numbers g ((BS.values b).std line) k hk)).1
    rw [gaussMean]
    simp only [hform']
    rw [weighted_mean n _ _ hwt _ (bandV_measurable _ _ _ _ _ _), integral_congr_ae (bandV_scaled _ _ _ _ _ _ hfp hv2 hw he1), four_means _ _ _ _ _ _ _ _ _ _ hfp hv2 k0 k1]
  · have hform' := fun g : Fin n → ℝ => (hform (numbers g) _ (sum_numbers g ((BS.values b).std line) k hk)).2
    rw [gaussMean]
    simp only [hform']
    rw [weighted_mean n _ _ hwt _ (bandD_measurable _ _ _ _ _ _ _ _ _ _), integral_congr_ae (bandD_scaled _ _ _ _ _ _ _ _ _ _ hfp hv2 hw he1), four_means _ _ _ _ _ _ _ _ _ _ hfp hv2 k0 k1]

/-- C101, digital options: the smoothed evaluator with a band of width `w` around the strike and the threshold `eps` of certainty runs on every Black–Scholes path. With `low` and `high` the
Black prices of the calls struck half a width (less `eps` widths) below and above, the mean value is the discounted call spread `(low - high) / w` up to `eps` times the probabilities of
the two exercises, and the mean of the derivative that a path computes is the derivative of the discounted call spread, in whatever way spot, dividend, volatility and strike move, up to
`eps` times those probabilities and the move of the discount. -/
theorem C101_digital (fs fr fd fv fk : ℝ → ℝ) (u : ℝ) (b : BS Dual) (Kd : Dual) (hs : Tracks fs u b.spot) (hr : Tracks fr u b.rate) (hd : Tracks fd u b.div)
    (hv : Tracks fv u b.vol) (hK : Tracks fk u Kd) (line : Nat → ℝ) (n k : Nat) (hk : k ≤ n) (hl : ∀ i, i < k → line i ≤ line (i + 1)) (h0 : line 0 = 0) (hT : 0 < line k)
    (w eps : ℝ) (hw : 0 < w) (he : 0 < eps) (he1 : eps < 1 / 2)
    (s0 : 0 < fs u) (k0 : 0 < fk u - (1 / 2 - eps) * w) (v0 : epsilon < fv u * Real.sqrt (line k))
    (e0 : epsilon < fs u * Real.exp ((fr u - fd u) * line k) * (fk u - (1 / 2 - eps) * w)) (prob : ℝ)
    (hprob : prob = ncdf (dMinus (fs u * Real.exp ((fr u - fd u) * line k)) (fv u * Real.sqrt (line k)) (fk u - (1 / 2 - eps) * w)) +
      ncdf (dMinus (fs u * Real.exp ((fr u - fd u) * line k)) (fv u * Real.sqrt (line k)) (fk u + (1 / 2 - eps) * w))) :
    ∃ (run : (Nat → ℝ) → FSt Dual) (low high : ℝ → ℝ) (slope : ℝ),
      (∀ gauss, smoothEvents (fun _ => Kd) w eps [(digitalTree Kd.v, ⟨Num.exp (b.logAt line gauss k), b.numeraire (line k)⟩)]
        ⟨fun _ => ⟨0, 0⟩, fun _ _ => ⟨0, 0⟩, fun _ _ => ⟨0, 0⟩⟩ = some (run gauss)) ∧
      (∀ᶠ t in 𝓝 u, blackOpt (fs t * Real.exp ((fr t - fd t) * line k)) (fv t * Real.sqrt (line k)) (fk t - (1 / 2 - eps) * w) .call = some (low t)) ∧
      (∀ᶠ t in 𝓝 u, blackOpt (fs t * Real.exp ((fr t - fd t) * line k)) (fv t * Real.sqrt (line k)) (fk t + (1 / 2 - eps) * w) .call = some (high t)) ∧
      HasDerivAt (fun t => Real.exp (-fr t * line k) * ((low t - high t) / w)) slope u ∧
      gaussMean n (fun gauss => ((run gauss).σ 0).v) = Real.exp (-fr u * line k) * ((low u - high u) / w + eps * prob) ∧
      gaussMean n (fun gauss => ((run gauss).σ 0).d) = slope - eps * prob * (b.rate.d * line k * Real.exp (-fr u * line k)) := by
  have hvp : 0 < fv u := by
    by_contra hc
    have := mul_nonpos_of_nonpos_of_nonneg (not_lt.1 hc) (Real.sqrt_nonneg (line k))
    have : (0 : ℝ) < epsilon := by norm_num [epsilon]
    linarith
  have hf : 0 < fs u * Real.exp ((fr u - fd u) * line k) := mul_pos s0 (Real.exp_pos _)
  have hv2 : 0 < fv u * Real.sqrt (line k) := mul_pos hvp (Real.sqrt_pos.2 hT)
  have hgap : 0 < (1 / 2 - eps) * w := mul_pos (by linarith) hw
  have k1 : 0 < fk u + (1 / 2 - eps) * w := by linarith
  have e1 : epsilon < fs u * Real.exp ((fr u - fd u) * line k) * (fk u + (1 / 2 - eps) * w) := lt_trans e0 (mul_lt_mul_of_pos_left (by linarith) hf)
  have hF : HasDerivAt (fun t => fs t * Real.exp ((fr t - fd t) * line k)) _ u := hs.2.mul (((hr.2.sub hd.2).mul_const (line k)).exp)
  obtain ⟨low, l1, l2⟩ := price_moves false (T := line k) hF (hK.2.sub_const ((1 / 2 - eps) * w)) (hv.2.mul_const (Real.sqrt (line k))) hr.2 hf k0 v0 e0
  obtain ⟨high, g1, g2⟩ := price_moves false (T := line k) hF (hK.2.add_const ((1 / 2 - eps) * w)) (hv.2.mul_const (Real.sqrt (line k))) hr.2 hf k1 v0 e1
  simp only [Bool.false_eq_true, if_false] at l1 l2 g1 g2
  obtain ⟨run, r1, r2, r3⟩ := band_means b Kd line n k hk hl h0 hT w eps hw he he1 (by rw [hs.1]; exact s0) (by rw [hv.1]; exact hvp) (by rw [hK.1]; exact k0) _ _ _ _ _ _ rfl rfl rfl rfl rfl rfl
  rw [hs.1, hr.1, hd.1, hv.1, hK.1] at r2 r3
  have hslope : HasDerivAt (fun t => Real.exp (-fr t * line k) * ((low t - high t) / w)) _ u :=
    ((l2.sub g2).div_const w).congr_of_eventuallyEq (Eventually.of_forall fun t => by simp only [Pi.sub_apply]; ring)
  refine ⟨run, low, high, _, r1, l1, g1, hslope, ?_, ?_⟩
  · have hlow : low u = callF (fs u * Real.exp ((fr u - fd u) * line k)) (fk u - (1 / 2 - eps) * w) (fv u * Real.sqrt (line k)) := by
      have := l1.self_of_nhds
      rw [black_call v0.le e0.le] at this
      injection this with this
      exact this.symm
    have hhigh : high u = callF (fs u * Real.exp ((fr u - fd u) * line k)) (fk u + (1 / 2 - eps) * w) (fv u * Real.sqrt (line k)) := by
      have := g1.self_of_nhds
      rw [black_call v0.le e1.le] at this
      injection this with this
      exact this.symm
    rw [r2, hlow, hhigh, hprob, callF, callF]
    ring
  · rw [r3, hprob]
    have hsq : Real.sqrt (line k) * Real.sqrt (line k) = line k := Real.mul_self_sqrt hT.le
    have e4 : fs u * Real.exp ((fr u - fd u) * line k) * (b.spot.d / fs u + (b.rate.d - b.div.d - fv u * b.vol.d) * line k - b.rate.d * line k +
        b.vol.d / fv u * (fv u * Real.sqrt (line k)) * (fv u * Real.sqrt (line k))) =
        b.spot.d * Real.exp ((fr u - fd u) * line k) + fs u * (Real.exp ((fr u - fd u) * line k) * ((b.rate.d - b.div.d) * line k)) -
          fs u * Real.exp ((fr u - fd u) * line k) * (b.rate.d * line k) := by
      have e2 : b.vol.d / fv u * (fv u * Real.sqrt (line k)) * (fv u * Real.sqrt (line k)) = b.vol.d * fv u * line k := by
        rw [show b.vol.d / fv u * (fv u * Real.sqrt (line k)) * (fv u * Real.sqrt (line k)) = b.vol.d / fv u * fv u * fv u * (Real.sqrt (line k) * Real.sqrt (line k)) by ring, hsq,
          div_mul_cancel₀ _ hvp.ne']
      rw [e2]
      field_simp
      ring
    have e3 : b.vol.d / fv u * (fv u * Real.sqrt (line k)) = b.vol.d * Real.sqrt (line k) := by field_simp
    simp only [Pi.sub_apply]
    generalize ncdf (dMinus (fs u * Real.exp ((fr u - fd u) * line k)) (fv u * Real.sqrt (line k)) (fk u - (1 / 2 - eps) * w) + fv u * Real.sqrt (line k)) = N1 at *
    generalize ncdf (dMinus (fs u * Real.exp ((fr u - fd u) * line k)) (fv u * Real.sqrt (line k)) (fk u + (1 / 2 - eps) * w) + fv u * Real.sqrt (line k)) = N2 at *
    generalize density (dMinus (fs u * Real.exp ((fr u - fd u) * line k)) (fv u * Real.sqrt (line k)) (fk u - (1 / 2 - eps) * w) + fv u * Real.sqrt (line k)) = D1 at *
    generalize density (dMinus (fs u * Real.exp ((fr u - fd u) * line k)) (fv u * Real.sqrt (line k)) (fk u + (1 / 2 - eps) * w) + fv u * Real.sqrt (line k)) = D2 at *
    linear_combination (Real.exp (-fr u * line k) / w * (N1 - N2)) * e4 + (Real.exp (-fr u * line k) / w * (fs u * Real.exp ((fr u - fd u) * line k)) * (D1 - D2)) * e3

/-! ## Narrow bands -/

/-- The price of the digital without smoothing, as the mean over Black–Scholes paths. -/
noncomputable def sharpDigital (b : BS ℝ) (K : ℝ) (line : Nat → ℝ) (n k : Nat) : ℝ :=
  gaussMean n fun gauss => evaluate realOps (fun _ => K) [(digitalTree K, ⟨Real.exp (b.logAt line gauss k), b.numeraire (line k)⟩)] (fun _ => 0) 0

private theorem sharp_eq (b : BS ℝ) (K : ℝ) (line : Nat → ℝ) (n k : Nat) (hk : k ≤ n) (hl : ∀ i, i < k → line i ≤ line (i + 1)) (h0 : line 0 = 0) (hT : 0 < line k) (s0 : 0 < b.spot)
    (vp : 0 < b.vol) (hK : 0 < K) :
    sharpDigital b K line n k = Real.exp (-b.rate * line k) * ncdf (dMinus (b.spot * Real.exp ((b.rate - b.div) * line k)) (b.vol * Real.sqrt (line k)) K) := by
  have h1 : ∀ gauss, evaluate realOps (fun _ => K) [(digitalTree K, ⟨Real.exp (b.logAt line gauss k), b.numeraire (line k)⟩)] (fun _ => 0) 0 =
      (fun S => if K < S then Real.exp (-b.rate * line k) else 0) (Real.exp (b.logAt line gauss k)) := by
    intro gauss
    generalize Real.exp (b.logAt line gauss k) = S
    show (if decide (0 < S - K) = true then upd (fun _ => (0 : ℝ)) 0 (0 + 1 / Real.exp (b.rate * line k)) else if false = true then _ else fun _ => (0 : ℝ)) 0 =
      if K < S then Real.exp (-b.rate * line k) else 0
    by_cases h : K < S
    · rw [if_pos (decide_eq_true (sub_pos.2 h)), if_pos h]
      show 0 + 1 / Real.exp (b.rate * line k) = _
      rw [neg_mul, Real.exp_neg]; ring
    · rw [if_neg (by rw [decide_eq_true_eq, sub_pos]; exact h), if_neg h]
      rfl
  have hF : Measurable fun S : ℝ => if K < S then Real.exp (-b.rate * line k) else 0 := Measurable.ite (measurableSet_lt measurable_const measurable_id) measurable_const measurable_const
  rw [sharpDigital]
  simp only [h1]
  have h2 := C97_bs_law b line n k hk hl s0 _ hF
  rw [h0, sub_zero] at h2
  refine h2.trans ?_
  rw [lognormalMean, ← mean_one (mul_pos s0 (Real.exp_pos _)) hK (mul_pos vp (Real.sqrt_pos.2 hT)), ← integral_const_mul]
  refine integral_congr_ae (Eventually.of_forall fun z => ?_)
  show (if K < spotAt _ _ z then Real.exp (-b.rate * line k) else 0) = Real.exp (-b.rate * line k) * (if K < spotAt _ _ z then (1 : ℝ) else 0)
  split_ifs <;> ring

private theorem dMinus_strike {f v k : ℝ} (hf : 0 < f) (hk : 0 < k) : HasDerivAt (fun x => dMinus f v x) (-(1 / (k * v))) k := by
  unfold dMinus
  have h1 : HasDerivAt (fun x : ℝ => f / x) (-f / k ^ 2) k := by
    refine ((hasDerivAt_const k f).div (hasDerivAt_id k) hk.ne').congr_deriv ?_
    simp only [id]
    field_simp
    ring
  refine (((h1.log (div_pos hf hk).ne').div_const v).sub_const _).congr_deriv ?_
  field_simp

private theorem dMinus_moves {F K v : ℝ → ℝ} {F' K' v' u : ℝ} (hF : HasDerivAt F F' u) (hK : HasDerivAt K K' u) (hv : HasDerivAt v v' u) (f0 : 0 < F u) (k0 : 0 < K u) (v0 : 0 < v u) :
    HasDerivAt (fun t => dMinus (F t) (v t) (K t)) ((F' / F u - K' / K u - v' * (dMinus (F u) (v u) (K u) + v u)) / v u) u := by
  have h : HasDerivAt (fun t => dMinus (F t) (v t) (K t)) _ u := (((hF.div hK k0.ne').log (div_pos f0 k0).ne').div hv v0.ne').sub (hv.const_mul (1 / 2))
  refine h.congr_deriv ?_
  simp only [dMinus, Pi.div_apply]
  generalize Real.log (F u / K u) = L
  field_simp
  ring

/-- The difference quotient over the band. -/
private theorem band_limit {C : ℝ → ℝ} {K c h : ℝ} (hC : HasDerivAt C c K) : Tendsto (fun w => (C (K - h * w) - C (K + h * w)) / w) (𝓝[>] 0) (𝓝 (-(2 * h * c))) := by
  have h1 : HasDerivAt (fun w : ℝ => C (K - h * w)) (c * -h) 0 := by
    have e : HasDerivAt (fun w : ℝ => K - h * w) (-h) 0 := by simpa using ((hasDerivAt_id (0 : ℝ)).const_mul h).const_sub K
    have hC' : HasDerivAt C c (K - h * 0) := by rwa [mul_zero, sub_zero]
    exact hC'.comp 0 e
  have h2 : HasDerivAt (fun w : ℝ => C (K + h * w)) (c * h) 0 := by
    have e : HasDerivAt (fun w : ℝ => K + h * w) h 0 := by simpa using ((hasDerivAt_id (0 : ℝ)).const_mul h).const_add K
    have hC' : HasDerivAt C c (K + h * 0) := by rwa [mul_zero, add_zero]
    exact hC'.comp 0 e
  have h3 := (hasDerivAt_iff_tendsto_slope_zero.1 (h1.sub h2)).mono_left (nhdsWithin_mono 0 (fun w (hw : 0 < w) => hw.ne'))
  have e1 : c * -h - c * h = -(2 * h * c) := by ring
  rw [e1] at h3
  refine h3.congr fun w => ?_
  simp only [Pi.sub_apply, zero_add, mul_zero, sub_zero, add_zero, sub_self, smul_eq_mul]
  rw [div_eq_inv_mul]

/-- What the smoothed evaluator computes for the digital on a path, zero if it were undefined. -/
noncomputable def smoothDigital (b : BS Dual) (K : Dual) (line : Nat → ℝ) (k : Nat) (w eps : ℝ) (gauss : Nat → ℝ) : Dual :=
  ((smoothEvents (fun _ => K) w eps [(digitalTree K.v, ⟨Num.exp (b.logAt line gauss k), b.numeraire (line k)⟩)] ⟨fun _ => ⟨0, 0⟩, fun _ _ => ⟨0, 0⟩, fun _ _ => ⟨0, 0⟩⟩).map
    fun st => st.σ 0).getD ⟨0, 0⟩

/-- C101, narrow bands: as the width goes to zero the mean value of the smoothed digital tends to the price of the digital, and the mean of the derivative that a path computes tends to
the derivative of that price, short of it by twice `eps` (which is 2e-14) times it and the move of the discount. -/
theorem C101_digital_narrow (fs fr fd fv fk : ℝ → ℝ) (u : ℝ) (b : BS Dual) (Kd : Dual) (hs : Tracks fs u b.spot) (hr : Tracks fr u b.rate) (hd : Tracks fd u b.div)
    (hv : Tracks fv u b.vol) (hK : Tracks fk u Kd) (line : Nat → ℝ) (n k : Nat) (hk : k ≤ n) (hl : ∀ i, i < k → line i ≤ line (i + 1)) (h0 : line 0 = 0) (hT : 0 < line k)
    (eps : ℝ) (he : 0 < eps) (he1 : eps < 1 / 2) (s0 : 0 < fs u) (k0 : 0 < fk u) (v0 : 0 < fv u) :
    ∃ slope, HasDerivAt (fun t => sharpDigital ⟨fs t, fr t, fd t, fv t⟩ (fk t) line n k) slope u ∧
      Tendsto (fun w => gaussMean n fun gauss => (smoothDigital b Kd line k w eps gauss).v) (𝓝[>] 0) (𝓝 (sharpDigital ⟨fs u, fr u, fd u, fv u⟩ (fk u) line n k)) ∧
      Tendsto (fun w => gaussMean n fun gauss => (smoothDigital b Kd line k w eps gauss).d) (𝓝[>] 0)
        (𝓝 ((1 - 2 * eps) * slope - 2 * eps * (b.rate.d * line k * sharpDigital ⟨fs u, fr u, fd u, fv u⟩ (fk u) line n k))) := by
  have hsq : Real.sqrt (line k) * Real.sqrt (line k) = line k := Real.mul_self_sqrt hT.le
  have hq : 0 < Real.sqrt (line k) := Real.sqrt_pos.2 hT
  have hF : HasDerivAt (fun t => fs t * Real.exp ((fr t - fd t) * line k)) _ u := hs.2.mul (((hr.2.sub hd.2).mul_const (line k)).exp)
  have hV := hv.2.mul_const (Real.sqrt (line k))
  have hf : 0 < fs u * Real.exp ((fr u - fd u) * line k) := mul_pos s0 (Real.exp_pos _)
  have hvp : 0 < fv u * Real.sqrt (line k) := mul_pos v0 hq
  have hm := dMinus_moves hF hK.2 hV hf k0 hvp
  rw [show (b.spot.d * Real.exp ((fr u - fd u) * line k) + fs u * (Real.exp ((fr - fd) u * line k) * ((b.rate.d - b.div.d) * line k))) /
    (fs u * Real.exp ((fr u - fd u) * line k)) = b.spot.d / fs u + (b.rate.d - b.div.d) * line k by
      rw [Pi.sub_apply]; field_simp] at hm
  have hdisc : HasDerivAt (fun t => Real.exp (-fr t * line k)) (Real.exp (-fr u * line k) * (-b.rate.d * line k)) u := (hr.2.neg.mul_const (line k)).exp
  have hprice := hdisc.mul ((ncdf_deriv _).comp u hm)
  have hnear : ∀ᶠ t in 𝓝 u, sharpDigital ⟨fs t, fr t, fd t, fv t⟩ (fk t) line n k =
      Real.exp (-fr t * line k) * ncdf (dMinus (fs t * Real.exp ((fr t - fd t) * line k)) (fv t * Real.sqrt (line k)) (fk t)) := by
    filter_upwards [hs.2.continuousAt.eventually (lt_mem_nhds s0), hv.2.continuousAt.eventually (lt_mem_nhds v0), hK.2.continuousAt.eventually (lt_mem_nhds k0)] with t t1 t2 t3
    exact sharp_eq ⟨fs t, fr t, fd t, fv t⟩ (fk t) line n k hk hl h0 hT t1 t2 t3
  refine ⟨_, hprice.congr_of_eventuallyEq hnear, ?_, ?_⟩
  all_goals
    have hsmall : ∀ᶠ w in 𝓝[>] (0 : ℝ), 0 < w ∧ 0 < fk u - (1 / 2 - eps) * w := by
      have h1 : ∀ᶠ w in 𝓝 (0 : ℝ), 0 < fk u - (1 / 2 - eps) * w := by
        have hcont : ContinuousAt (fun w : ℝ => fk u - (1 / 2 - eps) * w) 0 := by fun_prop
        exact hcont.eventually (lt_mem_nhds (by simpa using k0))
      filter_upwards [self_mem_nhdsWithin, h1.filter_mono nhdsWithin_le_nhds] with w w1 w2
      exact ⟨w1, w2⟩
    have hmeans : ∀ w, 0 < w → 0 < fk u - (1 / 2 - eps) * w → _ := fun w w1 w2 =>
      band_means b Kd line n k hk hl h0 hT w eps w1 he he1 (by rw [hs.1]; exact s0) (by rw [hv.1]; exact v0) (by rw [hK.1]; exact w2) _ _ _ _ _ _ rfl rfl rfl rfl rfl rfl
    simp only [hs.1, hr.1, hd.1, hv.1, hK.1] at hmeans
    generalize hfe : fs u * Real.exp ((fr u - fd u) * line k) = f at *
    generalize hve : fv u * Real.sqrt (line k) = v at *
    have hN : HasDerivAt (fun x => ncdf (dMinus f v x)) (density (dMinus f v (fk u)) * -(1 / (fk u * v))) (fk u) := (ncdf_deriv _).comp _ (dMinus_strike hf k0)
    have hNv : HasDerivAt (fun x => ncdf (dMinus f v x + v)) (density (dMinus f v (fk u) + v) * -(1 / (fk u * v))) (fk u) := (ncdf_deriv _).comp _ ((dMinus_strike hf k0).add_const v)
    have hDv : HasDerivAt (fun x => density (dMinus f v x + v)) (-(dMinus f v (fk u) + v) * density (dMinus f v (fk u) + v) * -(1 / (fk u * v))) (fk u) :=
      (density_deriv _).comp _ ((dMinus_strike hf k0).add_const v)
    have hend : Tendsto (fun w => ncdf (dMinus f v (fk u - (1 / 2 - eps) * w)) + ncdf (dMinus f v (fk u + (1 / 2 - eps) * w))) (𝓝[>] 0) (𝓝 (ncdf (dMinus f v (fk u)) + ncdf (dMinus f v (fk u)))) := by
      have c1 : Tendsto (fun w : ℝ => fk u - (1 / 2 - eps) * w) (𝓝[>] 0) (𝓝 (fk u)) := by
        have : ContinuousAt (fun w : ℝ => fk u - (1 / 2 - eps) * w) 0 := by fun_prop
        have h := this.tendsto
        simp only [mul_zero, sub_zero] at h
        exact h.mono_left nhdsWithin_le_nhds
      have c2 : Tendsto (fun w : ℝ => fk u + (1 / 2 - eps) * w) (𝓝[>] 0) (𝓝 (fk u)) := by
        have : ContinuousAt (fun w : ℝ => fk u + (1 / 2 - eps) * w) 0 := by fun_prop
        have h := this.tendsto
        simp only [mul_zero, add_zero] at h
        exact h.mono_left nhdsWithin_le_nhds
      exact (hN.continuousAt.tendsto.comp c1).add (hN.continuousAt.tendsto.comp c2)
    have hkey := black_key hf k0 hvp
  · have hC : HasDerivAt (fun x => f * ncdf (dMinus f v x + v) - x * ncdf (dMinus f v x)) (-ncdf (dMinus f v (fk u))) (fk u) := by
      refine ((hNv.const_mul f).sub ((hasDerivAt_id (fk u)).mul hN)).congr_deriv ?_
      simp only [id]
      linear_combination (-(1 / (fk u * v))) * hkey
    have hlim := ((band_limit (h := 1 / 2 - eps) hC).add (hend.const_mul eps)).const_mul (Real.exp (-fr u * line k))
    have e1 : Real.exp (-fr u * line k) * (-(2 * (1 / 2 - eps) * -ncdf (dMinus f v (fk u))) + eps * (ncdf (dMinus f v (fk u)) + ncdf (dMinus f v (fk u)))) =
        sharpDigital ⟨fs u, fr u, fd u, fv u⟩ (fk u) line n k := by
      rw [hnear.self_of_nhds, hfe, hve]; ring
    rw [e1] at hlim
    refine hlim.congr' ?_
    filter_upwards [hsmall] with w hw
    obtain ⟨run, r1, r2, -⟩ := hmeans w hw.1 hw.2
    have hrun : ∀ gauss, smoothDigital b Kd line k w eps gauss = (run gauss).σ 0 := fun gauss => by rw [smoothDigital, hK.1, r1]; rfl
    simp only [hrun]
    rw [r2]
    ring
  · have e2 : b.vol.d / fv u * v = b.vol.d * Real.sqrt (line k) := by rw [← hve]; field_simp
    have e3 : fv u * b.vol.d * line k = b.vol.d * Real.sqrt (line k) * v := by rw [← hve]; linear_combination (-(fv u * b.vol.d)) * hsq
    have hM := (((hNv.const_mul (b.spot.d / fs u + (b.rate.d - b.div.d - fv u * b.vol.d) * line k - b.rate.d * line k + b.vol.d / fv u * v * v)).add
      (hDv.const_mul (b.vol.d / fv u * v))).const_mul f).sub ((((hasDerivAt_id (fk u)).const_mul (b.rate.d * line k)).const_sub Kd.d).mul hN)
    have hlim := ((band_limit (h := 1 / 2 - eps) hM).const_mul (Real.exp (-fr u * line k))).add (hend.const_mul (-(Real.exp (-fr u * line k) * (b.rate.d * line k) * eps)))
    refine (hlim.congr' ?_).trans_eq ?_
    · filter_upwards [hsmall] with w hw
      obtain ⟨run, r1, -, r3⟩ := hmeans w hw.1 hw.2
      have hrun : ∀ gauss, smoothDigital b Kd line k w eps gauss = (run gauss).σ 0 := fun gauss => by rw [smoothDigital, hK.1, r1]; rfl
      simp only [hrun]
      rw [r3]
      simp only [Pi.sub_apply, Pi.mul_apply, Pi.add_apply, id]
      ring
    · congr 1
      rw [hnear.self_of_nhds, hfe, hve]
      simp only [Function.comp, hfe, hve, id]
      rw [e2, show b.spot.d / fs u + (b.rate.d - b.div.d - fv u * b.vol.d) * line k - b.rate.d * line k + b.vol.d * Real.sqrt (line k) * v =
        b.spot.d / fs u + (b.rate.d - b.div.d) * line k - b.rate.d * line k by linear_combination -e3]
      generalize density (dMinus f v (fk u) + v) = D1 at *
      generalize density (dMinus f v (fk u)) = D0 at *
      generalize ncdf (dMinus f v (fk u)) = N0 at *
      generalize dMinus f v (fk u) = d at *
      have e5 : D1 = fk u * D0 / f := by rw [eq_div_iff hf.ne', mul_comm]; exact hkey
      rw [e5]
      field_simp
      ring

/-- A digital struck at 110 with a band of 10 and the threshold of the library, with respect to the spot. -/
example : ∃ (run : (Nat → ℝ) → FSt Dual) (low high : ℝ → ℝ),
    (∀ᶠ t in 𝓝 (100 : ℝ), blackOpt (t * Real.exp ((0.03 - 0.01) * ((2 : Nat) : ℝ))) (0.2 * Real.sqrt ((2 : Nat) : ℝ)) (110 - (1 / 2 - 2e-14) * 10) .call = some (low t)) ∧
    HasDerivAt (fun t => Real.exp (-0.03 * ((2 : Nat) : ℝ)) * ((low t - high t) / 10)) (gaussMean 3 fun gauss => ((run gauss).σ 0).d) 100 := by
  have h2 : (1 : ℝ) ≤ Real.sqrt ((2 : Nat) : ℝ) := by rw [Real.le_sqrt (by norm_num) (by norm_num)]; norm_num
  have h3 : (1 : ℝ) ≤ Real.exp ((0.03 - 0.01) * ((2 : Nat) : ℝ)) := Real.one_le_exp (by norm_num)
  obtain ⟨run, low, high, slope, -, h4, -, h5, -, h6⟩ := C101_digital (fun t => t) (fun _ => 0.03) (fun _ => 0.01) (fun _ => 0.2) (fun _ => 110) 100
    ⟨⟨100, 1⟩, ⟨0.03, 0⟩, ⟨0.01, 0⟩, ⟨0.2, 0⟩⟩ ⟨110, 0⟩ ⟨rfl, hasDerivAt_id _⟩ ⟨rfl, hasDerivAt_const _ _⟩ ⟨rfl, hasDerivAt_const _ _⟩ ⟨rfl, hasDerivAt_const _ _⟩
    ⟨rfl, hasDerivAt_const _ _⟩ (fun i => i) 3 2 (by omega) (fun i _ => by push_cast; linarith) (by norm_num) (by norm_num) 10 2e-14 (by norm_num) (by norm_num) (by norm_num) (by norm_num)
    (by norm_num) (lt_of_lt_of_le (show epsilon < 0.2 * 1 by norm_num [epsilon]) (mul_le_mul_of_nonneg_left h2 (by norm_num)))
    (by rw [epsilon]; exact lt_of_lt_of_le (show _ < 100 * (1 : ℝ) * (110 - (1 / 2 - 2e-14) * 10) by norm_num)
          (mul_le_mul_of_nonneg_right (mul_le_mul_of_nonneg_left h3 (by norm_num)) (by norm_num))) _ rfl
  refine ⟨run, low, high, h4, ?_⟩
  rw [h6]
  refine h5.congr_deriv ?_
  ring

example : ∃ slope, HasDerivAt (fun t => sharpDigital ⟨t, 0.03, 0.01, 0.2⟩ 110 (fun i => i) 3 2) slope 100 ∧
    Tendsto (fun w => gaussMean 3 fun gauss => (smoothDigital ⟨⟨100, 1⟩, ⟨0.03, 0⟩, ⟨0.01, 0⟩, ⟨0.2, 0⟩⟩ ⟨110, 0⟩ (fun i => i) 2 w 2e-14 gauss).d) (𝓝[>] 0) (𝓝 ((1 - 2 * 2e-14) * slope)) := by
  obtain ⟨slope, h1, -, h2⟩ := C101_digital_narrow (fun t => t) (fun _ => 0.03) (fun _ => 0.01) (fun _ => 0.2) (fun _ => 110) 100
    ⟨⟨100, 1⟩, ⟨0.03, 0⟩, ⟨0.01, 0⟩, ⟨0.2, 0⟩⟩ ⟨110, 0⟩ ⟨rfl, hasDerivAt_id _⟩ ⟨rfl, hasDerivAt_const _ _⟩ ⟨rfl, hasDerivAt_const _ _⟩ ⟨rfl, hasDerivAt_const _ _⟩
    ⟨rfl, hasDerivAt_const _ _⟩ (fun i => i) 3 2 (by omega) (fun i _ => by push_cast; linarith) (by norm_num) (by norm_num) 2e-14 (by norm_num) (by norm_num) (by norm_num) (by norm_num)
    (by norm_num)
  refine ⟨slope, h1, h2.trans_eq ?_⟩
  congr 1
  ring

end Dal
