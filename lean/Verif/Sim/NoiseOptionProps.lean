import Verif.Sim.NoiseProps
import Verif.Sim.GreekProps

/-! # C102: how far simulated option prices are off -/

namespace Dal
open Dal.Noise Dal.Batch Dal.Models Dal.Numeric MeasureTheory ProbabilityTheory

/-- What a path pays at position `k` of the line, over the numeraire. -/
private noncomputable def pay (b : BS ℝ) (line : Nat → ℝ) (k : Nat) (p : ℝ → ℝ) (gauss : Nat → ℝ) : ℝ := p (Real.exp (b.logAt line gauss k)) / b.numeraire (line k)

private theorem spread_le {n : Nat} {f : (Nat → ℝ) → ℝ} (hf : MemLp (fun g => f (numbers g)) 2 (Measure.pi fun _ : Fin n => gaussianReal 0 1)) :
    spread n f ≤ gaussMean n fun g => f g ^ 2 := by
  have h1 : variance (fun g => f (numbers g)) (Measure.pi fun _ : Fin n => gaussianReal 0 1) = spread n f := by
    rw [variance_eq_integral hf.aestronglyMeasurable.aemeasurable]; rfl
  rw [← h1]
  exact variance_le_expectation_sq hf.aestronglyMeasurable

private theorem spot_meas (b : BS ℝ) (line : Nat → ℝ) (n k : Nat) (hk : k ≤ n) : Measurable fun g : Fin n → ℝ => b.logAt line (numbers g) k := by
  simp only [log_sum]
  have h1 : ∀ g : Fin n → ℝ, ∑ i ∈ Finset.range k, b.std line i * numbers g i = ∑ i : Fin n, (if i.1 < k then b.std line i.1 else 0) * g i := fun g => sum_numbers g (b.std line) k hk
  simp only [h1]
  exact measurable_const.add (sum_measurable _)

private theorem pay_meas (b : BS ℝ) (line : Nat → ℝ) (n k : Nat) (hk : k ≤ n) (p : ℝ → ℝ) (hp : Measurable p) : Measurable fun g : Fin n → ℝ => pay b line k p (numbers g) :=
  (hp.comp (Real.measurable_exp.comp (spot_meas b line n k hk))).div_const _

private theorem numeraire_pos (b : BS ℝ) (t : ℝ) : 0 < b.numeraire t := Real.exp_pos _

/-- C102, puts: what is simulated has the discounted Black price as its mean, and the probability that it is off by `c` or more is at most a quarter of the square of the discounted strike
over the number of paths and the square of `c`. -/
theorem C102_put_partial (tape : Bool) (gen : Gen) (n N threads : Nat) (hn : 0 < n) (ex : List ((Int × Int) × Nat)) (h : Runs N threads ex) (h1 : N ≤ 1024 ∨ threads = 1)
    (b : BS ℝ) (line : Nat → ℝ) (k : Nat) (hk : k ≤ n) (hl : ∀ i, i < k → line i ≤ line (i + 1)) (h0 : line 0 = 0) (hs : 0 < b.spot) (strike : ℝ) (hK : 0 < strike)
    (hr : Regular (b.spot * Real.exp ((b.rate - b.div) * line k)) (b.vol * Real.sqrt (line k)) strike) (price c : ℝ) (hc : 0 < c)
    (hp : blackOpt (b.spot * Real.exp ((b.rate - b.div) * line k)) (b.vol * Real.sqrt (line k)) strike .put = some price) :
    ∫ ω, simulated tape gen n N threads ex (fun gauss => max 0 (strike - Real.exp (b.logAt line gauss k)) / b.numeraire (line k)) ω ∂noise = Real.exp (-b.rate * line k) * price ∧
      noise {ω | c ≤ |simulated tape gen n N threads ex (fun gauss => max 0 (strike - Real.exp (b.logAt line gauss k)) / b.numeraire (line k)) ω - Real.exp (-b.rate * line k) * price|} ≤
        ENNReal.ofReal ((strike * Real.exp (-b.rate * line k)) ^ 2 / (4 * N * c ^ 2)) := by
  have hm := payoff_measurable .put strike (fun s => max 0 (strike - s)) fun _ => rfl
  have hmean := C97_bs b line n k hk hl h0 hs .put strike (fun s => max 0 (strike - s)) (fun _ => rfl) hr
  rw [hp, Option.map_some] at hmean
  injection hmean with hmean
  have hnum : b.numeraire (line k) = Real.exp (b.rate * line k) := rfl
  have hD : strike / b.numeraire (line k) = strike * Real.exp (-b.rate * line k) := by rw [hnum, neg_mul, Real.exp_neg, div_eq_mul_inv]
  have hb : ∀ g : Fin n → ℝ, pay b line k (fun s => max 0 (strike - s)) (numbers g) ∈ Set.Icc 0 (strike * Real.exp (-b.rate * line k)) := by
    intro g
    rw [← hD]
    refine ⟨div_nonneg (le_max_left _ _) (numeraire_pos b _).le, div_le_div_of_nonneg_right ?_ (numeraire_pos b _).le⟩
    exact max_le hK.le (by linarith [Real.exp_pos (b.logAt line (numbers g) k)])
  have hme := pay_meas b line n k hk _ hm
  have hlp : MemLp (fun g => pay b line k (fun s => max 0 (strike - s)) (numbers g)) 2 (Measure.pi fun _ : Fin n => gaussianReal 0 1) :=
    MemLp.of_bound hme.aestronglyMeasurable (strike * Real.exp (-b.rate * line k)) (Filter.Eventually.of_forall fun g => by
      rw [Real.norm_eq_abs, abs_of_nonneg (hb g).1]; exact (hb g).2)
  have hu := (C102_unbiased tape gen n N threads ex h (pay b line k fun s => max 0 (strike - s)) (hlp.integrable (by norm_num))).2
  have hconf := C102_confidence_partial tape gen n N threads hn ex h h1 (pay b line k fun s => max 0 (strike - s)) hlp c hc
  have hg : gaussMean n (pay b line k fun s => max 0 (strike - s)) = Real.exp (-b.rate * line k) * price := hmean.symm
  rw [hg] at hu hconf
  refine ⟨hu, hconf.trans (ENNReal.ofReal_le_ofReal ?_)⟩
  have hv := variance_le_sq_of_bounded (μ := Measure.pi fun _ : Fin n => gaussianReal 0 1) (Filter.Eventually.of_forall hb) hme.aemeasurable
  rw [variance_eq_integral hme.aemeasurable] at hv
  have hv' : spread n (pay b line k fun s => max 0 (strike - s)) ≤ ((strike * Real.exp (-b.rate * line k) - 0) / 2) ^ 2 := hv
  have hN : (0 : ℝ) < N := by exact_mod_cast h.some
  rw [div_div, div_le_div_iff₀ (by positivity) (by positivity)]
  have h2 : 0 < (N : ℝ) * c ^ 2 := by positivity
  nlinarith [mul_le_mul_of_nonneg_right hv' h2.le]

private theorem square_integrable (f v : ℝ) : Integrable (fun g : ℝ => (f * Real.exp (v * g - v * v / 2)) ^ 2) (gaussianReal 0 1) ∧
    ∫ g, (f * Real.exp (v * g - v * v / 2)) ^ 2 ∂gaussianReal 0 1 = f ^ 2 * Real.exp (v ^ 2) := by
  have h1 : ∀ g : ℝ, (f * Real.exp (v * g - v * v / 2)) ^ 2 = spotAt (f ^ 2 * Real.exp (v ^ 2)) (2 * v) g := by
    intro g
    unfold spotAt
    rw [mul_pow, ← Real.exp_nat_mul, mul_assoc, ← Real.exp_add]
    congr 2
    push_cast
    ring
  simp only [h1]
  refine ⟨spotAt_integrable _ _, ?_⟩
  have h2 := mean_all (f ^ 2 * Real.exp (v ^ 2)) (2 * v) 1 0 0
  simpa using h2

/-- C102, calls: the same with the second moment of the spot. -/
theorem C102_call_partial (tape : Bool) (gen : Gen) (n N threads : Nat) (hn : 0 < n) (ex : List ((Int × Int) × Nat)) (h : Runs N threads ex) (h1 : N ≤ 1024 ∨ threads = 1)
    (b : BS ℝ) (line : Nat → ℝ) (k : Nat) (hk : k ≤ n) (hl : ∀ i, i < k → line i ≤ line (i + 1)) (h0 : line 0 = 0) (hs : 0 < b.spot) (strike : ℝ) (hK : 0 < strike)
    (hr : Regular (b.spot * Real.exp ((b.rate - b.div) * line k)) (b.vol * Real.sqrt (line k)) strike) (price c : ℝ) (hc : 0 < c)
    (hp : blackOpt (b.spot * Real.exp ((b.rate - b.div) * line k)) (b.vol * Real.sqrt (line k)) strike .call = some price) :
    ∫ ω, simulated tape gen n N threads ex (fun gauss => max 0 (Real.exp (b.logAt line gauss k) - strike) / b.numeraire (line k)) ω ∂noise = Real.exp (-b.rate * line k) * price ∧
      noise {ω | c ≤ |simulated tape gen n N threads ex (fun gauss => max 0 (Real.exp (b.logAt line gauss k) - strike) / b.numeraire (line k)) ω - Real.exp (-b.rate * line k) * price|} ≤
        ENNReal.ofReal ((b.spot * Real.exp (-b.div * line k)) ^ 2 * Real.exp (b.vol ^ 2 * line k) / (N * c ^ 2)) := by
  have hm := payoff_measurable .call strike (fun s => max 0 (s - strike)) fun _ => rfl
  have hmean := C97_bs b line n k hk hl h0 hs .call strike (fun s => max 0 (s - strike)) (fun _ => rfl) hr
  rw [hp, Option.map_some] at hmean
  injection hmean with hmean
  have hle : 0 ≤ line k := h0 ▸ line_le line k hl
  have hnum : b.numeraire (line k) = Real.exp (b.rate * line k) := rfl
  have hN0 := numeraire_pos b (line k)
  have hsq : Integrable (fun g : Fin n → ℝ => Real.exp (b.logAt line (numbers g) k) ^ 2) (Measure.pi fun _ : Fin n => gaussianReal 0 1) :=
    bs_integrable b line n k hk hl hs (fun s => s ^ 2) (by fun_prop) fun f v => (square_integrable f v).1
  have hsqm : gaussMean n (fun gauss => Real.exp (b.logAt line gauss k) ^ 2) = (b.spot * Real.exp ((b.rate - b.div) * line k)) ^ 2 * Real.exp (b.vol ^ 2 * line k) := by
    rw [C97_bs_law b line n k hk hl hs (fun s => s ^ 2) (by fun_prop), lognormalMean, h0, sub_zero, (square_integrable _ _).2, mul_pow b.vol, Real.sq_sqrt hle]
  have hme := pay_meas b line n k hk _ hm
  have hle2 : ∀ g : Fin n → ℝ, pay b line k (fun s => max 0 (s - strike)) (numbers g) ^ 2 ≤ Real.exp (b.logAt line (numbers g) k) ^ 2 / b.numeraire (line k) ^ 2 := by
    intro g
    unfold pay
    rw [div_pow]
    have he := Real.exp_pos (b.logAt line (numbers g) k)
    exact div_le_div_of_nonneg_right (pow_le_pow_left₀ (le_max_left _ _) (max_le he.le (by linarith)) 2) (by positivity)
  have hint : Integrable (fun g : Fin n → ℝ => pay b line k (fun s => max 0 (s - strike)) (numbers g) ^ 2) (Measure.pi fun _ : Fin n => gaussianReal 0 1) :=
    (hsq.div_const (b.numeraire (line k) ^ 2)).mono' (hme.pow_const 2).aestronglyMeasurable (Filter.Eventually.of_forall fun g => by
      rw [Real.norm_eq_abs, abs_of_nonneg (sq_nonneg _)]; exact hle2 g)
  have hlp : MemLp (fun g => pay b line k (fun s => max 0 (s - strike)) (numbers g)) 2 (Measure.pi fun _ : Fin n => gaussianReal 0 1) :=
    (memLp_two_iff_integrable_sq hme.aestronglyMeasurable).2 hint
  have hu := (C102_unbiased tape gen n N threads ex h (pay b line k fun s => max 0 (s - strike)) (hlp.integrable (by norm_num))).2
  have hconf := C102_confidence_partial tape gen n N threads hn ex h h1 (pay b line k fun s => max 0 (s - strike)) hlp c hc
  have hg : gaussMean n (pay b line k fun s => max 0 (s - strike)) = Real.exp (-b.rate * line k) * price := hmean.symm
  rw [hg] at hu hconf
  refine ⟨hu, hconf.trans (ENNReal.ofReal_le_ofReal ?_)⟩
  have hv : spread n (pay b line k fun s => max 0 (s - strike)) ≤ (b.spot * Real.exp (-b.div * line k)) ^ 2 * Real.exp (b.vol ^ 2 * line k) := by
    refine (spread_le hlp).trans ?_
    have h2 : gaussMean n (fun g => pay b line k (fun s => max 0 (s - strike)) g ^ 2) ≤ gaussMean n (fun gauss => Real.exp (b.logAt line gauss k) ^ 2) / b.numeraire (line k) ^ 2 := by
      unfold gaussMean
      rw [← integral_div]
      exact integral_mono hint (hsq.div_const _) hle2
    refine h2.trans (le_of_eq ?_)
    rw [hsqm, hnum, mul_pow, mul_pow, ← Real.exp_nat_mul, ← Real.exp_nat_mul, ← Real.exp_nat_mul, mul_div_right_comm, mul_div_assoc, ← Real.exp_sub]
    congr 3
    push_cast
    ring
  have hN : (0 : ℝ) < N := by exact_mod_cast h.some
  rw [div_div]
  exact div_le_div_of_nonneg_right hv (by positivity)

/-- C102, sensitivities: the mean of the simulated derivative of an option is the derivative of its discounted Black price, whatever number of paths, generator, tasks and threads. -/
theorem C102_greeks (tape : Bool) (gen : Gen) (N threads : Nat) (ex : List ((Int × Int) × Nat)) (h : Runs N threads ex)
    (put : Bool) (fs fr fd fv fk : ℝ → ℝ) (u : ℝ) (b : BS Dual) (Kd : Dual) (hs : Tracks fs u b.spot) (hr : Tracks fr u b.rate) (hd : Tracks fd u b.div)
    (hv : Tracks fv u b.vol) (hK : Tracks fk u Kd) (line : Nat → ℝ) (n k : Nat) (hk : k ≤ n) (hl : ∀ i, i < k → line i ≤ line (i + 1)) (h0 : line 0 = 0) (hT : 0 < line k)
    (s0 : 0 < fs u) (k0 : 0 < fk u) (v0 : epsilon < fv u * Real.sqrt (line k)) (e0 : epsilon < fs u * Real.exp ((fr u - fd u) * line k) * fk u) :
    ∃ price : ℝ → ℝ,
      (∀ᶠ t in nhds u, blackOpt (fs t * Real.exp ((fr t - fd t) * line k)) (fv t * Real.sqrt (line k)) (fk t) (if put then .put else .call) = some (price t)) ∧
      HasDerivAt (fun t => Real.exp (-fr t * line k) * price t)
        (∫ ω, simulated tape gen n N threads ex (fun gauss => (dualPay put Kd (b.numeraire (line k)) (Num.exp (b.logAt line gauss k))).d) ω ∂noise) u := by
  obtain ⟨price, h1, h2, h3⟩ := C100_date put fs fr fd fv fk u b Kd hs hr hd hv hK line n k hk hl h0 hT s0 k0 v0 e0
  refine ⟨price, h1, ?_⟩
  rw [(C102_unbiased tape gen n N threads ex h _ h3).2]
  exact h2

/-! ### The hypotheses hold -/

/-- A put struck at 110 in two years, with a thousand paths of three steps. -/
example (tape : Bool) (gen : Gen) : ∃ price, blackOpt (100 * Real.exp ((0.03 - 0.01) * ((2 : Nat) : ℝ))) (0.2 * Real.sqrt ((2 : Nat) : ℝ)) 110 .put = some price ∧
    noise {ω | 10 ≤ |simulated tape gen 3 1000 16 [((0, 1000), 7)] (fun gauss => max 0 (110 - Real.exp ((⟨100, 0.03, 0.01, 0.2⟩ : BS ℝ).logAt (fun i => i) gauss 2)) /
      (⟨100, 0.03, 0.01, 0.2⟩ : BS ℝ).numeraire ((2 : Nat) : ℝ)) ω - Real.exp (-0.03 * ((2 : Nat) : ℝ)) * price|} ≤ ENNReal.ofReal (1 / 30) := by
  have hr : Regular (100 * Real.exp ((0.03 - 0.01) * ((2 : Nat) : ℝ))) (0.2 * Real.sqrt ((2 : Nat) : ℝ)) 110 := by
    have h1 := Real.one_le_exp (show (0 : ℝ) ≤ (0.03 - 0.01) * ((2 : Nat) : ℝ) by norm_num)
    have h2 : (1 : ℝ) ≤ Real.sqrt ((2 : Nat) : ℝ) := by rw [Real.le_sqrt (by norm_num) (by norm_num)]; norm_num
    refine Or.inl ⟨by norm_num, ?_, ?_⟩
    · exact (show epsilon ≤ 0.2 * 1 by norm_num [epsilon]).trans (mul_le_mul_of_nonneg_left h2 (by norm_num))
    · rw [epsilon]; nlinarith
  have hl : ∀ i : Nat, i < 2 → (fun i : Nat => (i : ℝ)) i ≤ (fun i : Nat => (i : ℝ)) (i + 1) := fun i _ => by push_cast; linarith
  have hb := C97_bs (⟨100, 0.03, 0.01, 0.2⟩ : BS ℝ) (fun i => i) 3 2 (by omega) hl (by norm_num) (by norm_num) .put 110 _ (fun _ => rfl) hr
  rw [Option.map_eq_some_iff] at hb
  obtain ⟨price, hp, -⟩ := hb
  refine ⟨price, hp, ?_⟩
  have h := (C102_put_partial tape gen 3 1000 16 (by decide) [((0, 1000), 7)] ⟨by decide, by decide, ⟨[(0, 1000)], by decide, by exact List.Perm.refl _⟩, by decide⟩ (Or.inl (by decide))
    (⟨100, 0.03, 0.01, 0.2⟩ : BS ℝ) (fun i => i) 2 (by omega) hl (by norm_num) (by norm_num) 110 (by norm_num) hr price 10 (by norm_num) hp).2
  refine h.trans (ENNReal.ofReal_le_ofReal ?_)
  have he : Real.exp (-0.03 * ((2 : Nat) : ℝ)) ≤ 1 := Real.exp_le_one_iff.2 (by norm_num)
  have he0 := Real.exp_pos (-0.03 * ((2 : Nat) : ℝ))
  have : (110 * Real.exp (-0.03 * ((2 : Nat) : ℝ))) ^ 2 ≤ 110 ^ 2 := pow_le_pow_left₀ (by positivity) (by linarith) 2
  show (110 * Real.exp (-0.03 * ((2 : Nat) : ℝ))) ^ 2 / (4 * ((1000 : Nat) : ℝ) * 10 ^ 2) ≤ 1 / 30
  rw [div_le_iff₀ (by norm_num)]
  refine this.trans ?_
  norm_num

end Dal
