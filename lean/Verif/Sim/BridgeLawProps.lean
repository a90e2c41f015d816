import Verif.Sim.NoiseProps
import Verif.Random.BridgeProps
import Mathlib.Probability.Distributions.Gaussian.Multivariate

/-!
# C103: simulations through the Brownian bridge

Specification: the numbers that the bridge makes from independent standard normal numbers are independent standard normal numbers, that is, the product of normal laws is mapped to
itself; what is simulated through the bridge has the mean and the error of what is simulated without it.
-/

namespace Dal
open Dal.Noise Dal.Batch Dal.Models MeasureTheory ProbabilityTheory

/-- What `FillNormal` of the bridge makes of the numbers of a path, from old contents `w` of the vector (`brownianbridge.cpp` 57–84; model of C41). Simplification: real numbers for doubles. -/
noncomputable def bridged (n : Nat) (steps : List Bridge.Step) (w : Nat → ℝ) (g : Fin n → ℝ) : Fin n → ℝ :=
  fun i => Bridge.fillNormal Real.sqrt Bridge.times n steps (numbers g) w i

/-- A payoff of the numbers that the bridge makes: `CreateRNG` with `use_bb` puts the bridge in the place of the generator (`simulation.cpp` 11–25), and `SkipTo` and `Clone` of the bridge are
those of the generator (`brownianbridge.hpp` 33–40), so that the positions in the stream are those of C102. -/
noncomputable def through (n : Nat) (steps : List Bridge.Step) (w : Nat → ℝ) (f : (Nat → ℝ) → ℝ) (gauss : Nat → ℝ) : ℝ :=
  f (numbers fun i : Fin n => Bridge.fillNormal Real.sqrt Bridge.times n steps gauss w i)

private theorem through_eq (n : Nat) (steps : List Bridge.Step) (w : Nat → ℝ) (f : (Nat → ℝ) → ℝ) (g : Fin n → ℝ) : through n steps w f (numbers g) = f (numbers (bridged n steps w g)) := rfl

private theorem numbers_lin {n : Nat} (a b : ℝ) (g g' : Fin n → ℝ) : numbers (fun i => a * g i + b * g' i) = fun i => a * numbers g i + b * numbers g' i := by
  funext i
  unfold numbers
  by_cases h : i < n
  · simp [h]
  · simp [h]

private theorem numbers_sq {n : Nat} (g : Fin n → ℝ) : ∑ i ∈ Finset.range n, numbers g i ^ 2 = ∑ i : Fin n, g i ^ 2 := by
  rw [Finset.sum_range]
  exact Finset.sum_congr rfl fun i _ => by unfold numbers; rw [dif_pos i.2]

/-- C103, the law: for every number of steps and whatever the vector held before, the bridge maps independent standard normal numbers to independent standard normal numbers. -/
theorem C103_law (n : Nat) (hn : 0 < n) (steps : List Bridge.Step) (hs : Bridge.init n = some steps) (w : Nat → ℝ) :
    MeasurePreserving (bridged n steps w) (Measure.pi fun _ : Fin n => gaussianReal 0 1) (Measure.pi fun _ : Fin n => gaussianReal 0 1) := by
  have hlin : ∀ (a b : ℝ) (g g' : Fin n → ℝ) (i : Fin n), bridged n steps w (fun i => a * g i + b * g' i) i = a * bridged n steps w g i + b * bridged n steps w g' i := by
    intro a b g g' i
    unfold bridged
    rw [numbers_lin]
    exact C41_linear Real.sqrt Bridge.times n hn steps hs a b (numbers g) (numbers g') w w w i i.2
  let L : EuclideanSpace ℝ (Fin n) →ₗ[ℝ] EuclideanSpace ℝ (Fin n) :=
    { toFun := fun x => WithLp.toLp 2 (bridged n steps w (WithLp.ofLp x))
      map_add' := fun x y => by
        ext i
        have := hlin 1 1 (WithLp.ofLp x) (WithLp.ofLp y) i
        simp only [one_mul] at this
        exact this
      map_smul' := fun c x => by
        ext i
        have := hlin c 0 (WithLp.ofLp x) (WithLp.ofLp x) i
        simp only [zero_mul, add_zero] at this
        exact this }
  have hnorm : ∀ x, ‖L x‖ = ‖x‖ := by
    intro x
    have h1 := (C41_own_times Real.sqrt (fun x hx => Real.mul_self_sqrt hx) Real.sqrt_one n hn steps hs (numbers (WithLp.ofLp x)) w).1
    rw [numbers_sq, Finset.sum_range] at h1
    rw [EuclideanSpace.norm_eq, EuclideanSpace.norm_eq]
    congr 1
    simp only [Real.norm_eq_abs, sq_abs]
    exact h1
  let I : EuclideanSpace ℝ (Fin n) →ₗᵢ[ℝ] EuclideanSpace ℝ (Fin n) := ⟨L, hnorm⟩
  let E : EuclideanSpace ℝ (Fin n) ≃ₗᵢ[ℝ] EuclideanSpace ℝ (Fin n) := I.toLinearIsometryEquiv rfl
  have hE := stdGaussian_map E
  have hmeas : Measurable (bridged n steps w) := by
    have h1 : bridged n steps w = fun g => WithLp.ofLp (E (WithLp.toLp 2 g)) := rfl
    rw [h1]
    exact (WithLp.measurable_ofLp 2 _).comp (E.continuous.measurable.comp (WithLp.measurable_toLp 2 _))
  refine ⟨hmeas, ?_⟩
  have hpi := map_pi_eq_stdGaussian (ι := Fin n)
  have hback : (stdGaussian (EuclideanSpace ℝ (Fin n))).map (WithLp.ofLp) = Measure.pi fun _ : Fin n => gaussianReal 0 1 := by
    rw [← hpi, Measure.map_map (WithLp.measurable_ofLp 2 _) (WithLp.measurable_toLp 2 _)]
    exact Measure.map_id
  have h1 : bridged n steps w = (WithLp.ofLp) ∘ E ∘ (WithLp.toLp 2) := rfl
  rw [h1, ← Measure.map_map (WithLp.measurable_ofLp 2 _) (E.continuous.measurable.comp (WithLp.measurable_toLp 2 _)), ← Measure.map_map E.continuous.measurable (WithLp.measurable_toLp 2 _), hpi, hE, hback]

/-- C103, means: the mean of a payoff of the numbers that the bridge makes is the mean of the payoff, and so is its spread. -/
theorem C103_mean (n : Nat) (hn : 0 < n) (steps : List Bridge.Step) (hs : Bridge.init n = some steps) (w : Nat → ℝ) (f : (Nat → ℝ) → ℝ)
    (hf : AEStronglyMeasurable (fun g => f (numbers g)) (Measure.pi fun _ : Fin n => gaussianReal 0 1)) :
    gaussMean n (through n steps w f) = gaussMean n f ∧ spread n (through n steps w f) = spread n f := by
  have hm := C103_law n hn steps hs w
  have key : ∀ F : (Fin n → ℝ) → ℝ, AEStronglyMeasurable F (Measure.pi fun _ : Fin n => gaussianReal 0 1) →
      ∫ g, F (bridged n steps w g) ∂(Measure.pi fun _ : Fin n => gaussianReal 0 1) = ∫ g, F g ∂(Measure.pi fun _ : Fin n => gaussianReal 0 1) := by
    intro F hF
    have h1 := integral_map (μ := Measure.pi fun _ : Fin n => gaussianReal 0 1) hm.measurable.aemeasurable (f := F) (by rw [hm.map_eq]; exact hF)
    rw [hm.map_eq] at h1
    exact h1.symm
  have h1 : gaussMean n (through n steps w f) = gaussMean n f := key _ hf
  refine ⟨h1, ?_⟩
  unfold spread
  rw [h1]
  exact key (fun g => (f (numbers g) - gaussMean n f) ^ 2) ((hf.sub aestronglyMeasurable_const).pow 2)

/-- C103, simulations: through the bridge, what is simulated has the mean of the payoff as its mean, for either generator and any number of paths, tasks, threads and schedule. -/
theorem C103_unbiased (tape : Bool) (gen : Gen) (n N threads : Nat) (hn : 0 < n) (ex : List ((Int × Int) × Nat)) (h : Runs N threads ex) (steps : List Bridge.Step)
    (hs : Bridge.init n = some steps) (w : Nat → ℝ) (f : (Nat → ℝ) → ℝ) (hf : Integrable (fun g => f (numbers g)) (Measure.pi fun _ : Fin n => gaussianReal 0 1)) :
    ∫ ω, simulated tape gen n N threads ex (through n steps w f) ω ∂noise = gaussMean n f := by
  have hi : Integrable (fun g => through n steps w f (numbers g)) (Measure.pi fun _ : Fin n => gaussianReal 0 1) :=
    (C103_law n hn steps hs w).integrable_comp_of_integrable (g := fun g => f (numbers g)) hf
  rw [(C102_unbiased tape gen n N threads ex h _ hi).2, (C103_mean n hn steps hs w f hf.aestronglyMeasurable).1]

/-- C103, errors: the bridge changes neither the mean square error of one task nor the bound on the probability of an error. Several tasks share numbers, see `C102_mrg_violated`. -/
theorem C103_error_one_task (tape : Bool) (gen : Gen) (n N threads : Nat) (hn : 0 < n) (ex : List ((Int × Int) × Nat)) (h : Runs N threads ex) (h1 : N ≤ 1024 ∨ threads = 1)
    (steps : List Bridge.Step) (hs : Bridge.init n = some steps) (w : Nat → ℝ)
    (f : (Nat → ℝ) → ℝ) (hf : MemLp (fun g => f (numbers g)) 2 (Measure.pi fun _ : Fin n => gaussianReal 0 1)) :
    ∫ ω, (simulated tape gen n N threads ex (through n steps w f) ω - gaussMean n f) ^ 2 ∂noise = spread n f / N ∧
      ∀ c, 0 < c → noise {ω | c ≤ |simulated tape gen n N threads ex (through n steps w f) ω - gaussMean n f|} ≤ ENNReal.ofReal (spread n f / N / c ^ 2) := by
  have hlp : MemLp (fun g => through n steps w f (numbers g)) 2 (Measure.pi fun _ : Fin n => gaussianReal 0 1) :=
    hf.comp_measurePreserving (C103_law n hn steps hs w)
  obtain ⟨e1, e2⟩ := C103_mean n hn steps hs w f hf.aestronglyMeasurable
  have h2 := C102_error_partial tape gen n N threads hn ex h h1 _ hlp
  rw [e1, e2] at h2
  refine ⟨h2, fun c hc => ?_⟩
  have h3 := C102_confidence_partial tape gen n N threads hn ex h h1 _ hlp c hc
  rw [e1, e2] at h3
  exact h3

/-- C103, prices: through the bridge, the mean of a simulated option of any type under Black–Scholes is the discounted Black price. -/
theorem C103_option (tape : Bool) (gen : Gen) (n N threads : Nat) (hn : 0 < n) (ex : List ((Int × Int) × Nat)) (h : Runs N threads ex) (steps : List Bridge.Step)
    (hs : Bridge.init n = some steps) (w : Nat → ℝ) (b : BS ℝ) (line : Nat → ℝ) (k : Nat) (hk : k ≤ n) (hl : ∀ i, i < k → line i ≤ line (i + 1)) (h0 : line 0 = 0)
    (hspot : 0 < b.spot) (type : Numeric.OptionType) (strike : ℝ) (p : ℝ → ℝ) (hp : ∀ s, Numeric.payout type s strike = some (p s))
    (hr : Regular (b.spot * Real.exp ((b.rate - b.div) * line k)) (b.vol * Real.sqrt (line k)) strike) :
    (Numeric.blackOpt (b.spot * Real.exp ((b.rate - b.div) * line k)) (b.vol * Real.sqrt (line k)) strike type).map (Real.exp (-b.rate * line k) * ·) =
      some (∫ ω, simulated tape gen n N threads ex (through n steps w fun gauss => p (Real.exp (b.logAt line gauss k)) / b.numeraire (line k)) ω ∂noise) := by
  have hm := payoff_measurable type strike p hp
  have hi := (bs_integrable b line n k hk hl hspot p hm (lognormal_payoff_integrable type strike p hp)).div_const (b.numeraire (line k))
  rw [C97_bs b line n k hk hl h0 hspot type strike p hp hr, C103_unbiased tape gen n N threads hn ex h steps hs w _ hi]

/-! ### The hypotheses hold -/

/-- Five steps: the bridge goes to the end and then to the steps 1, 0, 2 and 3. -/
example : Bridge.init 5 = some [⟨1, 0, 4⟩, ⟨0, 0, 1⟩, ⟨2, 2, 4⟩, ⟨3, 3, 4⟩] ∧ Runs 5000 3 [((0, 1667), 2), ((1667, 1667), 0), ((3334, 1666), 2)] :=
  ⟨by decide, ⟨by decide, by decide, ⟨[(0, 1667), (1667, 1667), (3334, 1666)], by decide, by exact List.Perm.refl _⟩, by decide⟩⟩

/-- Through the bridge the mean of the square of a number is one. -/
example (steps : List Bridge.Step) (hs : Bridge.init 5 = some steps) (w : Nat → ℝ) : gaussMean 5 (through 5 steps w fun g => g 3 ^ 2) = 1 := by
  have hp := measurePreserving_eval (fun _ : Fin 5 => gaussianReal 0 1) 3
  have h0 : (fun g : Fin 5 → ℝ => numbers g 3 ^ 2) = (fun x : ℝ => x ^ 2) ∘ fun g : Fin 5 → ℝ => g 3 := rfl
  rw [(C103_mean 5 (by decide) steps hs w (fun g => g 3 ^ 2) (by
    rw [h0]; exact (Measurable.comp (by fun_prop) hp.measurable).aestronglyMeasurable)).1]
  have h1 : gaussMean 5 (fun g => g 3 ^ 2) = ∫ x, x ^ 2 ∂gaussianReal 0 1 := by
    rw [← hp.map_eq, integral_map hp.measurable.aemeasurable (by exact (measurable_id.pow_const 2).aestronglyMeasurable)]
    rfl
  rw [h1]
  have h2 := variance_fun_id_gaussianReal (μ := 0) (v := 1)
  rw [variance_eq_integral (by exact measurable_id.aemeasurable)] at h2
  simpa using h2

end Dal
