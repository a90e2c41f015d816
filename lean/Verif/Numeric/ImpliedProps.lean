import Verif.Numeric.ImpliedLemmas
import Mathlib.Analysis.Complex.ExponentialBounds

/-!
# C98: implied volatilities

Specification: an implied volatility is one that gives back the price. `blackOpt` and `bachelierOpt` are the prices, of which C97 says what they are.
-/

namespace Dal

open Real Numeric Brent Strings Implied Filter Topology

private theorem black_total {type : OptionType} (ht : type ≠ .notSet) (f k : ℝ) : ∃ P : ℝ → ℝ, ∀ w, blackOpt f w k type = some (P w) := by
  have : ∀ w, ∃ c, blackOpt f w k type = some c := by
    intro w
    obtain ⟨c, p, s, h1, h2, h3, _⟩ := C59_black f w k
    cases type with
    | notSet => exact absurd rfl ht
    | call => exact ⟨c, h1⟩
    | put => exact ⟨p, h2⟩
    | straddle => exact ⟨s, h3⟩
  exact ⟨fun w => (this w).choose, fun w => (this w).choose_spec⟩

private theorem bachelier_total {type : OptionType} (ht : type ≠ .notSet) (f k : ℝ) : ∃ P : ℝ → ℝ, ∀ w, bachelierOpt f w k type = some (P w) := by
  have : ∀ w, ∃ c, bachelierOpt f w k type = some c := by
    intro w
    obtain ⟨c, p, s, h1, h2, h3, _⟩ := C59_bachelier f w k
    cases type with
    | notSet => exact absurd rfl ht
    | call => exact ⟨c, h1⟩
    | put => exact ⟨p, h2⟩
    | straddle => exact ⟨s, h3⟩
  exact ⟨fun w => (this w).choose, fun w => (this w).choose_spec⟩

private theorem set_of {type : OptionType} {f k p : ℝ} (h : payout type f k = some p) : type ≠ .notSet := by rintro rfl; cases h

private theorem ftol_pos (p : ℝ) : 0 < tolerance * max 1 p := mul_pos (by unfold tolerance; norm_num) (lt_of_lt_of_le one_pos (le_max_left _ _))

/-- C98: a volatility found for Black's formula gives the price within one part in 10¹⁰, of the price or of one, or is between two volatilities that price below
and above, and differ by a factor as near to one as the tolerance, of the forward or of one, asks. -/
theorem C98_black (n : Nat) (fwd strike : ℝ) (type : OptionType) (price guess v : ℝ) (hf : 0 < fwd) (hk : 0 < strike)
    (h : blackIV n fwd strike type price guess = some v) :
    ∃ P : ℝ → ℝ, (∀ w, blackOpt fwd w strike type = some (P w)) ∧ 0 < v ∧ (|P v - price| < 1 / 10 ^ 10 * max 1 price ∨
      ∃ lo hi, 0 < lo ∧ lo ≤ v ∧ v ≤ hi ∧ hi < lo * exp (1 / 10 ^ 10 * max 1 fwd) ∧ P lo ≤ price ∧ price ≤ P hi) := by
  unfold blackIV at h
  obtain ⟨p, hp, h⟩ := Option.bind_eq_some_iff.1 h
  obtain ⟨P, hP⟩ := black_total (set_of hp) fwd strike
  split at h
  · obtain ⟨h1, h2⟩ := search_found (fun w _ => hP w) price _ _ n _ v (hunts_new _ _ _ _) h
    refine ⟨P, hP, h1, h2.imp id ?_⟩
    rintro ⟨lo, hi, a, b, c, d, e⟩
    refine ⟨lo, hi, a, b, c, d, ?_⟩
    have hle := black_le hf hk a (b.trans c) _ _ (hP lo) (hP hi)
    by_cases h3 : P lo ≤ price
    · refine ⟨h3, ?_⟩
      by_contra h4
      have h4 := not_le.1 h4
      rcases h3.eq_or_lt with h5 | h5
      · linarith
      · exact absurd e (not_le.2 (mul_pos_of_neg_of_neg (by linarith) (by linarith)))
    · have h3 := not_le.1 h3
      exact absurd e (not_le.2 (mul_pos (by linarith) (by linarith)))
  · cases h

/-- C98: no two volatilities have one Black price. -/
theorem C98_unique (fwd strike : ℝ) (type : OptionType) (v w price : ℝ) (hf : 0 < fwd) (hk : 0 < strike) (hfk : epsilon ≤ fwd * strike) (hv : epsilon ≤ v)
    (hw : epsilon ≤ w) (h1 : blackOpt fwd v strike type = some price) (h2 : blackOpt fwd w strike type = some price) : v = w := by
  rcases lt_trichotomy v w with h | h | h
  · exact absurd (black_lt hf hk hfk hw (lt_of_lt_of_le eps_pos hv) h _ _ h1 h2) (lt_irrefl _)
  · exact h
  · exact absurd (black_lt hf hk hfk hv (lt_of_lt_of_le eps_pos hw) h _ _ h2 h1) (lt_irrefl _)

/-- C98: a volatility found for the Black price of another is the other, up to the tolerance of logarithms, or gives the same price up to the tolerance of prices. -/
theorem C98_recovers (n : Nat) (fwd strike : ℝ) (type : OptionType) (vol price guess v : ℝ) (hf : 0 < fwd) (hk : 0 < strike) (hfk : epsilon ≤ fwd * strike)
    (hv : epsilon ≤ vol) (hp : blackOpt fwd vol strike type = some price) (h : blackIV n fwd strike type price guess = some v) :
    0 < v ∧ ((∃ q, blackOpt fwd v strike type = some q ∧ |q - price| < 1 / 10 ^ 10 * max 1 price) ∨ |log v - log vol| < 1 / 10 ^ 10 * max 1 fwd) := by
  obtain ⟨P, hP, h0, h1 | ⟨lo, hi, a, b, c, d, e, g⟩⟩ := C98_black n fwd strike type price guess v hf hk h
  · exact ⟨h0, Or.inl ⟨_, hP v, h1⟩⟩
  · have hv0 := lt_of_lt_of_le eps_pos hv
    have hhi : 0 < hi := lt_of_lt_of_le a (b.trans c)
    have hlo : lo ≤ vol := by
      by_contra hc
      have hc := not_le.1 hc
      have := black_lt hf hk hfk (hv.trans hc.le) hv0 hc _ _ hp (hP lo)
      linarith
    have hup : vol ≤ hi := by
      by_contra hc
      have := black_lt hf hk hfk hv hhi (not_le.1 hc) _ _ (hP hi) hp
      linarith
    refine ⟨h0, Or.inr ?_⟩
    have hd : log hi < log lo + 1 / 10 ^ 10 * max 1 fwd := by
      have := log_lt_log hhi d
      rwa [log_mul a.ne' (exp_pos _).ne', log_exp] at this
    have e1 := log_le_log a b
    have e2 := log_le_log h0 c
    have e3 := log_le_log a hlo
    have e4 := log_le_log hv0 hup
    rw [abs_lt]
    constructor <;> linarith

/-- C98: the volatility of the price, as the guess, is what is found. -/
theorem C98_guess (n : Nat) (fwd strike : ℝ) (type : OptionType) (vol price : ℝ) (hf : 0 < fwd) (hk : 0 < strike) (hv : 0 < vol)
    (hp : blackOpt fwd vol strike type = some price) : blackIV (n + 1) fwd strike type price vol = some vol := by
  have ht : type ≠ .notSet := by rintro rfl; obtain ⟨_, _, _, _, _, _, _, _, h⟩ := C59_black fwd vol strike; rw [h] at hp; cases hp
  obtain ⟨P, hP⟩ := black_total ht fwd strike
  obtain ⟨p, hpay⟩ : ∃ p, payout type fwd strike = some p := by cases type <;> first | exact absurd rfl ht | exact ⟨_, rfl⟩
  unfold blackIV
  rw [hpay, Option.bind_some, if_pos (black_payout hf hk hv p price hpay hp), if_pos hv, search_first (fun w _ => hP w), exp_log hv]
  rw [exp_log hv, Option.some.inj ((hP vol).symm.trans hp), sub_self, abs_zero]
  exact ftol_pos price

/-- C98: prices below the payout at the forward are refused; those of calls above the forward and of puts above the strike, by the tolerance, after all attempts. -/
theorem C98_refuses (n : Nat) (fwd strike : ℝ) (type : OptionType) (price guess : ℝ) (hf : 0 < fwd) (hk : 0 < strike) :
    (∀ p, payout type fwd strike = some p → price < p → blackIV n fwd strike type price guess = none ∧ bachelierIV n fwd strike type price guess = none) ∧
    (type = .call → fwd + 1 / 10 ^ 10 * max 1 price ≤ price → blackIV n fwd strike type price guess = none) ∧
    (type = .put → strike + 1 / 10 ^ 10 * max 1 price ≤ price → blackIV n fwd strike type price guess = none) := by
  refine ⟨fun p hp hlt => ?_, ?_, ?_⟩
  · unfold blackIV bachelierIV
    rw [hp]
    simp only [Option.bind_some]
    rw [if_neg (by linarith), if_neg (by linarith)]
    exact ⟨rfl, rfl⟩
  · rintro rfl h
    obtain ⟨P, hP⟩ := black_total (type := .call) (fun h => by cases h) fwd strike
    unfold blackIV
    rw [payout, Option.bind_some]
    split
    · refine search_never (fun w _ => hP w) _ _ _ (ftol_pos price) (fun w hw => ?_) n _ (fun h => by cases h) (fun h => by cases h)
      obtain ⟨_, p, _, _, h2, _⟩ := C59_black fwd w strike
      have := C59_black_bounds fwd w strike hf hk hw.le _ _ (hP w) h2
      have h' : fwd + tolerance * max 1 price ≤ price := h
      linarith [this.2.1]
    · rfl
  · rintro rfl h
    obtain ⟨P, hP⟩ := black_total (type := .put) (fun h => by cases h) fwd strike
    unfold blackIV
    rw [payout, Option.bind_some]
    split
    · refine search_never (fun w _ => hP w) _ _ _ (ftol_pos price) (fun w hw => ?_) n _ (fun h => by cases h) (fun h => by cases h)
      obtain ⟨c, _, _, h1, _⟩ := C59_black fwd w strike
      have := C59_black_bounds fwd w strike hf hk hw.le _ _ h1 (hP w)
      have h' : strike + tolerance * max 1 price ≤ price := h
      linarith [this.2.2.2]
    · rfl

/-! ### Tolerances -/

private theorem far (fwd vol : ℝ) (hf : 0 < fwd) (hv : 0 < vol) : Tendsto (fun k => fwd * ncdf (dMinus fwd vol k + vol)) atTop (𝓝 0) := by
  have h1 : Tendsto (fun k => dMinus fwd vol k + vol) atTop atBot := by
    have h2 : Tendsto (fun k : ℝ => (log fwd - log k) / vol) atTop atBot := by
      refine Tendsto.atBot_div_const hv ?_
      have := tendsto_neg_atTop_atBot.comp Real.tendsto_log_atTop
      exact tendsto_atBot_add_const_left _ (log fwd) this
    refine (tendsto_atBot_add_const_right _ (vol - 1 / 2 * vol) h2).congr' ?_
    filter_upwards [eventually_gt_atTop 0] with k hk
    unfold dMinus
    rw [log_div hf.ne' hk.ne']
    ring
  simpa using (Numeric.ncdf_atBot.comp h1).const_mul fwd

/-- C98: of calls far enough out of the money the volatility found is the one tried first, e⁻¹·⁵, whatever the volatility. -/
theorem C98_far_violated (n : Nat) (fwd vol : ℝ) (hf : 0 < fwd) (hv : epsilon ≤ vol) :
    ∃ strike price, 0 < strike ∧ epsilon ≤ fwd * strike ∧ blackOpt fwd vol strike .call = some price ∧ blackIV (n + 1) fwd strike .call price 0 = some (exp (-(3 / 2))) := by
  have hv0 := lt_of_lt_of_le eps_pos hv
  have he0 : (0 : ℝ) < tolerance / 2 := by unfold tolerance; norm_num
  have hg : epsilon ≤ exp (-(3 / 2)) := by
    have : -(3 / 2) + 1 ≤ exp (-(3 / 2) : ℝ) := add_one_le_exp _
    rw [exp_neg]
    have h2 : exp (3 / 2 : ℝ) ≤ exp 1 * exp 1 := by rw [← exp_add]; exact exp_le_exp.2 (by norm_num)
    have h3 := exp_one_lt_d9
    have h4 : exp 1 * exp 1 ≤ 9 := by nlinarith [exp_pos (1 : ℝ)]
    have h5 : (9 : ℝ)⁻¹ ≤ (exp (3 / 2))⁻¹ := inv_anti₀ (exp_pos _) (h2.trans h4)
    refine le_trans ?_ h5
    unfold epsilon; norm_num
  obtain ⟨k, ⟨h1, h2⟩, h3, h4, h5⟩ := ((((far fwd vol hf hv0).eventually_lt_const he0).and ((far fwd _ hf (exp_pos (-(3 / 2)))).eventually_lt_const he0)).and
    ((eventually_gt_atTop 0).and ((eventually_ge_atTop (epsilon / fwd)).and (eventually_gt_atTop fwd)))).exists
  have hfk : epsilon ≤ fwd * k := by rw [div_le_iff₀ hf] at h4; linarith
  obtain ⟨P, hP⟩ := black_total (type := .call) (fun h => by cases h) fwd k
  have hpay : payout .call fwd k = some 0 := by rw [payout, max_eq_left (by linarith)]
  have bound : ∀ w, epsilon ≤ w → fwd * ncdf (dMinus fwd w k + w) < tolerance / 2 → 0 ≤ P w ∧ P w < tolerance / 2 := by
    intro w hw hlt
    refine ⟨black_payout hf h3 (lt_of_lt_of_le eps_pos hw) 0 _ hpay (hP w), ?_⟩
    have := (hP w).symm.trans (black_call hw hfk)
    rw [Option.some.inj this]
    unfold callF
    have := mul_nonneg h3.le (Numeric.ncdf_nonneg (dMinus fwd w k))
    linarith
  have b1 := bound vol hv h1
  have b2 := bound _ hg h2
  refine ⟨k, P vol, h3, hfk, hP vol, ?_⟩
  unfold blackIV
  rw [hpay, Option.bind_some, if_pos b1.1, if_neg (lt_irrefl _), search_first (fun w _ => hP w)]
  refine lt_of_lt_of_le ?_ (le_mul_of_one_le_right (by unfold tolerance; norm_num) (le_max_left 1 (P vol)))
  rw [abs_lt]
  constructor <;> linarith [b1.1, b1.2, b2.1, b2.2]

private theorem density_low {x : ℝ} (h0 : 0 ≤ x) (h1 : x ≤ 1 / 2) : 1 / 10 ≤ density x := by
  unfold density
  have hs : √(2 * π) ≤ 3 := by
    rw [Real.sqrt_le_left (by norm_num)]
    nlinarith [Real.pi_lt_d2]
  have hp : 0 < √(2 * π) := Real.sqrt_pos.2 (by positivity)
  rw [le_div_iff₀ hp]
  have : -(1 / 2) * x * x + 1 ≤ exp (-(1 / 2) * x * x) := add_one_le_exp _
  nlinarith

private theorem second {P : ℝ → ℝ} {price : ℝ → Option ℝ} (hP : ∀ w, 0 < w → price w = some (P w)) (target xTol fTol : ℝ) (n : Nat)
    (h0 : P (exp (-(3 / 2))) - target < 0) (h1 : fTol ≤ |P (exp (-(3 / 2))) - target|) (h2 : 0 ≤ P (exp (-(27 / 20))) - target) (hx : 3 / 20 < xTol) (tol : ℝ) :
    search price target xTol fTol (n + 2) (newHunt (-(3 / 2)) tol 0) = some (exp (-(27 / 20))) := by
  have hstep : (1 / 10 * max (1 / 100) |(-(3 / 2) : ℝ)|) = 3 / 20 := by
    rw [abs_neg, abs_of_pos (by norm_num), max_eq_right (by norm_num)]; norm_num
  unfold search
  unfold Hunt.nextX newHunt
  rw [if_neg (fun h => by cases h), Option.bind_some]
  dsimp only
  rw [if_neg (lt_irrefl (0 : ℝ)), hstep, hP _ (exp_pos _), Option.bind_some]
  unfold converged Hunt.putY
  dsimp only
  rw [Option.map_some, Option.bind_some, decide_eq_false (not_lt.2 h1)]
  unfold Hunt.width
  rw [if_neg (fun h => by cases h)]
  dsimp only
  rw [decide_eq_true h0, if_pos rfl]
  unfold search
  unfold Hunt.nextX
  rw [if_neg (fun h => by cases h), Option.bind_some]
  dsimp only
  rw [show (-(3 / 2) + 3 / 20 * 1 * 1 : ℝ) = -(27 / 20) by norm_num, hP _ (exp_pos _), Option.bind_some]
  unfold converged Hunt.putY
  dsimp only
  rw [if_pos (mul_nonpos_of_nonneg_of_nonpos h2 h0.le)]
  unfold initialize'
  dsimp only
  rw [if_pos (mul_nonpos_of_nonpos_of_nonneg h0.le h2)]
  rw [Option.map_some, Option.map_some, Option.bind_some]
  unfold Hunt.width
  rw [if_pos rfl]
  have hw : ∀ s : State ℝ, s.a.1 = -(3 / 2) → s.b.1 = -(27 / 20) → s.order.width < xTol := by
    intro s ha hb
    unfold State.order State.width
    split
    · dsimp only; rw [ha, hb]; refine lt_of_le_of_lt ?_ hx; rw [abs_le]; constructor <;> norm_num
    · rw [ha, hb]; refine lt_of_le_of_lt ?_ hx; rw [abs_le]; constructor <;> norm_num
  have := hw ⟨(-(3 / 2), P (exp (-(3 / 2))) - target), (-(27 / 20), P (exp (-(27 / 20))) - target), (-(3 / 2), P (exp (-(3 / 2))) - target), tol, true, 0⟩ rfl rfl
  dsimp only
  rw [if_pos]
  rw [Bool.or_eq_true]
  right
  exact decide_eq_true this

/-- C98: the tolerance of logarithms is in units of the forward: from forwards of two thousand million the search ends at the first step that passes the
volatility, here a twentieth beyond it. -/
theorem C98_tolerance_violated (n : Nat) (fwd : ℝ) (hf : 2 * 10 ^ 9 ≤ fwd) :
    ∃ price, blackOpt fwd (exp (-(14 / 10))) fwd .call = some price ∧ blackIV (n + 2) fwd fwd .call price 0 = some (exp (-(14 / 10)) * exp (1 / 20)) := by
  have hf0 : 0 < fwd := by linarith
  have hfk : epsilon ≤ fwd * fwd := by
    have : (1 : ℝ) ≤ fwd * fwd := by nlinarith
    refine le_trans ?_ this; unfold epsilon; norm_num
  obtain ⟨P, hP⟩ := black_total (type := .call) (fun h => by cases h) fwd fwd
  have he : ∀ x : ℝ, -(3 / 2) ≤ x → epsilon ≤ exp x ∧ 1 / 9 ≤ exp x := by
    intro x hx
    have h9 : (1 / 9 : ℝ) ≤ exp (-2) := by
      rw [exp_neg, show (2 : ℝ) = 1 + 1 by norm_num, exp_add, one_div]
      exact inv_anti₀ (by positivity) (by nlinarith [exp_pos (1 : ℝ), exp_one_lt_d9])
    have h : 1 / 9 ≤ exp x := h9.trans (exp_le_exp.2 (by linarith))
    exact ⟨le_trans (by unfold epsilon; norm_num) h, h⟩
  refine ⟨P (exp (-(14 / 10))), hP _, ?_⟩
  have e1 := (he (-(3 / 2)) le_rfl)
  have e2 := (he (-(14 / 10)) (by norm_num))
  have e3 := (he (-(27 / 20)) (by norm_num))
  have l1 : exp (-(3 / 2) : ℝ) < exp (-(14 / 10)) := exp_lt_exp.2 (by norm_num)
  have l2 : exp (-(14 / 10) : ℝ) < exp (-(27 / 20)) := exp_lt_exp.2 (by norm_num)
  have hgap : exp (-(14 / 10) : ℝ) - exp (-(3 / 2)) ≥ 1 / 90 := by
    have : exp (-(14 / 10) : ℝ) = exp (-(3 / 2)) * exp (1 / 10) := by rw [← exp_add]; norm_num
    rw [this]
    have h2 : (1 / 10 : ℝ) + 1 ≤ exp (1 / 10) := add_one_le_exp _
    nlinarith [e1.2]
  have hone : exp (-(14 / 10) : ℝ) ≤ 1 := exp_le_one_iff.2 (by norm_num)
  have c1 : P (exp (-(3 / 2))) = callF fwd fwd (exp (-(3 / 2))) := Option.some.inj ((hP _).symm.trans (black_call e1.1 hfk))
  have c2 : P (exp (-(14 / 10))) = callF fwd fwd (exp (-(14 / 10))) := Option.some.inj ((hP _).symm.trans (black_call e2.1 hfk))
  have hslope : fwd * (1 / 10) * (exp (-(14 / 10)) - exp (-(3 / 2))) ≤ P (exp (-(14 / 10))) - P (exp (-(3 / 2))) := by
    rw [c1, c2]
    have hpos : ∀ x ∈ Set.Icc (exp (-(3 / 2) : ℝ)) (exp (-(14 / 10))), 0 < x := fun x hx => lt_of_lt_of_le (exp_pos _) hx.1
    refine (convex_Icc (exp (-(3 / 2) : ℝ)) (exp (-(14 / 10)))).mul_sub_le_image_sub_of_le_deriv
      (fun x hx => (callF_deriv hf0 hf0 (hpos x hx)).continuousAt.continuousWithinAt)
      (fun x hx => (callF_deriv hf0 hf0 (hpos x (interior_subset hx))).differentiableAt.differentiableWithinAt) (fun x hx => ?_)
      _ (Set.left_mem_Icc.2 l1.le) _ (Set.right_mem_Icc.2 l1.le) l1.le
    have hx' := interior_subset hx
    have hx0 := hpos x hx'
    rw [(callF_deriv hf0 hf0 hx0).deriv]
    refine mul_le_mul_of_nonneg_left (density_low ?_ ?_) hf0.le
    · unfold dMinus; rw [div_self hf0.ne', log_one, zero_div]; linarith
    · unfold dMinus; rw [div_self hf0.ne', log_one, zero_div]; linarith [hx'.2]
  have hle : P (exp (-(14 / 10))) ≤ fwd := by
    obtain ⟨_, p, _, _, h2, _⟩ := C59_black fwd (exp (-(14 / 10))) fwd
    exact (C59_black_bounds fwd _ fwd hf0 hf0 (exp_pos _).le _ _ (hP _) h2).2.1
  have hbig : fwd / 900 ≤ P (exp (-(14 / 10))) - P (exp (-(3 / 2))) := by nlinarith
  have hpay : payout .call fwd fwd = some 0 := by rw [payout, sub_self, max_self]
  unfold blackIV
  rw [hpay, Option.bind_some, if_pos (black_payout hf0 hf0 (exp_pos _) 0 _ hpay (hP _)), if_neg (lt_irrefl _),
    second (fun w _ => hP w) _ _ _ n (by linarith) ?_ ?_ ?_ epsilon, ← exp_add]
  · norm_num
  · rw [abs_of_neg (by linarith)]
    refine le_trans ?_ (show fwd / 900 ≤ _ by linarith)
    rw [tolerance]
    have : max 1 (P (exp (-(14 / 10)))) ≤ fwd := max_le (by linarith) hle
    linarith
  · have := black_lt hf0 hf0 hfk e3.1 (exp_pos _) l2 _ _ (hP _) (hP _)
    linarith
  · rw [tolerance, max_eq_right (by linarith)]
    linarith

/-! ### Bachelier's formula -/

/-- C98: a volatility found for Bachelier's formula gives the price within one part in 10¹⁰, or is between two volatilities that price on the two sides of it. -/
theorem C98_bachelier (n : Nat) (fwd strike : ℝ) (type : OptionType) (price guess v : ℝ) (h : bachelierIV n fwd strike type price guess = some v) :
    ∃ P : ℝ → ℝ, (∀ w, bachelierOpt fwd w strike type = some (P w)) ∧ 0 < v ∧ (|P v - price| < 1 / 10 ^ 10 * max 1 price ∨
      ∃ lo hi, 0 < lo ∧ lo ≤ v ∧ v ≤ hi ∧ hi < lo * exp (1 / 10 ^ 10 * max 1 fwd) ∧ (P lo - price) * (P hi - price) ≤ 0) := by
  unfold bachelierIV at h
  obtain ⟨p, hp, h⟩ := Option.bind_eq_some_iff.1 h
  obtain ⟨P, hP⟩ := bachelier_total (set_of hp) fwd strike
  split at h
  · exact ⟨P, hP, search_found (fun w _ => hP w) price _ _ n _ v (hunts_new _ _ _ _) h⟩
  · cases h

/-- C98: its guess is taken for the logarithm of the volatility: the logarithm of the volatility of the price, as the guess, is what finds it at once. -/
theorem C98_bachelier_log (n : Nat) (fwd strike : ℝ) (type : OptionType) (vol price p : ℝ) (hv : 1 < vol) (hp : bachelierOpt fwd vol strike type = some price)
    (hpay : payout type fwd strike = some p) (hle : p ≤ price) : bachelierIV (n + 1) fwd strike type price (log vol) = some vol := by
  obtain ⟨P, hP⟩ := bachelier_total (set_of hpay) fwd strike
  have hv0 : 0 < vol := by linarith
  unfold bachelierIV
  rw [hpay, Option.bind_some, if_pos hle, if_pos (log_pos hv), search_first (fun w _ => hP w), exp_log hv0]
  rw [exp_log hv0, Option.some.inj ((hP vol).symm.trans hp), sub_self, abs_zero]
  exact ftol_pos price

private theorem npdf_zero : npdf 0 = 1 / √(2 * π) := by
  unfold npdf
  rw [if_neg (by norm_num)]
  norm_num

/-- C98: so the volatility itself is not: at the money, no volatility is found at once from itself. -/
theorem C98_bachelier_guess_violated (fwd vol : ℝ) (hf : epsilon ≤ fwd * fwd) (hv : epsilon ≤ vol) :
    ∃ price, bachelierOpt fwd vol fwd .call = some price ∧ bachelierIV 1 fwd fwd .call price vol = none := by
  have hv0 := lt_of_lt_of_le eps_pos hv
  have hP : ∀ w, epsilon ≤ w → bachelierOpt fwd w fwd .call = some (w * npdf 0) := by
    intro w hw
    unfold bachelierOpt
    rw [if_neg (by rintro (h | h); exacts [not_lt.2 hw h.1, h hf])]
    dsimp only
    rw [sub_self, zero_mul, zero_div, zero_add]
  have hn : 1 / 3 ≤ npdf 0 ∧ npdf 0 ≤ 1 := by
    have hs : √(2 * π) ≤ 3 := by
      rw [Real.sqrt_le_left (by norm_num)]
      nlinarith [Real.pi_lt_d2]
    have h1 : 1 ≤ √(2 * π) := by
      rw [Real.one_le_sqrt]; nlinarith [Real.pi_gt_three]
    rw [npdf_zero]
    exact ⟨one_div_le_one_div_of_le (by linarith) hs, by rw [div_le_one (by linarith)]; exact h1⟩
  have hexp : 1 + vol + vol ^ 2 / 2 ≤ exp vol := quadratic_le_exp_of_nonneg hv0.le
  have hee : epsilon ≤ exp vol := by nlinarith
  refine ⟨_, hP vol hv, ?_⟩
  unfold bachelierIV
  rw [payout, sub_self, max_self, Option.bind_some, if_pos (show vol * npdf 0 ≥ 0 by nlinarith [hn.1])]
  unfold search
  unfold Hunt.nextX newHunt
  rw [if_neg (fun h => by cases h), Option.bind_some]
  dsimp only
  rw [if_pos hv0, hP _ hee, Option.bind_some]
  unfold converged Hunt.putY
  dsimp only
  rw [Option.map_some, Option.bind_some]
  have hbig : ¬ |exp vol * npdf 0 - vol * npdf 0| < tolerance * max 1 (vol * npdf 0) := by
    have h1 : max 1 vol ≤ exp vol - vol := max_le (by nlinarith) (by nlinarith [sq_nonneg (vol - 1)])
    have h2 : max 1 (vol * npdf 0) ≤ max 1 vol := max_le_max le_rfl (by nlinarith)
    have h3 : 1 ≤ max 1 vol := le_max_left _ _
    rw [← sub_mul, abs_of_nonneg (by nlinarith), not_lt, tolerance]
    nlinarith
  rw [decide_eq_false hbig]
  rfl

/-- C98: for forwards and strikes of opposite sign no volatility is found for any price above the payout at the forward by the tolerance. -/
theorem C98_bachelier_sign_violated (n : Nat) (fwd strike : ℝ) (type : OptionType) (price guess p : ℝ) (hfk : fwd * strike ≤ 0) (hp : payout type fwd strike = some p)
    (h : p + 1 / 10 ^ 10 * max 1 price ≤ price) : bachelierIV n fwd strike type price guess = none := by
  have hP : ∀ w, bachelierOpt fwd w strike type = some p := by
    intro w
    unfold bachelierOpt
    rw [if_pos (Or.inr (show ¬ IsPositive (fwd * strike) from fun h => by have : epsilon ≤ fwd * strike := h; linarith [eps_pos]))]
    exact hp
  unfold bachelierIV
  rw [hp, Option.bind_some]
  split
  · exact search_never (P := fun _ => p) (fun w _ => hP w) _ _ _ (ftol_pos price) (fun w _ => h) n _ (fun h => by cases h) (fun h => by cases h)
  · rfl

/-! ### Models, maturities and parameters -/

/-- C98: the places in between are between the strike and the forward. -/
theorem C98_between (f strike : ℝ) (n : Nat) (hf : 0 < f) (hk : 0 < strike) (hn : 2 ≤ n) :
    ∃ m, between f strike n = some m ∧ 0 < m ∧ (f < strike → f < m ∧ m < strike) ∧ (strike < f → strike < m ∧ m < f) ∧ (strike = f → m = f) := by
  have hn' : (2 : ℝ) ≤ n := by exact_mod_cast hn
  have hn0 : (0 : ℝ) < n := by linarith
  unfold between
  by_cases h : strike > f
  · rw [if_pos h, if_neg (by rintro (h | h); exacts [hk.ne' h, absurd h (not_lt.2 (div_pos hf hk).le)])]
    have hq : 0 < f / strike := div_pos hf hk
    have hq1 : f / strike < 1 := (div_lt_one hk).2 h
    have he : 0 < 1 / (n : ℝ) := by positivity
    have he1 : 1 / (n : ℝ) < 1 := by rw [div_lt_one hn0]; linarith
    have h1 := Real.rpow_lt_one hq.le hq1 he
    have h2 := Real.rpow_lt_rpow_of_exponent_gt hq hq1 he1
    rw [Real.rpow_one, div_lt_iff₀ hk] at h2
    refine ⟨_, rfl, mul_pos hk (Real.rpow_pos_of_pos hq _), fun _ => ⟨by linarith, by nlinarith⟩, fun h' => absurd h' (not_lt.2 h.le), fun h' => absurd h' h.ne'⟩
  · rw [if_neg h]
    have h := not_lt.1 h
    have h1 : 0 ≤ (f - strike) / n := div_nonneg (by linarith) hn0.le
    refine ⟨_, rfl, by linarith, fun h' => absurd h' (not_lt.2 h), fun h' => ?_, fun h' => by rw [h', sub_self, zero_div, add_zero]⟩
    have h2 : (f - strike) / n ≤ (f - strike) / 2 := div_le_div_of_nonneg_left (by linarith) (by norm_num) hn'
    have h3 : 0 < (f - strike) / n := div_pos (by linarith) hn0
    constructor <;> linarith

private theorem last_of {a : Nat} {model : Implied.Distribution} {strike guess : ℝ} : ∀ {k : Nat} {v : ℝ}, modelIV a model strike guess k = some v →
    ∃ g, modelIV.last a model strike g = some v
  | 0, v, h => ⟨guess, h⟩
  | 1, v, h => ⟨guess, h⟩
  | k + 2, v, h => by
    unfold modelIV at h
    obtain ⟨g, _, h⟩ := Option.bind_eq_some_iff.1 h
    exact ⟨g, h⟩

/-- C98: what is found for a model, in any number of steps, prices the out-of-the-money option of the strike as the model does, in the sense of `C98_black`. -/
theorem C98_model (n : Nat) (model : Implied.Distribution) (strike guess v : ℝ) (k : Nat) (hf : 0 < model.forward) (hk : 0 < strike)
    (h : modelIV n model strike guess k = some v) : ∃ (type : OptionType) (price : ℝ) (P : ℝ → ℝ),
    type = (if model.forward < strike then OptionType.call else OptionType.put) ∧ model.optionPrice strike type = some price ∧
    (∀ w, blackOpt model.forward w strike type = some (P w)) ∧ 0 < v ∧ (|P v - price| < 1 / 10 ^ 10 * max 1 price ∨
      ∃ lo hi, 0 < lo ∧ lo ≤ v ∧ v ≤ hi ∧ hi < lo * exp (1 / 10 ^ 10 * max 1 model.forward) ∧ P lo ≤ price ∧ price ≤ P hi) := by
  obtain ⟨g, h⟩ := last_of h
  unfold modelIV.last at h
  dsimp only at h
  obtain ⟨price, hp, h⟩ := Option.bind_eq_some_iff.1 h
  obtain ⟨P, hP⟩ := C98_black n model.forward strike _ price g v hf hk h
  exact ⟨_, price, P, by congr, hp, hP⟩

/-- C98: the volatility of a Black model is found from itself, in any number of steps. -/
theorem C98_model_guess (n : Nat) (fwd vol : ℝ) (hf : 0 < fwd) (hv : 0 < vol) : ∀ (k : Nat) (strike : ℝ), 0 < strike →
    modelIV (n + 1) (black fwd vol) strike vol k = some vol := by
  have hlast : ∀ strike, 0 < strike → modelIV.last (n + 1) (black fwd vol) strike vol = some vol := by
    intro strike hk
    unfold modelIV.last black
    dsimp only
    generalize ht : (if strike > fwd then OptionType.call else OptionType.put) = t
    have hns : t ≠ .notSet := by rw [← ht]; split <;> exact fun h => by cases h
    obtain ⟨P, hP⟩ := black_total hns fwd strike
    rw [hP, Option.bind_some]
    exact C98_guess n fwd strike t vol _ hf hk hv (hP vol)
  intro k
  induction k using Nat.strong_induction_on with
  | _ k ih =>
    intro strike hk
    match k, ih with
    | 0, _ => exact hlast strike hk
    | 1, _ => exact hlast strike hk
    | k + 2, ih =>
      obtain ⟨m, hm, hm0, _⟩ := C98_between fwd strike (k + 2) hf hk (by omega)
      unfold modelIV
      rw [show (black fwd vol).forward = fwd from rfl, hm, Option.bind_some, ih (k + 1) (by omega) m hm0, Option.bind_some]
      exact hlast strike hk

/-- C98: per year: the volatility found for the price `BlackScholes` gives for a volatility and a maturity. -/
theorem C98_scholes (n : Nat) (spot strike vol mat prem w : ℝ) (hs : 0 < spot) (hk : 0 < strike) (hfk : epsilon ≤ spot * strike) (hm : 0 < mat) (hv : epsilon ≤ vol * √mat)
    (hp : blackOpt spot (vol * √mat) strike .call = some prem) (h : blackScholesIVol n spot strike prem mat = some w) :
    0 < w ∧ ((∃ q, blackOpt spot (w * √mat) strike .call = some q ∧ |q - prem| < 1 / 10 ^ 10 * max 1 prem) ∨ |log w - log vol| < 1 / 10 ^ 10 * max 1 spot) := by
  unfold blackScholesIVol at h
  rw [if_neg (not_le.2 hm)] at h
  obtain ⟨s, hs', rfl⟩ := Option.map_eq_some_iff.1 h
  have hr : 0 < √mat := Real.sqrt_pos.2 hm
  have hv0 : 0 < vol := by
    have := lt_of_lt_of_le eps_pos hv
    exact pos_of_mul_pos_left this hr.le
  obtain ⟨h0, h1⟩ := C98_recovers n spot strike .call _ prem 0 s hs hk hfk hv hp hs'
  refine ⟨div_pos h0 hr, ?_⟩
  rw [div_mul_cancel₀ s hr.ne', log_div h0.ne' hr.ne']
  rw [log_mul hv0.ne' hr.ne'] at h1
  refine h1.imp id fun h => ?_
  rwa [show log s - log √mat - log vol = log s - (log vol + log √mat) by ring]

/-- C98: `VolVega` is the derivative of the price by the logarithm of the volatility. -/
theorem C98_vol_vega (fwd vol strike : ℝ) (hf : 0 < fwd) (hk : 0 < strike) (hv : epsilon < vol) (hfk : epsilon ≤ fwd * strike) (t : OptionType)
    (hd : |dMinus fwd vol strike + vol| ≤ 10) (vv : ℝ) (h : volVega (blackGreeks fwd vol strike t) vol = some vv) :
    ∃ g : ℝ → ℝ, (∀ᶠ x in 𝓝 (log vol), blackOpt fwd (exp x) strike t = some (g x)) ∧ HasDerivAt g vv (log vol) := by
  obtain ⟨⟨d, vega⟩, hg, rfl⟩ := Option.map_eq_some_iff.1 h
  obtain ⟨g, h1, h2⟩ := C68_black_vega fwd vol strike hf hk hv hfk t hd d vega hg
  have hv0 : 0 < vol := lt_trans eps_pos hv
  refine ⟨fun x => g (exp x), ?_, ?_⟩
  · have : Tendsto exp (𝓝 (log vol)) (𝓝 vol) := by
      have := (Real.continuous_exp.tendsto (log vol))
      rwa [exp_log hv0] at this
    exact this.eventually h1
  · have he := Real.hasDerivAt_exp (log vol)
    rw [exp_log hv0] at he
    have hc : HasDerivAt g vega (exp (log vol)) := by rw [exp_log hv0]; exact h2
    refine (hc.comp (log vol) he).congr_deriv ?_
    ring

private def held (vol : ℝ) (g : ℝ × ℝ) (a b c : Bool) : List (Str × ℝ) :=
  (if a then [("delta".toList, g.1)] else []) ++ ((if b then [("vega".toList, g.2)] else []) ++ (if c then [("volvega".toList, vol * g.2)] else []))

private theorem held_insert (sgn : Bool) (vol : ℝ) (g : ℝ × ℝ) (a b c : Bool) :
    mapInsert sgn "delta".toList g.1 (held vol g a b c) = held vol g true b c ∧ mapInsert sgn "vega".toList g.2 (held vol g a b c) = held vol g a true c ∧
    mapInsert sgn "volvega".toList (vol * g.2) (held vol g a b c) = held vol g a b true := by
  have h1 : ltS sgn "delta".toList "vega".toList = true := by cases sgn <;> decide
  have h2 : ltS sgn "delta".toList "volvega".toList = true := by cases sgn <;> decide
  have h3 : ltS sgn "vega".toList "volvega".toList = true := by cases sgn <;> decide
  have h4 : ltS sgn "vega".toList "delta".toList = false := by cases sgn <;> decide
  have h5 : ltS sgn "volvega".toList "delta".toList = false := by cases sgn <;> decide
  have h6 : ltS sgn "volvega".toList "vega".toList = false := by cases sgn <;> decide
  have h7 : ltS sgn "delta".toList "delta".toList = false := by cases sgn <;> decide
  have h8 : ltS sgn "vega".toList "vega".toList = false := by cases sgn <;> decide
  have h9 : ltS sgn "volvega".toList "volvega".toList = false := by cases sgn <;> decide
  unfold held
  generalize "delta".toList = d at *
  generalize "vega".toList = v at *
  generalize "volvega".toList = w at *
  cases a <;> cases b <;> cases c <;> simp [mapInsert, h1, h2, h3, h4, h5, h6, h7, h8, h9]

private theorem report_eq (sgn : Bool) (vol : ℝ) (g : ℝ × ℝ) : ∀ (names : List Str) (a b c : Bool), report sgn vol g names (held vol g a b c) =
    if names.all (fun n => eqS sgn n "delta".toList || eqS sgn n "vega".toList || eqS sgn n "volvega".toList) then
      some (held vol g (a || names.any (eqS sgn · "delta".toList)) (b || names.any (eqS sgn · "vega".toList)) (c || names.any (eqS sgn · "volvega".toList)))
    else none
  | [], a, b, c => by simp [report]
  | n :: names, a, b, c => by
    have hx := held_insert sgn vol g a b c
    have h12 : eqS sgn n "delta".toList = true → eqS sgn n "vega".toList = false ∧ eqS sgn n "volvega".toList = false := by
      intro h
      have : n.length = 5 := by unfold eqS at h; exact (of_decide_eq_true h).1
      unfold eqS
      exact ⟨decide_eq_false fun h => by have := h.1.symm.trans this; revert this; decide, decide_eq_false fun h => by have := h.1.symm.trans this; revert this; decide⟩
    have h23 : eqS sgn n "vega".toList = true → eqS sgn n "delta".toList = false ∧ eqS sgn n "volvega".toList = false := by
      intro h
      have : n.length = 4 := by unfold eqS at h; exact (of_decide_eq_true h).1
      unfold eqS
      exact ⟨decide_eq_false fun h => by have := h.1.symm.trans this; revert this; decide, decide_eq_false fun h => by have := h.1.symm.trans this; revert this; decide⟩
    have ih := report_eq sgn vol g names
    rw [report]
    generalize "delta".toList = d at *
    generalize "vega".toList = v at *
    generalize "volvega".toList = w at *
    by_cases e1 : eqS sgn n d = true
    · obtain ⟨e2, e3⟩ := h12 e1
      rw [if_pos e1, hx.1, ih]
      simp [e1, e2, e3]
    · by_cases e2 : eqS sgn n v = true
      · obtain ⟨_, e3⟩ := h23 e2
        rw [if_neg e1, if_pos e2, hx.2.1, ih]
        simp [e1, e2, e3]
      · by_cases e3 : eqS sgn n w = true
        · rw [if_neg e1, if_neg e2, if_pos e3, hx.2.2, ih]
          simp [e1, e2, e3]
        · rw [if_neg e1, if_neg e2, if_neg e3]
          simp [e1, e2, e3]

/-- C98: the derivatives reported are those asked for by the names `delta`, `vega` and `volvega`, in whatever letters, each once; with any other name there is no report. -/
theorem C98_derivatives (sgn : Bool) (delta vega vol : ℝ) (names : List Str) :
    parameterDerivatives sgn (some (delta, vega)) vol names =
      if ∀ n ∈ names, eqS sgn n "delta".toList = true ∨ eqS sgn n "vega".toList = true ∨ eqS sgn n "volvega".toList = true then
        some ((if ∃ n ∈ names, eqS sgn n "delta".toList = true then [("delta".toList, delta)] else []) ++
          ((if ∃ n ∈ names, eqS sgn n "vega".toList = true then [("vega".toList, vega)] else []) ++
          (if ∃ n ∈ names, eqS sgn n "volvega".toList = true then [("volvega".toList, vol * vega)] else [])))
      else none := by
  unfold parameterDerivatives
  rw [Option.bind_some]
  have := report_eq sgn vol (delta, vega) names false false false
  rw [show held vol (delta, vega) false false false = [] from rfl] at this
  rw [this]
  unfold held
  generalize "delta".toList = d at *
  generalize "vega".toList = v at *
  generalize "volvega".toList = w at *
  simp [or_assoc]

/-- C98: the names the distributions say their parameters have are refused. -/
theorem C98_names_violated (sgn : Bool) (greeks : Option (ℝ × ℝ)) (vol : ℝ) :
    parameterDerivatives sgn greeks vol parameterNames = none ∧ ∀ n ∈ parameterNames, parameterDerivatives sgn greeks vol [n] = none := by
  cases greeks with
  | none => exact ⟨rfl, fun _ _ => rfl⟩
  | some g =>
    obtain ⟨d, v⟩ := g
    constructor
    · rw [C98_derivatives, if_neg]
      intro h
      have := h "forward".toList (by simp [parameterNames])
      revert this
      cases sgn <;> decide
    · intro n hn
      rw [C98_derivatives, if_neg]
      intro h
      have := h n (by simp)
      revert this
      rcases List.mem_cons.1 hn with rfl | hn
      · cases sgn <;> decide
      · rcases List.mem_cons.1 hn with rfl | hn
        · cases sgn <;> decide
        · cases hn

/-! ### The hypotheses hold -/

example : blackIV 30 100 100 .call (callF 100 100 (1 / 5)) (1 / 5) = some (1 / 5) :=
  C98_guess 29 100 100 .call (1 / 5) _ (by norm_num) (by norm_num) (by norm_num) (black_call (by unfold epsilon; norm_num) (by unfold epsilon; norm_num))

example : blackIV 30 100 80 .call 150 (1 / 5) = none :=
  (C98_refuses 30 100 80 .call 150 (1 / 5) (by norm_num) (by norm_num)).2.1 rfl (by norm_num)

example : bachelierIV 30 (-1) 1 .call (1 / 2) 0 = none :=
  C98_bachelier_sign_violated 30 (-1) 1 .call (1 / 2) 0 0 (by norm_num) (by rw [payout]; norm_num) (by norm_num)

example : ∃ price, bachelierOpt 100 20 100 .call = some price ∧ bachelierIV 1 100 100 .call price 20 = none :=
  C98_bachelier_guess_violated 100 20 (by unfold epsilon; norm_num) (by unfold epsilon; norm_num)

example : modelIV 30 (black 100 (1 / 5)) 140 (1 / 5) 4 = some (1 / 5) := C98_model_guess 29 100 (1 / 5) (by norm_num) (by norm_num) 4 140 (by norm_num)

end Dal
