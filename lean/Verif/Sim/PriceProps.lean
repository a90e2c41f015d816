import Verif.Sim.PriceLemmas
import Verif.Script.ParserProps
import Verif.Script.IndexModel
import Verif.Script.GradientModel

/-!
# C97: simulated means are closed-form prices

Specification: the mean over the Gaussian numbers of a path is the integral over the product of standard normal distributions; the closed form is `Distribution::BlackOpt` at the
forward, discounted at the rate.
-/

namespace Dal
open Dal.Numeric Dal.Models Dal.TimeLine MeasureTheory ProbabilityTheory

/-- The mean over `n` independent standard normal numbers. -/
noncomputable def gaussMean (n : Nat) (h : (Nat → ℝ) → ℝ) : ℝ := ∫ g, h (numbers g) ∂(Measure.pi fun _ : Fin n => gaussianReal 0 1)

theorem spot_form (b : BS ℝ) (line gauss : Nat → ℝ) (k : Nat) (hs : 0 < b.spot) (x : ℝ) (hx : ∑ i ∈ Finset.range k, b.std line i * gauss i = x)
    (hk : line 0 ≤ line k) : Real.exp (b.logAt line gauss k) =
      b.spot * Real.exp ((b.rate - b.div) * (line k - line 0)) * Real.exp (x - (b.vol * Real.sqrt (line k - line 0)) ^ 2 / 2) := by
  rw [log_sum, hx, mul_pow, Real.sq_sqrt (sub_nonneg.2 hk)]
  conv_rhs => rw [← Real.exp_log hs]
  rw [← Real.exp_add, ← Real.exp_add]
  congr 1
  ring

theorem line_le (line : Nat → ℝ) (k : Nat) (hl : ∀ i, i < k → line i ≤ line (i + 1)) : line 0 ≤ line k := by
  induction k with
  | zero => exact le_refl _
  | succ k ih => exact (ih fun i hi => hl i (by omega)).trans (hl k (by omega))

/-- C97, the law of the spot: at any position of the line the spot of a Black–Scholes path is log-normal around the forward, with the deviation of the whole time to that position. -/
theorem C97_bs_law (b : BS ℝ) (line : Nat → ℝ) (n k : Nat) (hk : k ≤ n) (hl : ∀ i, i < k → line i ≤ line (i + 1)) (hs : 0 < b.spot) (F : ℝ → ℝ) (hF : Measurable F) :
    gaussMean n (fun gauss => F (Real.exp (b.logAt line gauss k))) =
      lognormalMean F (b.spot * Real.exp ((b.rate - b.div) * (line k - line 0))) (b.vol * Real.sqrt (line k - line 0)) := by
  have hle := line_le line k hl
  rw [gaussMean, lognormalMean]
  have h1 : ∀ g : Fin n → ℝ, F (Real.exp (b.logAt line (numbers g) k)) =
      (fun x => F (b.spot * Real.exp ((b.rate - b.div) * (line k - line 0)) * Real.exp (x - (b.vol * Real.sqrt (line k - line 0)) ^ 2 / 2)))
        (∑ i : Fin n, (if i.1 < k then b.std line i.1 else 0) * g i) := fun g => by
    rw [spot_form b line _ k hs _ (sum_numbers g (b.std line) k hk) hle]
  simp only [h1]
  have h2 := weighted_mean n (fun i : Fin n => if i.1 < k then b.std line i.1 else 0) (b.vol * Real.sqrt (line k - line 0)) (sum_vars b line n k hl hk)
    (fun x => F (b.spot * Real.exp ((b.rate - b.div) * (line k - line 0)) * Real.exp (x - (b.vol * Real.sqrt (line k - line 0)) ^ 2 / 2)))
    (hF.comp (by fun_prop))
  rw [h2]
  simp only [sq]

example : gaussMean 3 (fun gauss => Real.exp ((⟨100, 0.03, 0.01, 0.2⟩ : BS ℝ).logAt (fun i => i) gauss 2) ^ 2) =
    lognormalMean (fun s => s ^ 2) (100 * Real.exp ((0.03 - 0.01) * (((2 : Nat) : ℝ) - (0 : Nat)))) (0.2 * Real.sqrt (((2 : Nat) : ℝ) - (0 : Nat))) :=
  C97_bs_law (⟨100, 0.03, 0.01, 0.2⟩ : BS ℝ) (fun i => i) 3 2 (by omega) (fun i _ => by push_cast; linarith) (by norm_num) (fun s => s ^ 2) (by fun_prop)

theorem bs_integrable (b : BS ℝ) (line : Nat → ℝ) (n k : Nat) (hk : k ≤ n) (hl : ∀ i, i < k → line i ≤ line (i + 1)) (hs : 0 < b.spot) (F : ℝ → ℝ) (hF : Measurable F)
    (hi : ∀ f v, Integrable (fun g => F (f * Real.exp (v * g - v * v / 2))) (gaussianReal 0 1)) :
    Integrable (fun g => F (Real.exp (b.logAt line (numbers g) k))) (Measure.pi fun _ : Fin n => gaussianReal 0 1) := by
  have hle := line_le line k hl
  have h1 : ∀ g : Fin n → ℝ, F (Real.exp (b.logAt line (numbers g) k)) =
      (fun x => F (b.spot * Real.exp ((b.rate - b.div) * (line k - line 0)) * Real.exp (x - (b.vol * Real.sqrt (line k - line 0)) ^ 2 / 2)))
        (∑ i : Fin n, (if i.1 < k then b.std line i.1 else 0) * g i) := fun g => by
    rw [spot_form b line _ k hs _ (sum_numbers g (b.std line) k hk) hle]
  simp only [h1]
  refine weighted_integrable n (fun i : Fin n => if i.1 < k then b.std line i.1 else 0) (b.vol * Real.sqrt (line k - line 0)) (sum_vars b line n k hl hk)
    (fun x => F (b.spot * Real.exp ((b.rate - b.div) * (line k - line 0)) * Real.exp (x - (b.vol * Real.sqrt (line k - line 0)) ^ 2 / 2)))
    (hF.comp (by fun_prop)) ?_
  simp only [sq]
  exact hi _ _

/-- When the code prices with the closed form without taking a small number for zero, or there is nothing uncertain in the payoff. -/
def Regular (fwd vol strike : ℝ) : Prop := (0 < strike ∧ epsilon ≤ vol ∧ epsilon ≤ fwd * strike) ∨ strike ≤ 0 ∨ vol = 0

theorem payoff_measurable (type : OptionType) (k : ℝ) (p : ℝ → ℝ) (hp : ∀ s, payout type s k = some (p s)) : Measurable p := by
  cases type with
  | notSet => exact absurd (hp 0) (by rw [payout]; exact fun h => by cases h)
  | call => rw [show p = fun s => max 0 (s - k) from funext fun s => (Option.some.inj (hp s)).symm]; fun_prop
  | put => rw [show p = fun s => max 0 (k - s) from funext fun s => (Option.some.inj (hp s)).symm]; fun_prop
  | straddle => rw [show p = fun s => |s - k| from funext fun s => (Option.some.inj (hp s)).symm]; exact (measurable_id.sub_const k).abs

/-- C97: the mean over Black–Scholes paths of the payoff of an option divided by the numeraire is the discounted Black price at the forward, for any time line from today, any number
of steps before and after the expiry, and all types of options. -/
theorem C97_bs (b : BS ℝ) (line : Nat → ℝ) (n k : Nat) (hk : k ≤ n) (hl : ∀ i, i < k → line i ≤ line (i + 1)) (h0 : line 0 = 0) (hs : 0 < b.spot) (type : OptionType)
    (strike : ℝ) (p : ℝ → ℝ) (hp : ∀ s, payout type s strike = some (p s))
    (hr : Regular (b.spot * Real.exp ((b.rate - b.div) * line k)) (b.vol * Real.sqrt (line k)) strike) :
    (blackOpt (b.spot * Real.exp ((b.rate - b.div) * line k)) (b.vol * Real.sqrt (line k)) strike type).map (Real.exp (-b.rate * line k) * ·) =
      some (gaussMean n fun gauss => p (Real.exp (b.logAt line gauss k)) / b.numeraire (line k)) := by
  have h1 := C97_bs_law b line n k hk hl hs p (payoff_measurable type strike p hp)
  rw [h0, sub_zero] at h1
  have h2 : gaussMean n (fun gauss => p (Real.exp (b.logAt line gauss k)) / b.numeraire (line k)) =
      gaussMean n (fun gauss => p (Real.exp (b.logAt line gauss k))) * Real.exp (-b.rate * line k) := by
    rw [gaussMean, gaussMean, integral_div, div_eq_mul_inv, neg_mul, Real.exp_neg]
    rfl
  have hf : 0 < b.spot * Real.exp ((b.rate - b.div) * line k) := mul_pos hs (Real.exp_pos _)
  have h3 : blackOpt (b.spot * Real.exp ((b.rate - b.div) * line k)) (b.vol * Real.sqrt (line k)) strike type =
      some (lognormalMean p (b.spot * Real.exp ((b.rate - b.div) * line k)) (b.vol * Real.sqrt (line k))) := by
    rcases hr with ⟨a, c, d⟩ | h | h
    · exact C97_black type _ _ _ p hp hf a c d
    · exact C97_black_certain type _ _ _ p hp hf.le (Or.inl h)
    · exact C97_black_certain type _ _ _ p hp hf.le (Or.inr (Or.inr h))
  rw [h2, h1, h3, Option.map_some, mul_comm]

private theorem regular_two : Regular (100 * Real.exp ((0.03 - 0.01) * ((2 : Nat) : ℝ))) (0.2 * Real.sqrt ((2 : Nat) : ℝ)) 110 := by
  have h1 := Real.one_le_exp (show (0 : ℝ) ≤ (0.03 - 0.01) * ((2 : Nat) : ℝ) by norm_num)
  have h2 : (1 : ℝ) ≤ Real.sqrt ((2 : Nat) : ℝ) := by rw [Real.le_sqrt (by norm_num) (by norm_num)]; norm_num
  refine Or.inl ⟨by norm_num, ?_, ?_⟩
  · exact (show epsilon ≤ 0.2 * 1 by norm_num [epsilon]).trans (mul_le_mul_of_nonneg_left h2 (by norm_num))
  · rw [epsilon]; nlinarith

example : (blackOpt (100 * Real.exp ((0.03 - 0.01) * ((2 : Nat) : ℝ))) (0.2 * Real.sqrt ((2 : Nat) : ℝ)) 110 .put).map (Real.exp (-0.03 * ((2 : Nat) : ℝ)) * ·) =
    some (gaussMean 3 fun gauss => max 0 (110 - Real.exp ((⟨100, 0.03, 0.01, 0.2⟩ : BS ℝ).logAt (fun i => i) gauss 2)) / (⟨100, 0.03, 0.01, 0.2⟩ : BS ℝ).numeraire ((2 : Nat) : ℝ)) :=
  C97_bs (⟨100, 0.03, 0.01, 0.2⟩ : BS ℝ) (fun i => i) 3 2 (by omega) (fun i _ => by push_cast; linarith) (by norm_num) (by norm_num) .put 110 _ (fun _ => rfl)
    regular_two

/-- C97: the same over the paths of a Dupire model with one volatility. -/
theorem C97_dupire_flat (eps : ℝ) (m : Dupire ℝ) (vol : ℝ) (line : Nat → ℝ) (n k : Nat) (hk : k ≤ n) (hl : ∀ i, line i ≤ line (i + 1)) (h0 : line 0 = 0) (hs : 0 < m.spot)
    (hS : 0 < m.nS) (hT : 0 < m.nT) (hv : ∀ i j, i < m.nS → j < m.nT → m.vols i j = vol) (type : OptionType)
    (strike : ℝ) (p : ℝ → ℝ) (hp : ∀ s, payout type s strike = some (p s))
    (hr : Regular (m.spot * Real.exp ((m.r - m.q) * line k)) (vol * Real.sqrt (line k)) strike) :
    ∃ logs : (Nat → ℝ) → ℝ, (∀ gauss, m.logAt eps line gauss k = some (logs gauss)) ∧
      (blackOpt (m.spot * Real.exp ((m.r - m.q) * line k)) (vol * Real.sqrt (line k)) strike type).map (Real.exp (-m.r * line k) * ·) =
        some (gaussMean n fun gauss => p (Real.exp (logs gauss)) / m.numeraire (line k)) :=
  ⟨fun gauss => (⟨m.spot, m.r, m.q, vol⟩ : BS ℝ).logAt line gauss k,
    fun gauss => C77_flat_is_black_scholes eps m ⟨m.spot, m.r, m.q, vol⟩ line gauss k hS hT hv rfl rfl rfl hl,
    C97_bs ⟨m.spot, m.r, m.q, vol⟩ line n k hk (fun i _ => hl i) h0 hs type strike p hp hr⟩

example : ∃ logs : (Nat → ℝ) → ℝ,
    (∀ gauss, (⟨100, 0.03, 0.01, 2, fun i => 90 + 20 * i, 1, fun _ => 0, fun _ _ => 0.2⟩ : Dupire ℝ).logAt 0 (fun i => i) gauss 2 = some (logs gauss)) ∧
    (blackOpt (100 * Real.exp ((0.03 - 0.01) * ((2 : Nat) : ℝ))) (0.2 * Real.sqrt ((2 : Nat) : ℝ)) 110 .put).map (Real.exp (-0.03 * ((2 : Nat) : ℝ)) * ·) =
      some (gaussMean 3 fun gauss => max 0 (110 - Real.exp (logs gauss)) / Real.exp (0.03 * ((2 : Nat) : ℝ))) :=
  C97_dupire_flat 0 (⟨100, 0.03, 0.01, 2, fun i => 90 + 20 * i, 1, fun _ => 0, fun _ _ => 0.2⟩ : Dupire ℝ) 0.2 (fun i => i) 3 2 (by omega) (fun i => by push_cast; linarith)
    (by norm_num) (by norm_num) (by decide) (by decide) (fun _ _ _ _ => rfl) .put 110 _ (fun _ => rfl) regular_two

/-! ## From the text of a script to its price -/

/-- The text of the event at every date, of a call or a put on the strike `K`. -/
def optionText (put : Bool) : List Char := if put then "opt pays max(K - spot(), 0.0)".toList else "opt pays max(spot() - K, 0.0)".toList

/-- The statement of the text, for some numbering of variables. -/
def optionTree {ν : Type} (put : Bool) (x k : ν) (K : ℝ) : Script.Stmts ν ℝ :=
  .cons (.pays ⟨x, false⟩ (.bin .max (if put then .bin .sub (.constVar k K) .spot none else .bin .sub .spot (.constVar k K) none) (.const 0) none)) .nil

theorem option_parsed (put : Bool) (v : Script.PEnv ℝ) (K : ℝ) (h1 : v.cvs ['o', 'p', 't'] = none) (h2 : v.cvs ['K'] = some K)
    (h3 : v.toD (.num ['0', '.', '0']) = some 0) :
    ∃ N, ∀ n, N ≤ n → Script.pEvent v n (Script.tokens (optionText put)) = .ok (optionTree put ['o', 'p', 't'] ['K'] K) := by
  apply C27_event
  have hz : Script.GArgs v [.num ['0', '.', '0']] [.const 0] := .one (.up (.up (.up (.num h3))))
  have hs : Script.G4 v [.kw .spot, .lp, .rp] .spot := .spot
  have hK : Script.G4 v [.name ['K']] (.constVar ['K'] K) := .cvar h2
  have key : ∀ a e, Script.G1 v a e → Script.GStmts v (.name ['o', 'p', 't'] :: .kw .pays :: .kw .max_ :: .lp :: (a ++ [.comma, .num ['0', '.', '0'], .rp]))
      (.cons (.pays ⟨['o', 'p', 't'], false⟩ (.bin .max e (.const 0) none)) .nil) := by
    intro a e h
    have h4 := Script.GStmt.pays (s := ['o', 'p', 't']) (Script.G1.up (.up (.up (Script.G4.max (l := []) (Script.GArgs.more h hz) (by simp)))))
    rw [h1] at h4
    have h5 := Script.GStmts.cons h4 Script.GStmts.nil
    simpa using h5
  cases put with
  | false =>
    have ht : Script.tokens (optionText false) =
        [.name ['o', 'p', 't'], .kw .pays, .kw .max_, .lp, .kw .spot, .lp, .rp, .minus, .name ['K'], .comma, .num ['0', '.', '0'], .rp] := by decide +kernel
    rw [ht]
    exact key _ _ (Script.G1.sub (.up (.up (.up hs))) (.up (.up hK)))
  | true =>
    have ht : Script.tokens (optionText true) =
        [.name ['o', 'p', 't'], .kw .pays, .kw .max_, .lp, .name ['K'], .minus, .kw .spot, .lp, .rp, .comma, .num ['0', '.', '0'], .rp] := by decide +kernel
    rw [ht]
    exact key _ _ (Script.G1.sub (.up (.up (.up hK))) (.up (.up hs)))

theorem option_indexed (put : Bool) (cval : List Char → ℝ) (K : ℝ) (n : Nat) (hn : 0 < n) :
    (⟨[], []⟩ : Script.Indexer (List Char) ℝ).events cval (List.replicate n (optionTree put ['o', 'p', 't'] ['K'] K)) =
      (⟨[(['o', 'p', 't'], 0)], [(['K'], (0, K))]⟩, List.replicate n (optionTree put 0 0 K)) := by
  have step : ∀ m, (⟨[(['o', 'p', 't'], 0)], [(['K'], (0, K))]⟩ : Script.Indexer (List Char) ℝ).events cval (List.replicate m (optionTree put ['o', 'p', 't'] ['K'] K)) =
      (⟨[(['o', 'p', 't'], 0)], [(['K'], (0, K))]⟩, List.replicate m (optionTree put 0 0 K)) := by
    intro m
    induction m with
    | zero => rfl
    | succ m ih =>
      rw [List.replicate_succ, List.replicate_succ, Script.Indexer.events]
      have h1 : (⟨[(['o', 'p', 't'], 0)], [(['K'], (0, K))]⟩ : Script.Indexer (List Char) ℝ).stmts cval (optionTree put ['o', 'p', 't'] ['K'] K) =
          (⟨[(['o', 'p', 't'], 0)], [(['K'], (0, K))]⟩, optionTree put 0 0 K) := by cases put <;> rfl
      rw [h1]
      dsimp only
      rw [ih]
  obtain ⟨m, rfl⟩ : ∃ m, n = m + 1 := ⟨n - 1, by omega⟩
  rw [List.replicate_succ, List.replicate_succ, Script.Indexer.events]
  have h1 : (⟨[], []⟩ : Script.Indexer (List Char) ℝ).stmts cval (optionTree put ['o', 'p', 't'] ['K'] K) =
      (⟨[(['o', 'p', 't'], 0)], [(['K'], (0, K))]⟩, optionTree put 0 0 K) := by cases put <;> rfl
  rw [h1]
  dsimp only
  rw [step m]

/-- The payoff of the text. -/
noncomputable def optionPayoff (put : Bool) (K s : ℝ) : ℝ := if put then max 0 (K - s) else max 0 (s - K)

/-- The values of the constants, as the evaluator has them. -/
noncomputable def constants (s : Script.Indexer (List Char) ℝ) (i : Nat) : ℝ := ((s.constValues[i]?).bind id).getD 0

/-- A sample of the path, as the script sees it. -/
def Models.Sample.toScript (s : Models.Sample ℝ) : Script.Sample ℝ := ⟨s.spot, s.numeraire⟩

private theorem max_cases (x : ℝ) : (if decide (x < 0) = true then 0 else x) = max 0 x := by
  simp only [decide_eq_true_eq]
  split_ifs with h
  · exact (max_eq_left h.le).symm
  · exact (max_eq_right (not_lt.1 h)).symm

private theorem option_run (put : Bool) (K : ℝ) (cv : Nat → ℝ) (hcv : cv 0 = K) : ∀ (L : List (Models.Sample ℝ)) (σ : Nat → ℝ),
    Script.evaluate realOps cv ((List.replicate L.length (optionTree put 0 0 K)).zip (L.map Models.Sample.toScript)) σ 0 =
      σ 0 + (L.map fun s => optionPayoff put K s.spot / s.numeraire).sum := by
  intro L
  induction L with
  | nil => intro σ; simp [Script.evaluate]
  | cons s L ih =>
    intro σ
    have h1 : Script.execs realOps cv s.toScript (optionTree put 0 0 K) σ 0 = σ 0 + optionPayoff put K s.spot / s.numeraire := by
      cases put with
      | false =>
        show σ 0 + (if decide (s.spot - cv 0 < 0) = true then (0 : ℝ) else s.spot - cv 0) / s.numeraire = _
        rw [max_cases, hcv]; rfl
      | true =>
        show σ 0 + (if decide (cv 0 - s.spot < 0) = true then (0 : ℝ) else cv 0 - s.spot) / s.numeraire = _
        rw [max_cases, hcv]; rfl
    have h2 := ih (Script.execs realOps cv s.toScript (optionTree put 0 0 K) σ)
    rw [List.map_cons, List.map_cons, List.sum_cons, List.length_cons, List.replicate_succ, List.zip_cons_cons]
    show Script.evaluate realOps cv ((List.replicate L.length (optionTree put 0 0 K)).zip (L.map Models.Sample.toScript))
      (Script.execs realOps cv s.toScript (optionTree put 0 0 K) σ) 0 = _
    rw [h2, h1]
    ring

/-- C97, from the text to the price: the script that pays a call or a put at each of its dates is parsed, indexed, run on the scenarios of the Black–Scholes model that the allocated time
line makes, and the mean over the Gaussian numbers of its payoff variable is the sum of the discounted Black prices. -/
theorem C97_script (put : Bool) (b : BS ℝ) (product : List ℝ) (hne : product ≠ []) (hp : product.IsChain (· < ·)) (hnn : ∀ t ∈ product, 0 ≤ t) (hs : 0 < b.spot)
    (K : ℝ) (v : Script.PEnv ℝ) (h1 : v.cvs ['o', 'p', 't'] = none) (h2 : v.cvs ['K'] = some K) (h3 : v.toD (.num ['0', '.', '0']) = some 0) (cval : List Char → ℝ)
    (hr : ∀ t ∈ product, Regular (b.spot * Real.exp ((b.rate - b.div) * t)) (b.vol * Real.sqrt t) K) :
    ∃ (prog : Script.PStmts ℝ) (line : List ℝ) (flags : List Bool) (paths : (Nat → ℝ) → List (Models.Sample ℝ)) (ix : Script.Indexer (List Char) ℝ) (code : List (Script.Stmts Nat ℝ))
      (i : Nat) (prices : Fin product.length → ℝ),
      (∃ N, ∀ n, N ≤ n → Script.pEvent v n (Script.tokens (optionText put)) = .ok prog) ∧
      (⟨[], []⟩ : Script.Indexer (List Char) ℝ).events cval (List.replicate product.length prog) = (ix, code) ∧
      Script.payoffIdx ['o', 'p', 't'] ix.varNames = some i ∧
      bsAllocate product = some (line, flags) ∧
      (∀ gauss, b.scenario product (product.map fun t => ⟨true, [t], [[t]]⟩) line flags gauss = some (paths gauss)) ∧
      (∀ k, blackOpt (b.spot * Real.exp ((b.rate - b.div) * product[k])) (b.vol * Real.sqrt product[k]) K (if put then .put else .call) = some (prices k)) ∧
      gaussMean (line.length - 1) (fun gauss => Script.evaluate realOps (constants ix) (code.zip ((paths gauss).map Models.Sample.toScript)) (fun _ => 0) i) =
        ∑ k, Real.exp (-b.rate * product[k]) * prices k := by
  obtain ⟨line, flags, ha, hhead, -, hchain, -, -, -⟩ := C63_bs_line product hne hp hnn
  have hsc := fun gauss => C77_bs_scenario b product (product.map fun t => ⟨true, [t], [[t]]⟩) gauss hne hp hnn (List.length_map _)
  have hpw := List.isChain_iff_pairwise.1 hchain
  have huniq : ∀ (i j : Nat) (t : ℝ), (line)[i]? = some t → (line)[j]? = some t → i = j := by
    intro i j t hi hj
    have hnd : line.Nodup := hpw.imp fun h => ne_of_lt h
    obtain ⟨hi', hi⟩ := List.getElem?_eq_some_iff.1 hi
    obtain ⟨hj', hj⟩ := List.getElem?_eq_some_iff.1 hj
    exact (List.Nodup.getElem_inj_iff hnd).1 (hi.trans hj.symm)
  obtain ⟨l0, f0, p0, a0, -, -, q0⟩ := hsc fun _ => 0
  have hl0 : l0 = line := by rw [ha] at a0; injection a0 with a0; injection a0 with a0 _; exact a0.symm
  subst hl0
  choose pos hpos _ using q0
  have hpaths : ∀ gauss, b.scenario product (product.map fun t => ⟨true, [t], [[t]]⟩) l0 flags gauss =
      some (List.ofFn fun k : Fin product.length =>
        (⟨Real.exp (b.logAt (fun i => l0.getD i 0) gauss (pos k.1 k.2)), Real.exp (b.rate * product[k]), [1], [[1]]⟩ : Models.Sample ℝ)) := by
    intro gauss
    obtain ⟨l1, f1, p1, a1, s1, n1, q1⟩ := hsc gauss
    rw [ha] at a1
    injection a1 with a1
    injection a1 with a1 a2
    subst a1 a2
    rw [s1]
    congr 1
    apply List.ext_getElem?
    intro k
    by_cases hk : k < product.length
    · obtain ⟨ps, e1, e2⟩ := q1 k hk
      rw [e2, List.getElem?_ofFn, dif_pos hk, huniq ps _ _ e1 (hpos k hk)]
      simp
    · rw [List.getElem?_eq_none (by omega), List.getElem?_eq_none (by rw [List.length_ofFn]; omega)]
  have hline0 : l0.getD 0 0 = 0 := by
    rw [List.getD_eq_getElem?_getD, ← List.head?_eq_getElem?, hhead]; rfl
  have hlinek : ∀ k (hk : k < product.length), l0.getD (pos k hk) 0 = product[k] := by
    intro k hk
    rw [List.getD_eq_getElem?_getD, hpos k hk]; rfl
  have hposlt : ∀ k (hk : k < product.length), pos k hk ≤ l0.length - 1 := by
    intro k hk
    have := (List.getElem?_eq_some_iff.1 (hpos k hk)).1
    omega
  have hmono : ∀ k (hk : k < product.length) i, i < pos k hk → l0.getD i 0 ≤ l0.getD (i + 1) 0 := by
    intro k hk i hi
    have := (List.getElem?_eq_some_iff.1 (hpos k hk)).1
    rw [List.getD_eq_getElem?_getD, List.getD_eq_getElem?_getD, List.getElem?_eq_getElem (by omega), List.getElem?_eq_getElem (by omega)]
    exact (List.pairwise_iff_getElem.1 hpw i (i + 1) (by omega) (by omega) (by omega)).le
  have hpay : ∀ s, payout (if put then .put else .call) s K = some (optionPayoff put K s) := by
    intro s; cases put <;> rfl
  have hprice := fun k : Fin product.length => C97_bs b (fun i => l0.getD i 0) (l0.length - 1) (pos k.1 k.2) (hposlt k.1 k.2) (hmono k.1 k.2) hline0 hs
    (if put then .put else .call) K (optionPayoff put K) hpay (by rw [hlinek]; exact hr _ (List.getElem_mem _))
  have hprices : ∀ k : Fin product.length, ∃ x, blackOpt (b.spot * Real.exp ((b.rate - b.div) * product[k])) (b.vol * Real.sqrt product[k]) K (if put then .put else .call) = some x ∧
      gaussMean (l0.length - 1) (fun gauss => optionPayoff put K (Real.exp (b.logAt (fun i => l0.getD i 0) gauss (pos k.1 k.2))) / Real.exp (b.rate * product[k])) =
        Real.exp (-b.rate * product[k]) * x := by
    intro k
    have h := hprice k
    rw [hlinek] at h
    rw [Option.map_eq_some_iff] at h
    obtain ⟨x, hx1, hx2⟩ := h
    exact ⟨x, hx1, hx2.symm⟩
  choose prices hx1 hx2 using hprices
  refine ⟨_, l0, flags, _, _, _, 0, prices, option_parsed put v K h1 h2 h3, option_indexed put cval K product.length (List.length_pos_of_ne_nil hne), rfl, ha, hpaths, hx1, ?_⟩
  have hcv : constants ⟨[(['o', 'p', 't'], 0)], [(['K'], (0, K))]⟩ 0 = K := rfl
  have hsum : ∀ gauss : Nat → ℝ, Script.evaluate realOps (constants ⟨[(['o', 'p', 't'], 0)], [(['K'], (0, K))]⟩) ((List.replicate product.length (optionTree put 0 0 K)).zip
      ((List.ofFn fun k : Fin product.length =>
        (⟨Real.exp (b.logAt (fun i => l0.getD i 0) gauss (pos k.1 k.2)), Real.exp (b.rate * product[k]), [1], [[1]]⟩ : Models.Sample ℝ)).map Models.Sample.toScript)) (fun _ => 0) 0 =
      ∑ k : Fin product.length, optionPayoff put K (Real.exp (b.logAt (fun i => l0.getD i 0) gauss (pos k.1 k.2))) / Real.exp (b.rate * product[k]) := by
    intro gauss
    have h := option_run put K _ hcv (List.ofFn fun k : Fin product.length =>
        (⟨Real.exp (b.logAt (fun i => l0.getD i 0) gauss (pos k.1 k.2)), Real.exp (b.rate * product[k]), [1], [[1]]⟩ : Models.Sample ℝ)) (fun _ => 0)
    rw [List.length_ofFn] at h
    rw [h, List.map_ofFn, List.sum_ofFn, zero_add]
    rfl
  simp only [hsum]
  rw [gaussMean, integral_finset_sum]
  · exact Finset.sum_congr rfl fun k _ => hx2 k
  · intro k _
    exact (bs_integrable b (fun i => l0.getD i 0) (l0.length - 1) (pos k.1 k.2) (hposlt k.1 k.2) (hmono k.1 k.2) hs (optionPayoff put K)
      (payoff_measurable _ K _ hpay) (lognormal_payoff_integrable _ K _ hpay)).div_const _

private theorem regular_one (t : ℝ) (h : 1 ≤ t) : Regular (100 * Real.exp ((0.03 - 0.01) * t)) (0.2 * Real.sqrt t) 110 := by
  have h1 := Real.one_le_exp (show (0 : ℝ) ≤ (0.03 - 0.01) * t by nlinarith)
  have h2 : (1 : ℝ) ≤ Real.sqrt t := by rw [Real.le_sqrt (by norm_num) (by linarith)]; linarith
  refine Or.inl ⟨by norm_num, ?_, ?_⟩
  · exact (show epsilon ≤ 0.2 * 1 by norm_num [epsilon]).trans (mul_le_mul_of_nonneg_left h2 (by norm_num))
  · rw [epsilon]; nlinarith

/-- Puts struck at 110 today, in one year and in two. -/
example : ∃ (line : List ℝ) (flags : List Bool) (prices : Fin 3 → ℝ), bsAllocate [(0 : ℝ), 1, 2] = some (line, flags) ∧
    ∀ k, blackOpt (100 * Real.exp ((0.03 - 0.01) * ([0, 1, 2] : List ℝ).get k)) (0.2 * Real.sqrt (([0, 1, 2] : List ℝ).get k)) 110 .put = some (prices k) := by
  obtain ⟨_, line, flags, _, _, _, _, prices, _, _, _, h1, _, h2, _⟩ := C97_script true (⟨100, 0.03, 0.01, 0.2⟩ : BS ℝ) [0, 1, 2] (by simp) (by simp) (by simp) (by norm_num) 110
    ⟨fun _ => some 0, fun s => if s = ['K'] then some 110 else none, fun _ _ => some none, -1, 0⟩ rfl rfl rfl (fun _ => 0) (by
      intro t ht
      simp only [List.mem_cons, List.not_mem_nil, or_false] at ht
      rcases ht with rfl | rfl | rfl
      · exact Or.inr (Or.inr (by simp))
      · exact regular_one 1 le_rfl
      · exact regular_one 2 (by norm_num))
  exact ⟨line, flags, prices, h1, h2⟩

end Dal
