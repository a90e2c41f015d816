import Verif.Numeric.ImpliedModel
import Verif.Numeric.BrentProps
import Verif.Numeric.OptionProps
import Mathlib.Analysis.Calculus.MeanValue
import Mathlib.Analysis.Calculus.Deriv.MeanValue

/-!
# Lemmas on implied volatilities
-/

namespace Dal.Implied

open Real Dal.Numeric Dal.Brent Dal.Strings
open Set (uIcc)

/-! ### The search -/

theorem mem_of {x a b : ℝ} (h : x = a ∨ x = b) : x ∈ uIcc a b := by
  rcases h with rfl | rfl
  exacts [Set.left_mem_uIcc, Set.right_mem_uIcc]

/-- A step of the hunt keeps its bracket, once there is one, around the place asked for. -/
theorem step_inside {f : ℝ → ℝ} {h h1 g : Hunt ℝ} {e x : ℝ} (hh : Hunts f h) (hx : h.nextX = some (x, h1)) (hg : h1.putY e (f x) = some g) :
    Hunts f g ∧ (g.phase = .bracketed → x ∈ interval g.engine) := by
  have hs : h.step e f = some g := by unfold Hunt.step; rw [hx, Option.bind_some]; exact hg
  refine ⟨(hunt_step hh hs).1, fun hp => ?_⟩
  obtain ⟨ph, inc, ss, tx, kn, en⟩ := h
  unfold Hunt.nextX at hx
  cases ph with
  | start =>
    rw [if_neg (fun h => by cases h)] at hx
    cases hx
    cases hg
    cases hp
  | bracketed =>
    rw [if_pos rfl] at hx
    obtain ⟨⟨y, s'⟩, hn, he⟩ := Option.map_eq_some_iff.1 hx
    cases he
    cases hg
    obtain ⟨_, _, _, h4, _⟩ := C51_step (hh.bracket rfl) hn
    exact mem_of h4
  | hunt =>
    rw [if_neg (fun h => by cases h)] at hx
    cases hx
    have hk := hh.known (fun h => by cases h)
    dsimp only at hk hg
    unfold Hunt.putY at hg
    dsimp only at hg
    split at hg
    · rename_i hy
      obtain ⟨en', hen, rfl⟩ := Option.map_eq_some_iff.1 hg
      rw [show kn = (kn.1, f kn.1) from Prod.ext rfl hk] at hen
      rw [hk, mul_comm] at hy
      obtain ⟨s, h1, _, h3⟩ := (C51_start f en.tol en.d kn.1 tx).1 hy
      rw [hen] at h1
      cases h1
      dsimp only
      rw [h3]
      exact Set.right_mem_uIcc
    · split at hg <;> · cases hg; cases hp

/-- What a finished search found. -/
theorem search_found {P : ℝ → ℝ} {price : ℝ → Option ℝ} (hP : ∀ w, 0 < w → price w = some (P w)) (target xTol fTol : ℝ) : ∀ (n : Nat) (h : Hunt ℝ) (v : ℝ),
    Hunts (fun x => P (exp x) - target) h → search price target xTol fTol n h = some v →
    0 < v ∧ (|P v - target| < fTol ∨ ∃ lo hi, 0 < lo ∧ lo ≤ v ∧ v ≤ hi ∧ hi < lo * exp xTol ∧ (P lo - target) * (P hi - target) ≤ 0)
  | 0, _, _, _, hs => by cases hs
  | n + 1, h, v, hh, hs => by
    unfold search at hs
    obtain ⟨⟨x, h1⟩, hx, hs⟩ := Option.bind_eq_some_iff.1 hs
    dsimp only at hs
    rw [hP _ (exp_pos x), Option.bind_some] at hs
    obtain ⟨⟨g, ok⟩, hq, hs⟩ := Option.bind_eq_some_iff.1 hs
    unfold converged at hq
    obtain ⟨g', hg, he⟩ := Option.map_eq_some_iff.1 hq
    obtain ⟨rfl, hok⟩ := Prod.mk.inj he
    obtain ⟨hh', hin⟩ := step_inside hh hx hg
    dsimp only at hs
    cases ok with
    | true =>
      rw [if_pos rfl] at hs
      cases hs
      refine ⟨exp_pos x, ?_⟩
      rw [Bool.or_eq_true] at hok
      rcases hok with hok | hok
      · exact Or.inl (of_decide_eq_true hok)
      · right
        unfold Hunt.width at hok
        by_cases hp : g'.phase = .bracketed
        · rw [if_pos hp] at hok
          have hw : |g'.engine.a.1 - g'.engine.b.1| < xTol := of_decide_eq_true hok
          have hb := hh'.bracket hp
          have hxi := hin hp
          unfold interval at hxi
          obtain ⟨hw1, hw2⟩ := abs_lt.1 hw
          rcases Set.mem_uIcc.1 hxi with ⟨h1, h2⟩ | ⟨h1, h2⟩
          · refine ⟨exp g'.engine.a.1, exp g'.engine.b.1, exp_pos _, exp_le_exp.2 h1, exp_le_exp.2 h2, ?_, hb.signs⟩
            rw [← exp_add]
            exact exp_lt_exp.2 (by linarith)
          · refine ⟨exp g'.engine.b.1, exp g'.engine.a.1, exp_pos _, exp_le_exp.2 h1, exp_le_exp.2 h2, ?_, by rw [mul_comm]; exact hb.signs⟩
            rw [← exp_add]
            exact exp_lt_exp.2 (by linarith)
        · rw [if_neg hp] at hok; cases hok
    | false =>
      rw [if_neg (by decide)] at hs
      exact search_found hP target xTol fTol n g' v hh' hs

theorem hunts_new (f : ℝ → ℝ) (guess tol ss : ℝ) : Hunts f (newHunt guess tol ss) := ⟨fun h => absurd rfl h, fun h => by cases h⟩

/-- Where every price is below the target, by the tolerance, nothing is found. -/
theorem search_never {P : ℝ → ℝ} {price : ℝ → Option ℝ} (hP : ∀ w, 0 < w → price w = some (P w)) (target xTol fTol : ℝ) (ht : 0 < fTol)
    (hlow : ∀ w, 0 < w → P w + fTol ≤ target) : ∀ (n : Nat) (h : Hunt ℝ), h.phase ≠ .bracketed → (h.phase = .hunt → h.known.2 < 0) →
    search price target xTol fTol n h = none
  | 0, _, _, _ => rfl
  | n + 1, h, hb, hk => by
    unfold search
    unfold Hunt.nextX
    rw [if_neg hb, Option.bind_some]
    dsimp only
    rw [hP _ (exp_pos _), Option.bind_some]
    have hy : P (exp h.trialX) - target ≤ -fTol := by linarith [hlow _ (exp_pos h.trialX)]
    generalize P (exp h.trialX) - target = y at hy
    have habs : ¬ |y| < fTol := by rw [abs_of_nonpos (by linarith)]; linarith
    unfold converged Hunt.putY
    obtain ⟨ph, inc, ss, tx, kn, en⟩ := h
    cases ph with
    | start =>
      dsimp only
      rw [Option.map_some, Option.bind_some, decide_eq_false habs]
      exact search_never hP target xTol fTol ht hlow n _ (fun h => by cases h) (fun _ => by dsimp only; linarith)
    | bracketed => exact absurd rfl hb
    | hunt =>
      have hk := hk rfl
      dsimp only at hk ⊢
      have : 0 < y * kn.2 := mul_pos_of_neg_of_neg (by linarith) hk
      rw [if_neg (not_le.2 this), Option.map_some, Option.bind_some, decide_eq_false habs]
      by_cases hc : |y| > |kn.2|
      · rw [if_pos hc]
        exact search_never hP target xTol fTol ht hlow n _ (fun h => by cases h) (fun _ => hk)
      · rw [if_neg hc]
        exact search_never hP target xTol fTol ht hlow n _ (fun h => by cases h) (fun _ => by dsimp only; linarith)

/-- A first place that prices the target is taken. -/
theorem search_first {P : ℝ → ℝ} {price : ℝ → Option ℝ} (hP : ∀ w, 0 < w → price w = some (P w)) (target xTol fTol : ℝ) (n : Nat) (guess tol ss : ℝ)
    (h : |P (exp guess) - target| < fTol) : search price target xTol fTol (n + 1) (newHunt guess tol ss) = some (exp guess) := by
  unfold search
  unfold Hunt.nextX newHunt
  rw [if_neg (fun h => by cases h), Option.bind_some]
  dsimp only
  rw [hP _ (exp_pos _), Option.bind_some]
  unfold converged Hunt.putY
  dsimp only
  rw [Option.map_some, Option.bind_some, decide_eq_true h]
  rfl

/-! ### Prices and volatilities -/

theorem eps_pos : 0 < epsilon := by unfold epsilon; norm_num

/-- The call of Black's formula. -/
noncomputable def callF (f k v : ℝ) : ℝ := f * ncdf (dMinus f v k + v) - k * ncdf (dMinus f v k)

theorem callF_deriv {f k v : ℝ} (hf : 0 < f) (hk : 0 < k) (hv : 0 < v) : HasDerivAt (callF f k) (f * density (dMinus f v k + v)) v := by
  obtain ⟨a, ha⟩ : ∃ a, HasDerivAt (fun v => dMinus f v k) a v := by
    unfold dMinus
    exact ⟨_, ((hasDerivAt_const v (log (f / k))).div (hasDerivAt_id v) hv.ne').sub ((hasDerivAt_id v).const_mul (1 / 2 : ℝ))⟩
  have h0 : HasDerivAt (fun v => dMinus f v k + v) (a + 1) v := ha.add (hasDerivAt_id v)
  have h1 := (Numeric.ncdf_deriv (dMinus f v k + v)).comp (h₂ := ncdf) (h := fun v => dMinus f v k + v) v h0
  have h2 := (Numeric.ncdf_deriv (dMinus f v k)).comp v ha
  refine ((h1.const_mul f).sub (h2.const_mul k)).congr_deriv ?_
  have : k * (density (dMinus f v k) * a) = f * (density (dMinus f v k + v) * a) := by
    rw [← mul_assoc, ← black_key hf hk hv, mul_assoc]
  rw [this]; ring

theorem callF_strict {f k : ℝ} (hf : 0 < f) (hk : 0 < k) : StrictMonoOn (callF f k) (Set.Ioi 0) := by
  refine strictMonoOn_of_deriv_pos (convex_Ioi 0) (fun v hv => (callF_deriv hf hk hv).continuousAt.continuousWithinAt) fun v hv => ?_
  rw [interior_Ioi] at hv
  rw [(callF_deriv hf hk hv).deriv]
  exact mul_pos hf (Numeric.density_pos _)

/-- A type, of what the price is as a function of the call, the forward and the strike. -/
theorem black_call {f k v : ℝ} (hv : epsilon ≤ v) (hfk : epsilon ≤ f * k) : blackOpt f v k .call = some (callF f k v) := by
  unfold blackOpt
  rw [if_neg (by rintro (h | h); exacts [not_lt.2 hv h.1, h hfk])]
  rfl

theorem callF_payout {f k v : ℝ} (hf : 0 < f) (hk : 0 < k) (hv : 0 < v) : max 0 (f - k) < callF f k v := by
  have h := call_bounds hf hk (half_pos hv)
  have h2 := callF_strict hf hk (half_pos hv) hv (half_lt_self hv)
  exact lt_of_le_of_lt (max_le h.1 h.2) h2

theorem call_lt {f k v w : ℝ} (hf : 0 < f) (hk : 0 < k) (hfk : epsilon ≤ f * k) (hv : epsilon ≤ v) (hw : 0 < w) (hwv : w < v) (c d : ℝ)
    (hc : blackOpt f w k .call = some c) (hd : blackOpt f v k .call = some d) : c < d := by
  rw [black_call hv hfk] at hd
  cases hd
  by_cases h : epsilon ≤ w
  · rw [black_call h hfk] at hc
    cases hc
    exact callF_strict hf hk hw (lt_of_lt_of_le eps_pos hv) hwv
  · unfold blackOpt at hc
    rw [if_pos (Or.inl ⟨not_le.1 h, by linarith [eps_pos]⟩)] at hc
    cases hc
    exact callF_payout hf hk (lt_of_lt_of_le eps_pos hv)

/-- Prices rise with the volatility. -/
theorem black_lt {type : OptionType} {f k v w : ℝ} (hf : 0 < f) (hk : 0 < k) (hfk : epsilon ≤ f * k) (hv : epsilon ≤ v) (hw : 0 < w) (hwv : w < v) (c d : ℝ)
    (hc : blackOpt f w k type = some c) (hd : blackOpt f v k type = some d) : c < d := by
  obtain ⟨c1, p1, s1, h1, h2, h3, h4, h5, _⟩ := C59_black f w k
  obtain ⟨c2, p2, s2, g1, g2, g3, g4, g5, _⟩ := C59_black f v k
  have := call_lt hf hk hfk hv hw hwv _ _ h1 g1
  cases type with
  | notSet => unfold blackOpt at hc; split at hc <;> cases hc
  | call => exact call_lt hf hk hfk hv hw hwv _ _ hc hd
  | put => rw [h2] at hc; rw [g2] at hd; cases hc; cases hd; linarith
  | straddle => rw [h3] at hc; rw [g3] at hd; cases hc; cases hd; linarith

theorem black_le {type : OptionType} {f k v w : ℝ} (hf : 0 < f) (hk : 0 < k) (hw : 0 < w) (hwv : w ≤ v) (c d : ℝ)
    (hc : blackOpt f w k type = some c) (hd : blackOpt f v k type = some d) : c ≤ d := by
  by_cases h : epsilon ≤ v ∧ epsilon ≤ f * k
  · rcases hwv.eq_or_lt with rfl | hlt
    · rw [hc] at hd; cases hd; exact le_rfl
    · exact (black_lt hf hk h.2 h.1 hw hlt c d hc hd).le
  · unfold blackOpt at hc hd
    have hor : (w < epsilon ∧ v < epsilon) ∨ ¬ epsilon ≤ f * k := by
      by_cases h1 : epsilon ≤ f * k
      · left
        have : ¬ epsilon ≤ v := fun h2 => h ⟨h2, h1⟩
        exact ⟨by linarith [not_le.1 this], not_le.1 this⟩
      · exact Or.inr h1
    rcases hor with ⟨a, b⟩ | a
    · rw [if_pos (Or.inl ⟨a, by linarith [eps_pos]⟩)] at hc
      rw [if_pos (Or.inl ⟨b, by linarith [eps_pos]⟩)] at hd
      rw [hc] at hd; cases hd; exact le_rfl
    · rw [if_pos (Or.inr (show ¬ IsPositive (f * k) from a))] at hc hd
      rw [hc] at hd; cases hd; exact le_rfl

theorem black_payout {type : OptionType} {f k v : ℝ} (hf : 0 < f) (hk : 0 < k) (hv : 0 < v) (p c : ℝ) (hp : payout type f k = some p)
    (hc : blackOpt f v k type = some c) : p ≤ c := by
  have hw : 0 < min v (epsilon / 2) := lt_min hv (half_pos eps_pos)
  refine black_le hf hk hw (min_le_left _ _) _ _ ?_ hc
  unfold blackOpt
  rw [if_pos (Or.inl ⟨lt_of_le_of_lt (min_le_right _ _) (half_lt_self eps_pos), by linarith [eps_pos]⟩)]
  exact hp

end Dal.Implied
