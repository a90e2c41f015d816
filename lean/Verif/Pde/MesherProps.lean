import Verif.Pde.FdLemmas
import Verif.Interp.LinearProps
import Mathlib.Algebra.Order.Floor.Ring

/-!
# C60: the grids

Both meshers give strictly increasing grids with the right spacings, from the start to the end; the concentrating one contains its concentration point
when asked to.
-/

namespace Dal
open Dal.Tri Dal.Fd

section
variable {K : Type} [Field K] [LinearOrder K] [IsStrictOrderedRing K]

private theorem uniformLoop_spec (start dx : K) (m : Mesh K) : ∀ k, (uniformLoop start dx k m).n = m.n ∧
    ∀ i, i < k → (uniformLoop start dx k m).loc i = start + i * dx ∧ (uniformLoop start dx k m).dplus i = dx ∧ (uniformLoop start dx k m).dminus (i + 1) = dx
  | 0 => ⟨rfl, fun i hi => absurd hi (by omega)⟩
  | k + 1 => by
    obtain ⟨h1, h2⟩ := uniformLoop_spec start dx m k
    refine ⟨h1, fun i hi => ?_⟩
    rw [uniformLoop]
    dsimp only
    by_cases e : i = k
    · subst e
      exact ⟨upd_self _ _ _, upd_self _ _ _, upd_self _ _ _⟩
    · rw [upd_ne _ _ e, upd_ne _ _ e, upd_ne _ _ (show i + 1 ≠ k + 1 by omega)]
      exact h2 i (by omega)

/-- C60: the uniform grid of at least two points between two ends in order runs from one to the other in equal steps, increasing strictly, with the
spacings that the operators use. -/
theorem C60_uniform_grid (null start stop : K) (size : Nat) (h : start < stop) (hn : 2 ≤ size) : ∃ m, uniform null start stop size = some m ∧ m.n = size ∧
    Grid m ∧ m.loc 0 = start ∧ m.loc (size - 1) = stop ∧ ∀ i, i + 1 < size → m.loc (i + 1) - m.loc i = (stop - start) / (size - 1) := by
  rw [uniform, if_pos ⟨h, by omega⟩]
  obtain ⟨d, hd⟩ : ∃ d, d = (stop - start) / ((size : K) - 1) := ⟨_, rfl⟩
  rw [← hd]
  have hs : (0 : K) < (size : K) - 1 := by
    have : (2 : K) ≤ (size : K) := by exact_mod_cast hn
    linarith
  have hdp : 0 < d := by rw [hd]; exact div_pos (by linarith) hs
  obtain ⟨e1, e2⟩ := uniformLoop_spec start d (blank size) (size - 1)
  have hend : start + ((size - 1 : Nat) : K) * d = stop := by
    rw [Nat.cast_sub (by omega), Nat.cast_one, hd, mul_div_cancel₀ _ hs.ne']
    ring
  refine ⟨_, rfl, e1, ?_⟩
  generalize hu : uniformLoop start d (size - 1) (blank size) = u at *
  replace e1 : u.n = size := e1
  have hloc : ∀ i, i < size → (close null stop u).loc i = start + i * d := by
    intro i hi
    show upd u.loc (u.n - 1) stop i = _
    by_cases e : i = size - 1
    · rw [e, e1, upd_self, hend]
    · rw [upd_ne _ _ (by omega), (e2 i (by omega)).1]
  have hstep : ∀ i, i + 1 < size → (close null stop u).loc (i + 1) - (close null stop u).loc i = d := by
    intro i hi
    rw [hloc i (by omega), hloc (i + 1) hi]
    push_cast
    ring
  refine ⟨⟨fun i hi => ?_, fun i hi => ?_, fun i hi => ?_⟩, ?_, ?_, hstep⟩
  · have := hstep i (by rw [← e1]; exact hi)
    linarith
  · have hi' : i + 1 < size := by rw [← e1]; exact hi
    rw [hstep i hi']
    show upd u.dplus (u.n - 1) null i = d
    rw [upd_ne _ _ (by omega), (e2 i (by omega)).2.1]
  · have hi' : i + 1 < size := by rw [← e1]; exact hi
    rw [hstep i hi']
    show upd u.dminus 0 null (i + 1) = d
    rw [upd_ne _ _ (by omega), (e2 i (by omega)).2.2]
  · rw [hloc 0 (by omega)]
    simp
  · rw [hloc (size - 1) (by omega), hend]

/-- C60: ends out of order are refused. -/
theorem C60_uniform_refuses (null start stop : K) (size : Nat) (h : stop ≤ start) : uniform null start stop size = none := by
  rw [uniform, if_neg (fun hc => absurd hc.1 (not_lt.2 h))]

end

private theorem interior_spec (li : ℝ → Option ℝ) (lv : Nat → ℝ) (c dens c1 c2 dx : ℝ) (m : Mesh ℝ) : ∀ k, (∀ i, 1 ≤ i → i ≤ k → li ((i : Nat) * dx) = some (lv i)) →
    ∃ m', interiorPts li c dens c1 c2 dx k m = some m' ∧ m'.n = m.n ∧ m'.dplus = m.dplus ∧ m'.dminus = m.dminus ∧
      ∀ i, 1 ≤ i → i ≤ k → m'.loc i = c + dens * Real.sinh (c1 * (1 - lv i) + c2 * lv i)
  | 0, _ => ⟨m, rfl, rfl, rfl, rfl, fun i h1 h2 => absurd h2 (by omega)⟩
  | k + 1, h => by
    obtain ⟨m', e, h1, h2, h3, h4⟩ := interior_spec li lv c dens c1 c2 dx m k fun i a b => h i a (by omega)
    rw [interiorPts, e, Option.bind_some, h (k + 1) (by omega) le_rfl, Option.bind_some]
    refine ⟨_, rfl, h1, h2, h3, fun i a b => ?_⟩
    dsimp only
    by_cases e : i = k + 1
    · subst e; exact upd_self _ _ _
    · rw [upd_ne _ _ e, h4 i a (by omega)]

private theorem spacings_spec {K : Type} [Field K] [LinearOrder K] [IsStrictOrderedRing K] (m : Mesh K) : ∀ k, (spacings k m).n = m.n ∧
    (spacings k m).loc = m.loc ∧ ∀ i, i < k → (spacings k m).dplus i = m.loc (i + 1) - m.loc i ∧ (spacings k m).dminus (i + 1) = m.loc (i + 1) - m.loc i
  | 0 => ⟨rfl, rfl, fun i hi => absurd hi (by omega)⟩
  | k + 1 => by
    obtain ⟨h1, h2, h3⟩ := spacings_spec m k
    refine ⟨h1, h2, fun i hi => ?_⟩
    rw [spacings]
    dsimp only
    rw [h2]
    by_cases e : i = k
    · subst e
      exact ⟨upd_self _ _ _, upd_self _ _ _⟩
    · rw [upd_ne _ _ e, upd_ne _ _ (show i + 1 ≠ k + 1 by omega)]
      exact h3 i (by omega)

private theorem clamp_nat {size : Nat} (hn : 3 ≤ size) (r : Int) : ∃ k : Nat, 1 ≤ k ∧ k + 2 ≤ size ∧ max (min r ((size : Int) - 2)) 1 = (k : Int) := by
  refine ⟨(max (min r ((size : Int) - 2)) 1).toNat, ?_, ?_, ?_⟩ <;> omega

/-- The values of the transformation at the grid. -/
private theorem transform_grid {eps : ℝ} (heps : 0 < eps) {size : Nat} (hn : 2 ≤ size) (hsmall : eps ≤ 1 / ((size : ℝ) - 1)) {z0 : ℝ} (inner : Bool)
    (hz : inner = true → 0 < z0 ∧ z0 < 1) : ∃ (t : Interp.Linear ℝ) (lv : Nat → ℝ),
      Interp.newLinear (nodes size z0 inner).1 (nodes size z0 inner).1 (nodes size z0 inner).2.1 (nodes size z0 inner).2.2 = some t ∧
      lv 0 = 0 ∧ lv (size - 1) = 1 ∧ (∀ i, i + 1 < size → lv i < lv (i + 1)) ∧
      (∀ i : Nat, 1 ≤ i → i ≤ size - 2 → t.eval eps ((i : ℝ) * (1 / ((size : ℝ) - 1))) = some (lv i)) ∧
      (inner = true → 3 ≤ size → ∃ i, 1 ≤ i ∧ i ≤ size - 2 ∧ lv i = z0) := by
  obtain ⟨dx, hdx⟩ : ∃ dx, dx = 1 / ((size : ℝ) - 1) := ⟨_, rfl⟩
  rw [← hdx] at hsmall ⊢
  have hs : (0 : ℝ) < (size : ℝ) - 1 := by
    have : (2 : ℝ) ≤ (size : ℝ) := by exact_mod_cast hn
    linarith
  have hdp : 0 < dx := by rw [hdx]; exact div_pos one_pos hs
  have hdm : ((size : ℝ) - 1) * dx = 1 := by rw [hdx, mul_div_cancel₀ _ hs.ne']
  have hlast : ((size - 1 : Nat) : ℝ) = (size : ℝ) - 1 := by rw [Nat.cast_sub (by omega), Nat.cast_one]
  -- a point of the grid lies at least one step below a later one
  have gap : ∀ i k : Nat, i < k → eps ≤ (k : ℝ) * dx - (i : ℝ) * dx := by
    intro i k hik
    have : (i : ℝ) + 1 ≤ (k : ℝ) := by exact_mod_cast hik
    nlinarith
  cases inner with
  | false =>
    have hacc : Interp.newLinear 2 2 (nodes size z0 false).2.1 (nodes size z0 false).2.2 = some ⟨2, (nodes size z0 false).2.1, (nodes size z0 false).2.2⟩ := by
      rcases C48_accepted 2 2 (nodes size z0 false).2.1 (nodes size z0 false).2.2 with h | ⟨_, h⟩
      · exact h.1
      · refine absurd ⟨rfl, fun i j hij hj => ?_⟩ h
        have : (i = 0 ∧ j = 0) ∨ (i = 0 ∧ j = 1) ∨ (i = 1 ∧ j = 1) := by omega
        rcases this with ⟨rfl, rfl⟩ | ⟨rfl, rfl⟩ | ⟨rfl, rfl⟩ <;> simp [nodes]
    refine ⟨_, fun i => (i : ℝ) * dx, hacc, by simp, by beta_reduce; rw [hlast, hdm], fun i _ => by push_cast; nlinarith, fun i h1 h2 => ?_, fun h => by simp at h⟩
    have hx : (i : ℝ) * dx ≤ 1 ∧ 0 < (i : ℝ) * dx := by
      have a : (1 : ℝ) ≤ (i : ℝ) := by exact_mod_cast h1
      have b : (i : ℝ) ≤ (size : ℝ) - 1 := by rw [← hlast]; exact_mod_cast (by omega : i ≤ size - 1)
      constructor
      · calc (i : ℝ) * dx ≤ ((size : ℝ) - 1) * dx := mul_le_mul_of_nonneg_right b hdp.le
          _ = 1 := hdm
      · nlinarith
    obtain ⟨v, e, hv⟩ := C48_line (eps := eps) hacc 0 (by omega) ((i : ℝ) * dx) (by simpa [nodes] using hx.2) (by simpa [nodes] using hx.1)
    rw [e]
    rcases hv with hv | hv
    · simp [nodes] at hv
      rw [hv]
    · have := gap i (size - 1) (by omega)
      rw [hlast, hdm] at this
      simp [nodes] at hv
      linarith
  | true =>
    obtain ⟨hz0, hz1⟩ := hz rfl
    by_cases h2 : size = 2
    · subst h2
      have hacc : Interp.newLinear 3 3 (nodes 2 z0 true).2.1 (nodes 2 z0 true).2.2 = some ⟨3, (nodes 2 z0 true).2.1, (nodes 2 z0 true).2.2⟩ := by
        have hm : ((max (min (lround (z0 * ((2 : Nat) - 1 : ℝ))) (((2 : Nat) : Int) - 2)) 1 : Int) : ℝ) / (((2 : Nat) : ℝ) - 1) = 1 := by
          have : max (min (lround (z0 * ((2 : Nat) - 1 : ℝ))) (((2 : Nat) : Int) - 2)) 1 = 1 := by omega
          rw [this]
          norm_num
        rcases C48_accepted 3 3 (nodes 2 z0 true).2.1 (nodes 2 z0 true).2.2 with h | ⟨_, h⟩
        · exact h.1
        · refine absurd ⟨rfl, fun i j hij hj => ?_⟩ h
          have : (i = 0 ∧ j = 0) ∨ (i = 0 ∧ j = 1) ∨ (i = 0 ∧ j = 2) ∨ (i = 1 ∧ j = 1) ∨ (i = 1 ∧ j = 2) ∨ (i = 2 ∧ j = 2) := by omega
          unfold nodes
          rw [hm]
          rcases this with ⟨rfl, rfl⟩ | ⟨rfl, rfl⟩ | ⟨rfl, rfl⟩ | ⟨rfl, rfl⟩ | ⟨rfl, rfl⟩ | ⟨rfl, rfl⟩ <;> simp
      refine ⟨_, fun i => (i : ℝ), hacc, by simp, by simp, fun i _ => by push_cast; linarith, fun i h1 h2 => absurd h2 (by omega), fun _ h => absurd h (by omega)⟩
    · obtain ⟨k, hk1, hk2, hk⟩ := clamp_nat (size := size) (by omega) (lround (z0 * ((size : ℝ) - 1)))
      have hu : ((max (min (lround (z0 * ((size : ℝ) - 1))) ((size : Int) - 2)) 1 : Int) : ℝ) / ((size : ℝ) - 1) = (k : ℝ) * dx := by
        rw [hk, hdx, Int.cast_natCast, mul_one_div]
      have hx : (nodes size z0 true).2.1 = fun i => if i = 0 then 0 else if i = 1 then (k : ℝ) * dx else 1 := by
        unfold nodes
        rw [if_pos rfl]
        dsimp only
        rw [hu]
      have hf : (nodes size z0 true).2.2 = fun i => if i = 0 then 0 else if i = 1 then z0 else 1 := rfl
      have hn3 : (nodes size z0 true).1 = 3 := rfl
      rw [hx, hf, hn3]
      have hkr : (1 : ℝ) ≤ (k : ℝ) := by exact_mod_cast hk1
      have hks : (k : ℝ) + 1 ≤ (size : ℝ) - 1 := by rw [← hlast]; exact_mod_cast (by omega : k + 1 ≤ size - 1)
      have hk0 : 0 < (k : ℝ) * dx := by positivity
      have hk9 : (k : ℝ) * dx < 1 := by nlinarith
      have hacc : Interp.newLinear 3 3 (fun i => if i = 0 then (0 : ℝ) else if i = 1 then (k : ℝ) * dx else 1) (fun i => if i = 0 then (0 : ℝ) else if i = 1 then z0 else 1) =
          some ⟨3, fun i => if i = 0 then 0 else if i = 1 then (k : ℝ) * dx else 1, fun i => if i = 0 then 0 else if i = 1 then z0 else 1⟩ := by
        rcases C48_accepted 3 3 (fun i => if i = 0 then (0 : ℝ) else if i = 1 then (k : ℝ) * dx else 1) (fun i => if i = 0 then (0 : ℝ) else if i = 1 then z0 else 1) with h | ⟨_, h⟩
        · exact h.1
        · refine absurd ⟨rfl, fun i j hij hj => ?_⟩ h
          have : (i = 0 ∧ j = 0) ∨ (i = 0 ∧ j = 1) ∨ (i = 0 ∧ j = 2) ∨ (i = 1 ∧ j = 1) ∨ (i = 1 ∧ j = 2) ∨ (i = 2 ∧ j = 2) := by omega
          rcases this with ⟨rfl, rfl⟩ | ⟨rfl, rfl⟩ | ⟨rfl, rfl⟩ | ⟨rfl, rfl⟩ | ⟨rfl, rfl⟩ | ⟨rfl, rfl⟩ <;> simp [hk0.le, hk9.le]
      obtain ⟨a, ha⟩ : ∃ a, a = z0 / (k : ℝ) := ⟨_, rfl⟩
      obtain ⟨b, hb⟩ : ∃ b, b = (1 - z0) / ((size : ℝ) - 1 - k) := ⟨_, rfl⟩
      have hap : 0 < a := by rw [ha]; positivity
      have hbp : 0 < b := by rw [hb]; exact div_pos (by linarith) (by linarith)
      have hak : (k : ℝ) * a = z0 := by rw [ha, mul_div_cancel₀ _ (by linarith : (0 : ℝ) < k).ne']
      have hbk : ((size : ℝ) - 1 - k) * b = 1 - z0 := by rw [hb, mul_div_cancel₀ _ (by linarith : (0 : ℝ) < (size : ℝ) - 1 - k).ne']
      refine ⟨_, fun i => if i ≤ k then (i : ℝ) * a else z0 + ((i : ℝ) - k) * b, hacc, by simp, ?_, fun i hi => ?_, fun i h1 h2 => ?_,
        fun _ _ => ⟨k, hk1, by omega, ?_⟩⟩
      · beta_reduce
        rw [if_neg (by omega), hlast, hbk]
        ring
      · beta_reduce
        by_cases h : i + 1 ≤ k
        · rw [if_pos (by omega), if_pos h]
          push_cast
          nlinarith
        · by_cases h' : i ≤ k
          · have : i = k := by omega
            subst this
            rw [if_pos le_rfl, if_neg h, hak]
            push_cast
            nlinarith
          · rw [if_neg h', if_neg h]
            push_cast
            nlinarith
      · beta_reduce
        have hi0 : (1 : ℝ) ≤ (i : ℝ) := by exact_mod_cast h1
        rcases lt_trichotomy i k with hik | hik | hik
        · rw [if_pos hik.le]
          have hg := gap i k hik
          obtain ⟨v, e, hv⟩ := C48_line (eps := eps) hacc 0 (by omega) ((i : ℝ) * dx) (by simp; positivity) (by simp; linarith)
          rw [e]
          rcases hv with hv | hv
          · simp only [Nat.zero_add, if_true, one_ne_zero, if_false, sub_zero] at hv
            congr 1
            have : v * (k : ℝ) = (i : ℝ) * z0 := by
              have h' : (v * (k : ℝ) - (i : ℝ) * z0) * dx = 0 := by linear_combination hv
              rcases mul_eq_zero.1 h' with h' | h'
              · linarith
              · exact absurd h' hdp.ne'
            rw [← hak] at this
            have h'' : (v - (i : ℝ) * a) * (k : ℝ) = 0 := by linear_combination this
            rcases mul_eq_zero.1 h'' with h'' | h''
            · linarith
            · linarith
          · simp at hv
            linarith
        · subst hik
          rw [if_pos le_rfl, hak]
          have := C48_nodes heps hacc 1 (by omega) fun j hj => by
            have : j = 0 := by omega
            subst this
            simp
            exact hk0
          simpa using this
        · rw [if_neg (by omega)]
          have hg := gap i (size - 1) (by omega)
          rw [hlast, hdm] at hg
          have hg' := gap k i hik
          obtain ⟨v, e, hv⟩ := C48_line (eps := eps) hacc 1 (by omega) ((i : ℝ) * dx) (by simp; nlinarith) (by simp; linarith)
          rw [e]
          rcases hv with hv | hv
          · simp at hv
            congr 1
            have h' : (v - (z0 + ((i : ℝ) - k) * b)) * (1 - (k : ℝ) * dx) = 0 := by
              have : (1 - (k : ℝ) * dx) * b = dx * (1 - z0) := by linear_combination dx * hbk - b * hdm
              linear_combination hv - ((i : ℝ) - k) * this
            rcases mul_eq_zero.1 h' with h' | h'
            · linarith
            · linarith
          · simp at hv
            linarith
      · beta_reduce
        rw [if_pos le_rfl, hak]

/-- C60: the concentrating grid runs from the start to the end, increasing strictly, with the spacings that the operators use. When the concentration
point is required and is not an end up to the tolerance of `IsClose`, it is one of the points. The number of steps is assumed to be at most the
inverse of the threshold of `IsZero` (which is 5·10¹³). -/
theorem C60_concentrating_grid {eps : ℝ} (heps : 0 < eps) (null start stop : ℝ) (size : Nat) (cPoint dens : ℝ) (requireCPoint : Bool) (hn : 2 ≤ size)
    (hsmall : eps ≤ 1 / ((size : ℝ) - 1)) (h1 : start ≤ cPoint) (h2 : cPoint ≤ stop) (h : start < stop) (hd : 0 < dens) :
    ∃ m, concentrating eps null start stop size cPoint dens requireCPoint = some m ∧ m.n = size ∧ Grid m ∧ m.loc 0 = start ∧ m.loc (size - 1) = stop ∧
      (requireCPoint = true → 3 ≤ size → ¬isClose eps cPoint start → ¬isClose eps cPoint stop → ∃ i, 1 ≤ i ∧ i + 1 < size ∧ m.loc i = cPoint) := by
  have hdens : 0 < dens * (stop - start) := mul_pos hd (by linarith)
  rw [concentrating]
  dsimp only
  rw [if_pos ⟨h1, h2, hdens, hn⟩]
  generalize dens * (stop - start) = density at hdens ⊢
  obtain ⟨c1, hc1⟩ : ∃ c1, c1 = Real.arsinh ((start - cPoint) / density) := ⟨_, rfl⟩
  obtain ⟨c2, hc2⟩ : ∃ c2, c2 = Real.arsinh ((stop - cPoint) / density) := ⟨_, rfl⟩
  rw [← hc1, ← hc2]
  have hs1 : density * Real.sinh c1 = start - cPoint := by rw [hc1, Real.sinh_arsinh, mul_div_cancel₀ _ hdens.ne']
  have hs2 : density * Real.sinh c2 = stop - cPoint := by rw [hc2, Real.sinh_arsinh, mul_div_cancel₀ _ hdens.ne']
  have hc : c1 < c2 := by
    rw [hc1, hc2, Real.arsinh_lt_arsinh, div_lt_div_iff_of_pos_right hdens]
    linarith
  have close_self : ∀ x, isClose eps x x := by
    intro x
    rw [isClose]
    split
    · rw [sub_self, abs_zero]; positivity
    · rw [sub_self, abs_zero]; constructor <;> positivity
  -- the transformation at the grid
  obtain ⟨li, lv, hli, l0, l9, linc, leval, lc⟩ : ∃ (li : ℝ → Option ℝ) (lv : Nat → ℝ),
      (if requireCPoint = true then
        Option.map (fun t => t.eval eps) (Interp.newLinear (nodes size (-c1 / (c2 - c1)) (decide (¬isClose eps cPoint start ∧ ¬isClose eps cPoint stop))).1
          (nodes size (-c1 / (c2 - c1)) (decide (¬isClose eps cPoint start ∧ ¬isClose eps cPoint stop))).1
          (nodes size (-c1 / (c2 - c1)) (decide (¬isClose eps cPoint start ∧ ¬isClose eps cPoint stop))).2.1
          (nodes size (-c1 / (c2 - c1)) (decide (¬isClose eps cPoint start ∧ ¬isClose eps cPoint stop))).2.2)
      else some some) = some li ∧ lv 0 = 0 ∧ lv (size - 1) = 1 ∧ (∀ i, i + 1 < size → lv i < lv (i + 1)) ∧
      (∀ i : Nat, 1 ≤ i → i ≤ size - 2 → li ((i : ℝ) * (1 / ((size : ℝ) - 1))) = some (lv i)) ∧
      (requireCPoint = true → 3 ≤ size → ¬isClose eps cPoint start → ¬isClose eps cPoint stop → ∃ i, 1 ≤ i ∧ i + 1 < size ∧ lv i = -c1 / (c2 - c1)) := by
    cases requireCPoint with
    | false =>
      have hs : (0 : ℝ) < (size : ℝ) - 1 := by
        have : (2 : ℝ) ≤ (size : ℝ) := by exact_mod_cast hn
        linarith
      refine ⟨some, fun i => (i : ℝ) * (1 / ((size : ℝ) - 1)), by simp, by simp, ?_, fun i _ => ?_, fun i _ _ => rfl, fun h => by simp at h⟩
      · beta_reduce
        rw [Nat.cast_sub (by omega), Nat.cast_one, mul_one_div_cancel hs.ne']
      · have : 0 < 1 / ((size : ℝ) - 1) := by positivity
        push_cast
        nlinarith
    | true =>
      obtain ⟨t, lv, ht, l0, l9, linc, leval, lc⟩ := transform_grid heps hn hsmall (z0 := -c1 / (c2 - c1))
        (decide (¬isClose eps cPoint start ∧ ¬isClose eps cPoint stop)) fun hb => by
          simp only [decide_eq_true_eq] at hb
          have n1 : start < cPoint := lt_of_le_of_ne h1 fun e => hb.1 (e ▸ close_self _)
          have n2 : cPoint < stop := lt_of_le_of_ne h2 fun e => hb.2 (e ▸ close_self _)
          have k1 : c1 < 0 := by
            rw [hc1, ← Real.arsinh_zero, Real.arsinh_lt_arsinh]
            exact div_neg_of_neg_of_pos (by linarith) hdens
          have k2 : 0 < c2 := by
            rw [hc2, ← Real.arsinh_zero, Real.arsinh_lt_arsinh]
            exact div_pos (by linarith) hdens
          exact ⟨div_pos (by linarith) (by linarith), by rw [div_lt_one (by linarith)]; linarith⟩
      refine ⟨fun x => t.eval eps x, lv, by rw [if_pos rfl, ht]; rfl, l0, l9, linc, leval, fun _ h3 hs he => ?_⟩
      obtain ⟨i, a, b, e⟩ := lc (by simp [hs, he]) h3
      exact ⟨i, a, by omega, e⟩
  rw [hli, Option.bind_some]
  obtain ⟨m, hm, mn, -, -, mloc⟩ := interior_spec li lv cPoint density c1 c2 (1 / ((size : ℝ) - 1)) (blank size) (size - 2) leval
  rw [hm, Option.bind_some]
  refine ⟨_, rfl, ?_⟩
  obtain ⟨u, hu⟩ : ∃ u : Mesh ℝ, u = ⟨m.n, upd (upd m.loc 0 start) (size - 1) stop, m.dplus, m.dminus⟩ := ⟨_, rfl⟩
  rw [← hu]
  have hun : u.n = size := by rw [hu]; exact mn
  have huloc : ∀ i, i < size → u.loc i = cPoint + density * Real.sinh (c1 * (1 - lv i) + c2 * lv i) := by
    intro i hi
    rw [hu]
    show upd (upd m.loc 0 start) (size - 1) stop i = _
    by_cases e9 : i = size - 1
    · rw [e9, upd_self, l9, show c1 * (1 - 1) + c2 * 1 = c2 by ring, hs2]
      ring
    · rw [upd_ne _ _ e9]
      by_cases e0 : i = 0
      · rw [e0, upd_self, l0, show c1 * (1 - 0) + c2 * 0 = c1 by ring, hs1]
        ring
      · rw [upd_ne _ _ e0, mloc i (by omega) (by omega)]
  have h0 : u.loc 0 = start := by rw [huloc 0 (by omega), l0, show c1 * (1 - 0) + c2 * 0 = c1 by ring, hs1]; ring
  have h9 : u.loc (size - 1) = stop := by rw [huloc _ (by omega), l9, show c1 * (1 - 1) + c2 * 1 = c2 by ring, hs2]; ring
  obtain ⟨s1, s2, s3⟩ := spacings_spec u (size - 1)
  refine ⟨s1.trans hun, ⟨fun i hi => ?_, fun i hi => ?_, fun i hi => ?_⟩, by rw [← h0]; exact congrFun s2 0, by rw [← h9]; exact congrFun s2 _,
    fun a b c d => ?_⟩
  · have hi' : i + 1 < size := by rw [← s1.trans hun]; exact hi
    show (spacings (size - 1) u).loc i < (spacings (size - 1) u).loc (i + 1)
    rw [s2, huloc i (by omega), huloc (i + 1) hi']
    have : c1 * (1 - lv i) + c2 * lv i < c1 * (1 - lv (i + 1)) + c2 * lv (i + 1) := by
      have := linc i hi'
      nlinarith
    have := mul_lt_mul_of_pos_left (Real.sinh_lt_sinh.2 this) hdens
    linarith
  · have hi' : i + 1 < size := by rw [← s1.trans hun]; exact hi
    show upd (spacings (size - 1) u).dplus (size - 1) null i = (spacings (size - 1) u).loc (i + 1) - (spacings (size - 1) u).loc i
    rw [upd_ne _ _ (by omega), (s3 i (by omega)).1, s2]
  · have hi' : i + 1 < size := by rw [← s1.trans hun]; exact hi
    show upd (spacings (size - 1) u).dminus 0 null (i + 1) = (spacings (size - 1) u).loc (i + 1) - (spacings (size - 1) u).loc i
    rw [upd_ne _ _ (by omega), (s3 i (by omega)).2, s2]
  · obtain ⟨i, i1, i2, e⟩ := lc a b c d
    refine ⟨i, i1, i2, ?_⟩
    show (spacings (size - 1) u).loc i = cPoint
    rw [s2, huloc i (by omega), e]
    have : c1 * (1 - -c1 / (c2 - c1)) + c2 * (-c1 / (c2 - c1)) = 0 := by
      have : c2 - c1 ≠ 0 := (by linarith : 0 < c2 - c1).ne'
      field_simp
      ring
    rw [this, Real.sinh_zero]
    ring

example : ∃ m, concentrating (1 / 1000) 0 0 10 5 3 (1 / 10) true = some m ∧ m.n = 5 ∧ Grid m ∧ m.loc 0 = 0 ∧ m.loc 4 = 10 ∧
    ∃ i, 1 ≤ i ∧ i + 1 < 5 ∧ m.loc i = 3 := by
  obtain ⟨m, e, n, g, a, b, c⟩ := C60_concentrating_grid (eps := 1 / 1000) (by norm_num) 0 0 10 5 3 (1 / 10) true (by norm_num) (by norm_num) (by norm_num)
    (by norm_num) (by norm_num) (by norm_num)
  refine ⟨m, e, n, g, a, b, c rfl (by norm_num) ?_ ?_⟩
  · rw [isClose, if_pos (Or.inr rfl)]; norm_num
  · rw [isClose, if_neg (by norm_num)]; norm_num [abs_of_nonneg, abs_of_neg]

end Dal
