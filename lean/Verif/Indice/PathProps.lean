import Verif.Indice.PathModel
import Mathlib.Algebra.Order.Archimedean.Basic
import Mathlib.Algebra.BigOperators.Intervals
import Mathlib.Algebra.Order.BigOperators.Ring.Finset
import Mathlib.Data.Rat.Floor
import Mathlib.Tactic.Linarith
import Mathlib.Tactic.FieldSimp
import Mathlib.Tactic.NormNum
import Mathlib.Tactic.Ring

/-!
# C62: historical index paths
-/

namespace Dal

open Dal.Indice (expectation fixInRange allInRange allLoop advance extremum)

variable {K : Type} [Field K] [LinearOrder K] [IsStrictOrderedRing K]

/-- How far a value is outside a range. -/
def distTo (lower upper x : K) : K := max 0 (max (lower - x) (x - upper))

/-- C62: an expectation is the fixing brought into the collar. -/
theorem C62_collar (fixings : K → Option K) (t lo hi x : K) (h : fixings t = some x) (hc : lo ≤ hi) :
    ∃ e, expectation fixings t lo hi = some e ∧ lo ≤ e ∧ e ≤ hi ∧ (lo ≤ x → x ≤ hi → e = x) ∧ (x ≤ lo → e = lo) ∧ (hi ≤ x → e = hi) := by
  unfold expectation
  rw [h]
  refine ⟨_, rfl, ?_⟩
  split <;> split <;> refine ⟨?_, ?_, fun _ _ => ?_, fun _ => ?_, fun _ => ?_⟩ <;> linarith

/-- C62: without a fixing there is neither an expectation nor a probability. -/
theorem C62_no_fixing (fixings : K → Option K) (t a b r : K) (h : fixings t = none) :
    expectation fixings t a b = none ∧ fixInRange fixings t a b r = none := by
  unfold expectation fixInRange; rw [h]; exact ⟨rfl, rfl⟩

/-- C62: a probability is in [0, 1], for any range, even an inverted one, and any ramp, even a negative one. -/
theorem C62_probability (fixings : K → Option K) (t lower upper ramp x : K) (h : fixings t = some x) :
    ∃ p, fixInRange fixings t lower upper ramp = some p ∧ 0 ≤ p ∧ p ≤ 1 := by
  unfold fixInRange
  rw [h]
  dsimp only
  split
  · exact ⟨1, rfl, zero_le_one, le_refl _⟩
  · split
    · rename_i h1
      have hr : 0 < ramp := by linarith [h1.1, h1.2]
      refine ⟨_, rfl, ?_, ?_⟩
      · have : (lower - x) / ramp ≤ 1 := by rw [div_le_one hr]; linarith [h1.1]
        linarith
      · have : 0 ≤ (lower - x) / ramp := div_nonneg (by linarith [h1.2]) hr.le
        linarith
    · split
      · rename_i h1
        have hr : 0 < ramp := by linarith [h1.1, h1.2]
        refine ⟨_, rfl, ?_, ?_⟩
        · have : (x - upper) / ramp ≤ 1 := by rw [div_le_one hr]; linarith [h1.1]
          linarith
        · have : 0 ≤ (x - upper) / ramp := div_nonneg (by linarith [h1.2]) hr.le
          linarith
      · exact ⟨0, rfl, le_refl _, zero_le_one⟩

/-- C62: the probability by the distance of the fixing to the range: 1 inside, 0 beyond the ramp, linear between. -/
theorem C62_ramp (fixings : K → Option K) (t lower upper ramp x : K) (h : fixings t = some x) (hr : lower ≤ upper) :
    (distTo lower upper x = 0 ↔ lower ≤ x ∧ x ≤ upper) ∧
    (distTo lower upper x = 0 → fixInRange fixings t lower upper ramp = some 1) ∧
    (0 < distTo lower upper x → distTo lower upper x ≤ ramp → fixInRange fixings t lower upper ramp = some (1 - distTo lower upper x / ramp)) ∧
    (0 < distTo lower upper x → ramp < distTo lower upper x → fixInRange fixings t lower upper ramp = some 0) := by
  unfold fixInRange
  rw [h]
  dsimp only
  rcases lt_trichotomy x lower with hl | hl | hl
  · have hd : distTo lower upper x = lower - x := by
      unfold distTo; rw [max_eq_left (by linarith : x - upper ≤ lower - x), max_eq_right (by linarith)]
    rw [hd]
    refine ⟨⟨fun h0 => by linarith, fun h0 => by linarith [h0.1]⟩, fun h0 => by linarith, fun _ h1 => ?_, fun _ h1 => ?_⟩
    · rw [if_neg (fun hc => absurd hc.1 (not_le.2 hl)), if_pos ⟨by linarith, hl⟩]
    · rw [if_neg (fun hc => absurd hc.1 (not_le.2 hl)), if_neg (fun hc => by linarith [hc.1]), if_neg (fun hc => by linarith [hc.2])]
  · have hd : distTo lower upper x = 0 := by
      unfold distTo; rw [max_eq_left (by linarith : x - upper ≤ lower - x), max_eq_left (by linarith)]
    rw [hd]
    exact ⟨⟨fun _ => ⟨hl.symm.le, hl.le.trans hr⟩, fun _ => rfl⟩, fun _ => if_pos ⟨hl.symm.le, hl.le.trans hr⟩, fun h0 => absurd h0 (lt_irrefl _),
      fun h0 => absurd h0 (lt_irrefl _)⟩
  · by_cases hu : x ≤ upper
    · have hd : distTo lower upper x = 0 := by
        unfold distTo; exact max_eq_left (max_le (by linarith) (by linarith))
      rw [hd]
      exact ⟨⟨fun _ => ⟨hl.le, hu⟩, fun _ => rfl⟩, fun _ => if_pos ⟨hl.le, hu⟩, fun h0 => absurd h0 (lt_irrefl _), fun h0 => absurd h0 (lt_irrefl _)⟩
    · have hu' := not_le.1 hu
      have hd : distTo lower upper x = x - upper := by
        unfold distTo; rw [max_eq_right (by linarith : lower - x ≤ x - upper), max_eq_right (by linarith)]
      rw [hd]
      refine ⟨⟨fun h0 => by linarith, fun h0 => by linarith [h0.2]⟩, fun h0 => by linarith, fun _ h1 => ?_, fun _ h1 => ?_⟩
      · rw [if_neg (fun hc => hu hc.2), if_neg (fun hc => by linarith [hc.2]), if_pos ⟨by linarith, hu'⟩]
      · rw [if_neg (fun hc => hu hc.2), if_neg (fun hc => by linarith [hc.2]), if_neg (fun hc => by linarith [hc.1])]

/-- C62: the probability does not increase with the distance to the range. -/
theorem C62_monotone (fixings : K → Option K) (t t' lower upper ramp x y p q : K) (hx : fixings t = some x) (hy : fixings t' = some y)
    (hr : lower ≤ upper) (hd : distTo lower upper x ≤ distTo lower upper y) (hp : fixInRange fixings t lower upper ramp = some p)
    (hq : fixInRange fixings t' lower upper ramp = some q) : q ≤ p := by
  obtain ⟨_, hx1, hx2, hx3⟩ := C62_ramp fixings t lower upper ramp x hx hr
  obtain ⟨_, hy1, hy2, hy3⟩ := C62_ramp fixings t' lower upper ramp y hy hr
  have hq1 : q ≤ 1 := by
    obtain ⟨q', h1, _, h2⟩ := C62_probability fixings t' lower upper ramp y hy
    rw [hq] at h1; rw [Option.some.inj h1]; exact h2
  have hp0 : 0 ≤ p := by
    obtain ⟨q', h1, h2, _⟩ := C62_probability fixings t lower upper ramp x hx
    rw [hp] at h1; rw [Option.some.inj h1]; exact h2
  have h0 : 0 ≤ distTo lower upper x := le_max_left _ _
  rcases h0.eq_or_lt with h0 | h0
  · have := hx1 h0.symm; rw [hp] at this; rw [Option.some.inj this]; exact hq1
  · by_cases hyr : ramp < distTo lower upper y
    · have := hy3 (lt_of_lt_of_le h0 hd) hyr; rw [hq] at this; rw [Option.some.inj this]; exact hp0
    · have hyr := not_lt.1 hyr
      have h1 := hy2 (lt_of_lt_of_le h0 hd) hyr
      have h2 := hx2 h0 (le_trans hd hyr)
      rw [hq] at h1; rw [hp] at h2
      rw [Option.some.inj h1, Option.some.inj h2]
      have := div_le_div_of_nonneg_right hd (show 0 ≤ ramp by linarith)
      linarith

/-- The probability that counts at one monitoring time: 1 where there is no fixing. -/
def monitored (fixings : K → Option K) (lower upper ramp t : K) : K := (fixInRange fixings t lower upper ramp).getD 1

private theorem loop_ok (fixings : K → Option K) (to_ lower upper interval ramp : K) (hi : 0 < interval) (n : Nat) (s p : K)
    (hlt : ∀ k < n, s + k * interval < to_) (hge : to_ ≤ s + n * interval) (fuel : Nat) (hf : n < fuel) :
    allLoop fixings to_ lower upper interval ramp fuel s p = some (p * ∏ k ∈ Finset.range n, monitored fixings lower upper ramp (s + k * interval)) := by
  induction n generalizing s p fuel with
  | zero =>
    obtain ⟨f, rfl⟩ : ∃ f, fuel = f + 1 := ⟨fuel - 1, by omega⟩
    rw [allLoop, if_neg (by rw [Nat.cast_zero] at hge; linarith), Finset.prod_range_zero, mul_one]
  | succ n ih =>
    obtain ⟨f, rfl⟩ : ∃ f, fuel = f + 1 := ⟨fuel - 1, by omega⟩
    have h0 : s < to_ := by have := hlt 0 (by omega); rwa [Nat.cast_zero, zero_mul, add_zero] at this
    have ih' := fun p' => ih (s + interval) p' (fun k hk => by
      have := hlt (k + 1) (by omega)
      rw [Nat.cast_add, Nat.cast_one] at this
      linarith) (by rw [Nat.cast_add, Nat.cast_one] at hge; linarith) f (by omega)
    have hs : ∏ k ∈ Finset.range n, monitored fixings lower upper ramp (s + interval + k * interval) =
        ∏ k ∈ Finset.range n, monitored fixings lower upper ramp (s + ((k + 1 : Nat) : K) * interval) := by
      refine Finset.prod_congr rfl fun k _ => ?_
      rw [Nat.cast_add, Nat.cast_one]
      congr 1
      ring
    have hm0 : monitored fixings lower upper ramp (s + ((0 : Nat) : K) * interval) = monitored fixings lower upper ramp s := by
      rw [Nat.cast_zero, zero_mul, add_zero]
    rw [allLoop, if_pos h0, Finset.prod_range_succ', ← hs, hm0]
    cases hfx : fixings s with
    | none =>
      dsimp only
      rw [advance, if_pos hi]
      dsimp only
      rw [ih', monitored, (C62_no_fixing fixings s lower upper ramp hfx).2, Option.getD_none, mul_one]
    | some x =>
      obtain ⟨q, hq, _, _⟩ := C62_probability fixings s lower upper ramp x hfx
      dsimp only
      rw [hq, Option.map_some, advance, if_pos hi]
      dsimp only
      rw [ih', monitored, hq, Option.getD_some]
      congr 1
      ring

/-- C62: monitoring ends, and gives the product of the probabilities at the monitoring times from + k interval before the end, those without a fixing
counting as 1. -/
theorem C62_all [Archimedean K] (fixings : K → Option K) (from_ to_ lower upper interval ramp : K) (hi : 0 < interval) :
    ∃ n : Nat, (∀ k : Nat, k < n ↔ from_ + k * interval < to_) ∧ ∀ fuel, n < fuel → allInRange fixings fuel from_ to_ lower upper interval ramp =
      some (∏ k ∈ Finset.range n, monitored fixings lower upper ramp (from_ + k * interval)) := by
  have hex : ∃ n : Nat, to_ ≤ from_ + n * interval := by
    obtain ⟨n, hn⟩ := Archimedean.arch (to_ - from_) hi
    rw [nsmul_eq_mul] at hn
    exact ⟨n, by linarith⟩
  classical
  refine ⟨Nat.find hex, fun k => ⟨fun hk => not_le.1 (Nat.find_min hex hk), fun hk => ?_⟩, fun fuel hf => ?_⟩
  · by_contra hc
    have h1 : ((Nat.find hex : Nat) : K) ≤ k := Nat.cast_le.2 (not_lt.1 hc)
    have h2 := Nat.find_spec hex
    have := mul_le_mul_of_nonneg_right h1 hi.le
    linarith
  · rw [allInRange, loop_ok fixings to_ lower upper interval ramp hi _ from_ 1 (fun k hk => not_le.1 (Nat.find_min hex hk)) (Nat.find_spec hex) fuel hf,
      one_mul]

/-- C62: the probability of staying in the range is in [0, 1], is 1 if every monitored fixing is in the range and 0 if one is beyond the ramp. -/
theorem C62_all_probability [Archimedean K] (fixings : K → Option K) (from_ to_ lower upper interval ramp : K) (hi : 0 < interval) (hr : lower ≤ upper) :
    ∃ p : K, (∃ n, ∀ fuel, n < fuel → allInRange fixings fuel from_ to_ lower upper interval ramp = some p) ∧ 0 ≤ p ∧ p ≤ 1 ∧
      ((∀ k : Nat, from_ + k * interval < to_ → ∀ x, fixings (from_ + k * interval) = some x → lower ≤ x ∧ x ≤ upper) → p = 1) ∧
      ((∃ k : Nat, from_ + k * interval < to_ ∧ ∃ x, fixings (from_ + k * interval) = some x ∧ 0 < distTo lower upper x ∧ ramp < distTo lower upper x) →
        p = 0) := by
  obtain ⟨n, hn, hall⟩ := C62_all fixings from_ to_ lower upper interval ramp hi
  have hm : ∀ t, 0 ≤ monitored fixings lower upper ramp t ∧ monitored fixings lower upper ramp t ≤ 1 := by
    intro t
    cases hf : fixings t with
    | none => rw [monitored, (C62_no_fixing fixings t lower upper ramp hf).2]; exact ⟨zero_le_one, le_refl _⟩
    | some x =>
      obtain ⟨p, hp, h0, h1⟩ := C62_probability fixings t lower upper ramp x hf
      rw [monitored, hp]
      exact ⟨h0, h1⟩
  refine ⟨_, ⟨n, hall⟩, Finset.prod_nonneg fun k _ => (hm _).1, Finset.prod_le_one (fun k _ => (hm _).1) (fun k _ => (hm _).2), fun h => ?_, ?_⟩
  · refine Finset.prod_eq_one fun k hk => ?_
    cases hf : fixings (from_ + k * interval) with
    | none => rw [monitored, (C62_no_fixing fixings _ lower upper ramp hf).2]; rfl
    | some x =>
      obtain ⟨h1, h2, _⟩ := C62_ramp fixings _ lower upper ramp x hf hr
      rw [monitored, h2 (h1.2 (h k ((hn k).1 (Finset.mem_range.1 hk)) x hf))]
      rfl
  · rintro ⟨k, hk, x, hf, hd, hb⟩
    refine Finset.prod_eq_zero (Finset.mem_range.2 ((hn k).2 hk)) ?_
    rw [monitored, (C62_ramp fixings _ lower upper ramp x hf hr).2.2.2 hd hb]
    rfl

/-- C62: a monitoring interval that is not positive is refused, however the path. -/
theorem C62_interval (fixings : K → Option K) (fuel : Nat) (from_ to_ lower upper interval ramp : K) (hi : interval ≤ 0) (h : from_ < to_) :
    allInRange fixings fuel from_ to_ lower upper interval ramp = none := by
  cases fuel with
  | zero => rfl
  | succ f =>
    rw [allInRange, allLoop, if_pos h, advance, if_neg (not_lt.2 hi)]
    split <;> rfl

/-- C62: nor has the extremum a value then. -/
theorem C62_extremum_interval (fixings : K → Option K) (fuel : Nat) (maximum : Bool) (from_ to_ interval lo hi : K) (hi' : interval ≤ 0) (h : from_ < to_) :
    extremum fixings fuel maximum from_ to_ interval lo hi = none := by
  rw [extremum, C62_interval fixings fuel from_ to_ lo hi interval 0 hi' h]

example : extremum (fun _ => some (1 : ℚ)) 5 true 0 1 0 0 2 = none := C62_extremum_interval _ 5 true 0 1 0 0 2 le_rfl zero_lt_one

/-- C62 fails for the extremum: the largest and the smallest value of a path that stays in the collar are reported to be the bounds of the collar,
whatever the path. -/
theorem C62_extremum_violated [Archimedean K] (fixings : K → Option K) (from_ to_ lo hi interval : K) (hi' : 0 < interval) (hr : lo ≤ hi)
    (h : ∀ k : Nat, from_ + k * interval < to_ → ∀ x, fixings (from_ + k * interval) = some x → lo ≤ x ∧ x ≤ hi) :
    ∃ n, ∀ fuel, n < fuel → extremum fixings fuel true from_ to_ interval lo hi = some hi ∧ extremum fixings fuel false from_ to_ interval lo hi = some lo := by
  obtain ⟨p, ⟨n, hn⟩, _, _, h1, _⟩ := C62_all_probability fixings from_ to_ lo hi interval 0 hi' hr
  refine ⟨n, fun fuel hf => ?_⟩
  unfold extremum
  rw [hn fuel hf, h1 h]
  refine ⟨?_, ?_⟩
  · exact if_pos ⟨zero_lt_one, rfl⟩
  · dsimp only
    rw [if_neg (fun hc => by cases hc.2), if_pos zero_lt_one]

/-- C62: beyond the collar the extremum is reported to be 0. -/
theorem C62_extremum_outside_violated [Archimedean K] (fixings : K → Option K) (maximum : Bool) (from_ to_ lo hi interval : K) (hi' : 0 < interval)
    (hr : lo ≤ hi) (h : ∃ k : Nat, from_ + k * interval < to_ ∧ ∃ x, fixings (from_ + k * interval) = some x ∧ 0 < distTo lo hi x) :
    ∃ n, ∀ fuel, n < fuel → extremum fixings fuel maximum from_ to_ interval lo hi = some 0 := by
  obtain ⟨p, ⟨n, hn⟩, _, _, _, h0⟩ := C62_all_probability fixings from_ to_ lo hi interval 0 hi' hr
  obtain ⟨k, hk, x, hx, hd⟩ := h
  refine ⟨n, fun fuel hf => ?_⟩
  unfold extremum
  rw [hn fuel hf, h0 ⟨k, hk, x, hx, hd, hd⟩]
  dsimp only
  rw [if_neg (fun hc => absurd hc.1 (lt_irrefl _)), if_neg (lt_irrefl _)]

/-! ### The hypotheses hold -/

private def samplePath : ℚ → Option ℚ := fun t => if t = 0 then some 5 else if t = 1 then some 12 else none

example : expectation samplePath 1 0 10 = some 10 := by norm_num [expectation, samplePath]

example : fixInRange samplePath 1 0 10 4 = some (1 / 2) := by norm_num [fixInRange, samplePath]

example : ∀ k : Nat, (0 : ℚ) + k * 1 < 1 → ∀ x, samplePath (0 + k * 1) = some x → (0 : ℚ) ≤ x ∧ x ≤ 10 := by
  intro k hk x hx
  have h0 : k = 0 := by
    have : ((k : Nat) : ℚ) < ((1 : Nat) : ℚ) := by push_cast; linarith
    have := Nat.cast_lt.1 this
    omega
  subst h0
  norm_num [samplePath] at hx
  rw [← hx]
  norm_num

example : ∃ k : Nat, (0 : ℚ) + k * 1 < 2 ∧ ∃ x, samplePath (0 + k * 1) = some x ∧ 0 < distTo 0 10 x :=
  ⟨1, by norm_num, 12, by norm_num [samplePath], by norm_num [distTo]⟩

end Dal
