import Verif.Numeric.BrentModel
import Mathlib.Algebra.Order.Interval.Set.Group
import Mathlib.Order.Interval.Set.UnorderedInterval
import Mathlib.Topology.Order.IntermediateValue
import Mathlib.Topology.Instances.Real.Lemmas
import Mathlib.Tactic.Linarith
import Mathlib.Tactic.FieldSimp
import Mathlib.Tactic.NormNum
import Mathlib.Tactic.Positivity

/-!
# C51: root search

Specification: intervals between two places, and values of the function at their ends.
-/

namespace Dal

open Dal.Brent
open Set (uIcc)

variable {K : Type} [Field K] [LinearOrder K] [IsStrictOrderedRing K]

/-- The ends hold values of the function, of which one is not positive and one not negative; the value at `b` is not the larger. -/
structure Brackets (f : K → K) (s : State K) : Prop where
  a : s.a.2 = f s.a.1
  b : s.b.2 = f s.b.1
  signs : f s.a.1 * f s.b.1 ≤ 0
  best : |f s.b.1| ≤ |f s.a.1|

/-- The current interval. -/
def interval (s : State K) : Set K := uIcc s.a.1 s.b.1

private theorem order_ok {f : K → K} {s : State K} (ha : s.a.2 = f s.a.1) (hb : s.b.2 = f s.b.1) (hs : f s.a.1 * f s.b.1 ≤ 0) :
    Brackets f s.order ∧ interval s.order = interval s ∧ s.order.width = s.width := by
  unfold State.order
  split
  · rename_i h
    rw [ha, hb] at h
    exact ⟨⟨hb, ha, by dsimp only; rw [mul_comm]; exact hs, h.le⟩, Set.uIcc_comm _ _, abs_sub_comm _ _⟩
  · rename_i h
    rw [ha, hb] at h
    exact ⟨⟨ha, hb, hs, not_lt.1 h⟩, rfl, rfl⟩

private theorem nextX_ok {s : State K} {x : K} {s' : State K} (h : nextX s = some (x, s')) :
    x ∈ interval s ∧ s'.a = s.a ∧ s'.b = s.b ∧ s'.c = s.c ∧ s'.tol = s.tol ∧ s'.d = x ∧
    (s'.bisect = true → x = (s.a.1 + s.b.1) / 2) := by
  have hmid : 1 / 2 * (s.a.1 + s.b.1) ∈ interval s := by
    unfold interval
    rw [Set.mem_uIcc]
    rcases le_total s.a.1 s.b.1 with hab | hab
    · exact Or.inl ⟨by linarith, by linarith⟩
    · exact Or.inr ⟨by linarith, by linarith⟩
  unfold nextX at h
  dsimp only at h
  generalize |s.c.1 - (if s.bisect = true then s.b.1 else s.d)| = cDist at h
  cases hi : interpolate s with
  | none =>
    rw [hi] at h
    dsimp only at h
    split at h
    · cases h
      exact ⟨hmid, rfl, rfl, rfl, rfl, rfl, fun _ => by ring⟩
    · cases h
  | some y =>
    rw [hi] at h
    dsimp only at h
    split at h
    · cases h
      exact ⟨hmid, rfl, rfl, rfl, rfl, rfl, fun _ => by ring⟩
    · rename_i hb
      cases h
      rw [decide_eq_true_iff, not_or] at hb
      obtain ⟨h1, _⟩ := hb
      rw [ge_iff_le, not_le] at h1
      refine ⟨?_, rfl, rfl, rfl, rfl, rfl, fun h => by cases h⟩
      unfold interval
      rw [Set.mem_uIcc]
      rcases le_total s.a.1 s.b.1 with hab | hab
      · left
        constructor
        · by_contra hc
          nlinarith
        · by_contra hc
          nlinarith
      · right
        constructor
        · by_contra hc
          nlinarith
        · by_contra hc
          nlinarith

private theorem sub_left {a b x : K} (h : x ∈ uIcc a b) : uIcc x b ⊆ uIcc a b := Set.uIcc_subset_uIcc h Set.right_mem_uIcc
private theorem sub_right {a b x : K} (h : x ∈ uIcc a b) : uIcc a x ⊆ uIcc a b := Set.uIcc_subset_uIcc Set.left_mem_uIcc h

/-- C51: the interval the search starts from brackets a sign change, and it is refused otherwise. -/
theorem C51_start (f : K → K) (tol d low high : K) :
    (f low * f high ≤ 0 → ∃ s, initialize' tol d (low, f low) (high, f high) = some s ∧ Brackets f s ∧ interval s = uIcc low high) ∧
    (¬ f low * f high ≤ 0 → initialize' tol d (low, f low) (high, f high) = none) := by
  constructor
  · intro h
    unfold initialize'
    dsimp only
    rw [if_pos h]
    obtain ⟨⟨h1, h2, h3, h4⟩, h5, _⟩ := order_ok (f := f) (s := ⟨(low, f low), (high, f high), (low, f low), tol, true, d⟩) rfl rfl h
    exact ⟨_, rfl, ⟨h1, h2, h3, h4⟩, h5⟩
  · intro h
    unfold initialize'
    dsimp only
    rw [if_neg h]

/-- C51: a step keeps a bracketing interval bracketing, inside the previous one, with one of its ends at the place asked for; a step by
bisection halves it. -/
theorem C51_step {f : K → K} {s : State K} (hb : Brackets f s) {x : K} {s' : State K} (h : nextX s = some (x, s')) :
    x ∈ interval s ∧ Brackets f (putY s' (f x)) ∧ interval (putY s' (f x)) ⊆ interval s ∧
    (x = (putY s' (f x)).a.1 ∨ x = (putY s' (f x)).b.1) ∧
    (s'.bisect = true → (putY s' (f x)).width = s.width / 2) := by
  obtain ⟨hx, h1, h2, h3, h4, h5, h6⟩ := nextX_ok h
  obtain ⟨a, b, c, tol, bi, d⟩ := s'
  dsimp only at h1 h2 h3 h4 h5 h6
  subst h1 h2 h3 h4 h5
  refine ⟨hx, ?_⟩
  unfold putY
  dsimp only
  by_cases hf : f d * s.a.2 > 0
  · rw [if_pos hf]
    rw [hb.a] at hf
    have hsign : f d * f s.b.1 ≤ 0 := by
      by_contra hc
      have hc := not_le.1 hc
      have : 0 < (f d * f d) * (f s.a.1 * f s.b.1) := by
        have := mul_pos hf hc
        linarith [this, show f d * f s.a.1 * (f d * f s.b.1) = (f d * f d) * (f s.a.1 * f s.b.1) by ring]
      have h7 := mul_nonpos_of_nonneg_of_nonpos (mul_self_nonneg (f d)) hb.signs
      linarith
    obtain ⟨g1, g2, g3⟩ := order_ok (f := f) (s := ⟨(d, f d), s.b, s.b, s.tol, bi, s.c.1⟩) rfl hb.b hsign
    refine ⟨g1, ?_, ?_, ?_⟩
    · rw [g2]; exact sub_left hx
    · unfold State.order
      split
      · exact Or.inr rfl
      · exact Or.inl rfl
    · intro hbi
      rw [g3]
      unfold State.width
      dsimp only
      rw [h6 hbi, show (s.a.1 + s.b.1) / 2 - s.b.1 = (s.a.1 - s.b.1) / 2 by ring, abs_div, abs_of_pos (show (0 : K) < 2 by norm_num)]
  · rw [if_neg hf]
    rw [hb.a] at hf
    have hsign : f s.a.1 * f d ≤ 0 := by rw [mul_comm]; exact not_lt.1 hf
    obtain ⟨g1, g2, g3⟩ := order_ok (f := f) (s := ⟨s.a, (d, f d), s.b, s.tol, bi, s.c.1⟩) hb.a rfl hsign
    refine ⟨g1, ?_, ?_, ?_⟩
    · rw [g2]; exact sub_right hx
    · unfold State.order
      split
      · exact Or.inl rfl
      · exact Or.inr rfl
    · intro hbi
      rw [g3]
      unfold State.width
      dsimp only
      rw [h6 hbi, show s.a.1 - (s.a.1 + s.b.1) / 2 = (s.a.1 - s.b.1) / 2 by ring, abs_div, abs_of_pos (show (0 : K) < 2 by norm_num)]

private theorem step_ok {f : K → K} {s t : State K} (hb : Brackets f s) (h : step f s = some t) : Brackets f t ∧ interval t ⊆ interval s := by
  unfold step at h
  obtain ⟨⟨x, s'⟩, hn, rfl⟩ := Option.map_eq_some_iff.1 h
  obtain ⟨_, h2, h3, _⟩ := C51_step hb hn
  exact ⟨h2, h3⟩

/-- C51: after any number of steps the interval still brackets a sign change, and it is inside every earlier one. -/
theorem C51_search {f : K → K} {s : State K} (hb : Brackets f s) (n k : Nat) {t u : State K} (hn : run f n s = some t) (hk : run f (n + k) s = some u) :
    Brackets f u ∧ interval u ⊆ interval t := by
  have hbr : ∀ n t, run f n s = some t → Brackets f t := by
    intro n
    induction n with
    | zero => intro t h; cases h; exact hb
    | succ n ih =>
      intro t h
      rw [run, Option.bind_eq_some_iff] at h
      obtain ⟨v, hv, h⟩ := h
      exact (step_ok (ih v hv) h).1
  refine ⟨hbr _ _ hk, ?_⟩
  induction k generalizing u with
  | zero => rw [Nat.add_zero, hn] at hk; cases hk; exact subset_rfl
  | succ k ih =>
    rw [show n + (k + 1) = n + k + 1 from rfl, run, Option.bind_eq_some_iff] at hk
    obtain ⟨v, hv, h⟩ := hk
    exact (step_ok (hbr _ _ hv) h).2.trans (ih hv)

/-- C51: an interval that brackets a sign change of a continuous function contains a root. -/
theorem C51_root {f : ℝ → ℝ} {s : State ℝ} (hb : Brackets f s) (hc : ContinuousOn f (interval s)) : ∃ r, r ∈ interval s ∧ f r = 0 := by
  have hz : (0 : ℝ) ∈ uIcc (f s.a.1) (f s.b.1) := by
    rw [Set.mem_uIcc]
    have := hb.signs
    rcases le_total (f s.a.1) 0 with h1 | h1
    · rcases le_total 0 (f s.b.1) with h2 | h2
      · exact Or.inl ⟨h1, h2⟩
      · rcases eq_or_lt_of_le h1 with h3 | h3
        · exact Or.inr ⟨h2, h3.ge⟩
        · rcases eq_or_lt_of_le h2 with h4 | h4
          · exact Or.inl ⟨h1, h4.ge⟩
          · exact absurd (mul_pos_of_neg_of_neg h3 h4) (not_lt.2 this)
    · rcases le_total 0 (f s.b.1) with h2 | h2
      · rcases eq_or_lt_of_le h1 with h3 | h3
        · exact Or.inl ⟨h3.ge, h2⟩
        · rcases eq_or_lt_of_le h2 with h4 | h4
          · exact Or.inr ⟨h4.ge, h1⟩
          · exact absurd (mul_pos h3 h4) (not_lt.2 this)
      · exact Or.inr ⟨h2, h1⟩
  obtain ⟨r, hr, hfr⟩ := intermediate_value_uIcc hc hz
  exact ⟨r, hr, hfr⟩

/-- C51: a step gives a number to try, unless the function vanishes at both ends. -/
theorem C51_defined {f : K → K} {s : State K} (hb : Brackets f s) (h : ¬ (f s.a.1 = 0 ∧ f s.b.1 = 0)) : ∃ t, step f s = some t := by
  have hne : s.a.2 ≠ s.b.2 := by
    rw [hb.a, hb.b]
    intro he
    have hs := hb.signs
    rw [he] at hs
    have : f s.b.1 = 0 := by nlinarith [mul_self_nonneg (f s.b.1), mul_self_eq_zero.1 (le_antisymm hs (mul_self_nonneg _))]
    exact h ⟨by rw [he]; exact this, this⟩
  have hi : ∃ y, interpolate s = some y := by
    unfold interpolate
    rw [if_neg hne]
    split <;> exact ⟨_, rfl⟩
  obtain ⟨y, hy⟩ := hi
  unfold step nextX
  dsimp only
  rw [hy]
  generalize |s.c.1 - (if s.bisect = true then s.b.1 else s.d)| = cDist
  dsimp only
  split <;> exact ⟨_, rfl⟩

/-- C51, not so: where the function vanishes at both ends of the interval, the place asked for is zero over zero. -/
theorem C51_both_zero_violated : ∃ s : State ℚ, initialize' (1 / 1000) 0 (0, 0) (1, 0) = some s ∧ nextX s = none :=
  by
  have h : initialize' (1 / 1000 : ℚ) 0 (0, 0) (1, 0) = some ⟨(0, 0), (1, 0), (0, 0), 1 / 1000, true, 0⟩ := by
    simp [initialize', State.order]
  refine ⟨_, h, ?_⟩
  simp [nextX, interpolate]
  norm_num

/-! ### With a hunt for an interval before -/

/-- The known point holds a value of the function, and once there is an interval it brackets a sign change. -/
structure Hunts (f : K → K) (h : Hunt K) : Prop where
  known : h.phase ≠ .start → h.known.2 = f h.known.1
  bracket : h.phase = .bracketed → Brackets f h.engine

/-- A step of the hunt keeps what is known. -/
theorem hunt_step {e : K} {f : K → K} {h h' : Hunt K} (hh : Hunts f h) (hs : h.step e f = some h') :
    Hunts f h' ∧ h'.phase ≠ .start ∧ (h.phase = .bracketed → h'.phase = .bracketed ∧ interval h'.engine ⊆ interval h.engine) := by
  obtain ⟨ph, inc, ss, tx, kn, en⟩ := h
  unfold Hunt.step Hunt.nextX at hs
  cases ph with
  | start =>
    rw [if_neg (fun h => by cases h), Option.bind_some] at hs
    cases hs
    exact ⟨⟨fun _ => rfl, fun h => (by cases h)⟩, (fun h => by cases h), (fun h => by cases h)⟩
  | bracketed =>
    rw [if_pos rfl] at hs
    dsimp only at hs
    rw [Option.bind_eq_some_iff] at hs
    obtain ⟨p, hp, hs⟩ := hs
    obtain ⟨⟨x, s'⟩, hn, rfl⟩ := Option.map_eq_some_iff.1 hp
    cases hs
    obtain ⟨_, h2, h3, _⟩ := C51_step (hh.bracket rfl) hn
    exact ⟨⟨fun _ => hh.known (fun h => by cases h), fun _ => h2⟩, (fun h => by cases h), fun _ => ⟨rfl, h3⟩⟩
  | hunt =>
    rw [if_neg (fun h => by cases h), Option.bind_some] at hs
    have hk := hh.known (fun h => by cases h)
    dsimp only at hs hk
    unfold Hunt.putY at hs
    dsimp only at hs
    split at hs
    · rename_i hy
      obtain ⟨en', hen, rfl⟩ := Option.map_eq_some_iff.1 hs
      rw [show kn = (kn.1, f kn.1) from Prod.ext rfl hk] at hen
      rw [hk, mul_comm] at hy
      obtain ⟨s, h1, h2, _⟩ := (C51_start f en.tol en.d kn.1 tx).1 hy
      rw [hen] at h1
      cases h1
      exact ⟨⟨fun _ => hk, fun _ => h2⟩, (fun h => by cases h), (fun h => by cases h)⟩
    · split at hs
      · cases hs
        exact ⟨⟨fun _ => hk, fun h => (by cases h)⟩, (fun h => by cases h), (fun h => by cases h)⟩
      · cases hs
        exact ⟨⟨fun _ => rfl, fun h => (by cases h)⟩, (fun h => by cases h), (fun h => by cases h)⟩

/-- C51: from any guess, after any number of steps, an interval if found brackets a sign change and stays inside every earlier one. -/
theorem C51_hunt (e : K) (f : K → K) (guess tol ss : K) (n k : Nat) {h h' : Hunt K} (hn : Hunt.run e f n (newHunt guess tol ss) = some h)
    (hk : Hunt.run e f (n + k) (newHunt guess tol ss) = some h') :
    (h'.phase = .bracketed → Brackets f h'.engine) ∧ (h.phase = .bracketed → h'.phase = .bracketed ∧ interval h'.engine ⊆ interval h.engine) := by
  have hbr : ∀ n t, Hunt.run e f n (newHunt guess tol ss) = some t → Hunts f t := by
    intro n
    induction n with
    | zero => intro t h; cases h; exact ⟨fun h => absurd rfl h, fun h => by cases h⟩
    | succ n ih =>
      intro t h
      rw [Hunt.run, Option.bind_eq_some_iff] at h
      obtain ⟨v, hv, h⟩ := h
      exact (hunt_step (ih v hv) h).1
  refine ⟨(hbr _ _ hk).bracket, ?_⟩
  induction k generalizing h' with
  | zero => rw [Nat.add_zero, hn] at hk; cases hk; exact fun h => ⟨h, subset_rfl⟩
  | succ k ih =>
    intro hp
    rw [show n + (k + 1) = n + k + 1 from rfl, Hunt.run, Option.bind_eq_some_iff] at hk
    obtain ⟨v, hv, hs⟩ := hk
    obtain ⟨h1, h2⟩ := ih hv hp
    obtain ⟨_, _, h3⟩ := hunt_step (hbr _ _ hv) hs
    exact ⟨(h3 h1).1, (h3 h1).2.trans h2⟩

/-- C51: the hunt never throws: the interval it hands over always brackets. -/
theorem C51_hunt_accepted (e : K) (f : K → K) {h : Hunt K} (hh : Hunts f h) (hp : h.phase ≠ .bracketed) : ∃ h', h.step e f = some h' := by
  obtain ⟨ph, inc, ss, tx, kn, en⟩ := h
  unfold Hunt.step Hunt.nextX
  rw [if_neg hp, Option.bind_some]
  cases ph with
  | start => exact ⟨_, rfl⟩
  | bracketed => exact absurd rfl hp
  | hunt =>
    have hk := hh.known (fun h => by cases h)
    dsimp only at hk ⊢
    unfold Hunt.putY
    dsimp only
    split
    · rename_i hy
      rw [hk, mul_comm] at hy
      obtain ⟨s, h1, _⟩ := (C51_start f en.tol en.d kn.1 tx).1 hy
      rw [show kn = (kn.1, f kn.1) from Prod.ext rfl hk, h1]
      exact ⟨_, rfl⟩
    · split <;> exact ⟨_, rfl⟩

/-- C51: when the search for a root of a continuous function is declared over at some place, either the value there is below the tolerance
of values, or there is a root within the tolerance of places of both ends of the interval. -/
theorem C51_converged (e : ℝ) (f : ℝ → ℝ) (hf : Continuous f) (guess tol ss xTol fTol : ℝ) (n : Nat) {h h1 h' : Hunt ℝ} {x : ℝ}
    (hn : Hunt.run e f n (newHunt guess tol ss) = some h) (hx : h.nextX = some (x, h1)) (hc : converged e xTol fTol h1 (f x) = some (h', true)) :
    |f x| < fTol ∨ ∃ r, f r = 0 ∧ |h'.engine.a.1 - r| < xTol ∧ |h'.engine.b.1 - r| < xTol := by
  unfold converged at hc
  obtain ⟨g, hg, he⟩ := Option.map_eq_some_iff.1 hc
  have hrun : Hunt.run e f (n + 1) (newHunt guess tol ss) = some g := by
    rw [Hunt.run, hn, Option.bind_some]
    unfold Hunt.step
    rw [hx, Option.bind_some]
    exact hg
  have hb := (C51_hunt e f guess tol ss (n + 1) 0 hrun hrun).1
  obtain ⟨h2, h3⟩ := Prod.mk.inj he
  subst h2
  rw [Bool.or_eq_true] at h3
  rcases h3 with h3 | h3
  · exact Or.inl (of_decide_eq_true h3)
  · right
    unfold Hunt.width at h3
    split at h3
    · rename_i hw
      split at hw
      · cases hw
      · cases h3
    · rename_i w hw
      split at hw
      · rename_i hp
        cases hw
        obtain ⟨r, hr, hfr⟩ := C51_root (hb hp) hf.continuousOn
        have hlt := of_decide_eq_true h3
        unfold State.width at hlt
        unfold interval at hr
        refine ⟨r, hfr, lt_of_le_of_lt ?_ hlt, lt_of_le_of_lt ?_ hlt⟩
        · rw [abs_sub_comm, abs_sub_comm g.engine.a.1]
          exact Set.abs_sub_left_of_mem_uIcc hr
        · rw [abs_sub_comm g.engine.a.1]
          exact Set.abs_sub_right_of_mem_uIcc hr
      · cases hw

/-! ### The hypotheses hold -/

example : ∃ s : State ℚ, initialize' (1 / 1000) 0 (1, 1 * 1 - 2) (2, 2 * 2 - 2) = some s ∧ Brackets (fun x => x * x - 2) s :=
  let ⟨s, h1, h2, _⟩ := (C51_start (fun x : ℚ => x * x - 2) (1 / 1000) 0 1 2).1 (by norm_num)
  ⟨s, h1, h2⟩

example : (Hunt.run (27 / 10 : ℚ) (fun x => x - 5) 6 (newHunt 0 (1 / 1000) 1)).map (fun h => decide (h.phase = .bracketed)) = some true := by decide +kernel

end Dal
