import Mathlib.Tactic.NormNum
import Verif.Random.SkipLemmas
import Verif.Random.PseudoProps

/-! # C40: skipping ahead -/

namespace Dal

open Dal.Rng

/-- C40, what holds: for seeds below the moduli, `SkipTo(n)` of the second generator leaves exactly the state reached by half of the
`n * NDim()` draws.  Missing: that it is the state after all of them, which is not so, see below. -/
theorem C40_mrg_half_partial (a b nDim n : Nat) (ha : a < m1) (hb : b < m2) (hn : n * nDim < 2 ^ 64) :
    Mrg.skipTo a b nDim n = Mrg.steps (n * nDim / 2) (Mrg.reset a b) := by
  unfold Mrg.skipTo
  rw [Nat.mod_eq_of_lt hn]
  have hk : (if n * nDim % 2 = 1 then (n * nDim - 1) / 2 else n * nDim / 2) = n * nDim / 2 := by split <;> omega
  dsimp only
  rw [hk, steps_eq]
  have hx : (Mrg.reset a b).x = triOf (a, a, a) := rfl
  have hy : (Mrg.reset a b).y = triOf (b, b, b) := rfl
  rw [hx, hy, jumpX _ ⟨ha, ha, ha⟩, jumpY _ ⟨hb, hb, hb⟩]

/-- C40: the state `SkipTo` leaves depends on the seeds and the number of paths only, so that skipping ahead is jumping: going on by
`j` draws is the same as having gone half of the way and on by `j`. -/
theorem C40_mrg_continue_partial (a b nDim n j : Nat) (ha : a < m1) (hb : b < m2) (hn : n * nDim < 2 ^ 64) :
    Mrg.draws j (Mrg.skipTo a b nDim n) = Mrg.draws j (Mrg.steps (n * nDim / 2) (Mrg.reset a b)) := by
  rw [C40_mrg_half_partial a b nDim n ha hb hn]

private theorem go_steps : ∀ (n : Nat) (g : Mrg), (fillUniform.go Mrg.next n g).2 = Mrg.steps n g := by
  intro n
  induction n with
  | zero => intro g; rfl
  | succ n ih =>
    intro g
    show (fillUniform.go Mrg.next n (Mrg.next g).2).2 = _
    rw [ih, show n + 1 = 1 + n by omega, steps_add]
    rfl

private theorem go_draws_len : ∀ (n : Nat) (g : Mrg), (fillUniform.go Mrg.next n g).1.length = n := by
  intro n
  induction n with
  | zero => intro g; rfl
  | succ n ih =>
    intro g
    show ((Mrg.next g).1 :: (fillUniform.go Mrg.next n (Mrg.next g).2).1).length = _
    simp [ih]

/-- C40, what holds of `FillUniform`: two calls of it cost `NDim()` draws, so for an even number of paths `SkipTo` leaves the state
that so many calls of `FillUniform` leave. -/
theorem C40_mrg_uniform_even_partial (a b nDim n : Nat) (ha : a < m1) (hb : b < m2) (hn : 2 * n * nDim < 2 ^ 64) (c : List Rat)
    (hc : c.length = nDim) : ∃ us s, fills Mrg.next nDim (2 * n) ⟨Mrg.reset a b, c, false⟩ = some (us, s) ∧
      s.anti = false ∧ s.gen = Mrg.skipTo a b nDim (2 * n) := by
  rw [C40_mrg_half_partial a b nDim (2 * n) ha hb hn, show 2 * n * nDim / 2 = n * nDim by rw [Nat.mul_assoc]; omega]
  clear hn
  generalize Mrg.reset a b = g
  induction n generalizing g c with
  | zero => exact ⟨[], _, rfl, rfl, by rw [Nat.zero_mul]; rfl⟩
  | succ n ih =>
    have h1 : fillUniform Mrg.next nDim ⟨g, c, false⟩ = some ((fillUniform.go Mrg.next nDim g).1,
        ⟨(fillUniform.go Mrg.next nDim g).2, (fillUniform.go Mrg.next nDim g).1 ++ c.drop nDim, true⟩) := by
      unfold fillUniform
      dsimp only
      rw [if_neg (by omega), if_neg (by decide)]
    have hl : ((fillUniform.go Mrg.next nDim g).1 ++ c.drop nDim).length = nDim := by
      rw [List.length_append, go_draws_len, List.length_drop]
      omega
    generalize hcc : (fillUniform.go Mrg.next nDim g).1 ++ c.drop nDim = cc at h1 hl
    have h2 : fillUniform Mrg.next nDim ⟨(fillUniform.go Mrg.next nDim g).2, cc, true⟩ = some ((cc.take nDim).map (1 - ·),
        ⟨(fillUniform.go Mrg.next nDim g).2, cc, false⟩) := by
      unfold fillUniform
      dsimp only
      rw [if_neg (by omega), if_pos rfl]
    obtain ⟨us, s, h3, h4, h5⟩ := ih cc hl (fillUniform.go Mrg.next nDim g).2
    refine ⟨(fillUniform.go Mrg.next nDim g).1 :: (cc.take nDim).map (1 - ·) :: us, s, ?_, h4, ?_⟩
    · rw [show 2 * (n + 1) = 2 * n + 1 + 1 by omega, fills, h1, Option.bind_some, fills, h2, Option.bind_some, h3]
      rfl
    · rw [h5, go_steps, ← steps_add]
      congr 1
      rw [Nat.succ_mul]
      omega

/-- The normal vectors of a path are the inverse normal distribution of `NDim()` draws: those of path number `i`. -/
def pathDraws (a b nDim i : Nat) : List Rat := Mrg.draws nDim (Mrg.steps (i * nDim) (Mrg.reset a b))

/-- C40, not so: after `SkipTo(2 * i)` the first path drawn is path number `i` of the stream, not path number `2 * i`: simulations cut
into batches by `SkipTo` reuse the same paths. -/
theorem C40_mrg_reuses_paths_violated (a b nDim i : Nat) (ha : a < m1) (hb : b < m2) (hn : 2 * i * nDim < 2 ^ 64) :
    Mrg.draws nDim (Mrg.skipTo a b nDim (2 * i)) = pathDraws a b nDim i := by
  rw [C40_mrg_half_partial a b nDim (2 * i) ha hb hn, show 2 * i * nDim / 2 = i * nDim by rw [Nat.mul_assoc]; omega]
  rfl

/-- C40, not so: the paths are not the same. -/
theorem C40_mrg_not_the_path_violated : ¬ ∀ a b nDim n : Nat, a < m1 → b < m2 → n * nDim < 2 ^ 64 →
    Mrg.draws nDim (Mrg.skipTo a b nDim n) = pathDraws a b nDim n := by
  intro h
  have h1 := h 1 1 1 2 (by decide) (by decide) (by decide)
  rw [C40_mrg_reuses_paths_violated 1 1 1 1 (by decide) (by decide) (by decide)] at h1
  have h2 : pathDraws 1 1 1 1 = [((Mrg.steps 2 (Mrg.reset 1 1)).numer : Rat) / m1p1] := rfl
  have h3 : pathDraws 1 1 1 2 = [((Mrg.steps 3 (Mrg.reset 1 1)).numer : Rat) / m1p1] := rfl
  rw [h2, h3, show (Mrg.steps 2 (Mrg.reset 1 1)).numer = 2387489380 by decide,
    show (Mrg.steps 3 (Mrg.reset 1 1)).numer = 61008550 by decide] at h1
  norm_num [m1p1] at h1

private theorem irl_draws : ∀ (n : Nat) (s s' : Irn) (us : List Nat), 0 ≤ s.irl → s.irl < 55 → Irn.draws n s = some (us, s') →
    s'.irl = (s.irl - n) % 55 := by
  intro n
  induction n with
  | zero =>
    intro s s' us h0 h1 h
    simp only [Irn.draws, Option.some.injEq, Prod.mk.injEq] at h
    obtain ⟨_, rfl⟩ := h
    omega
  | succ n ih =>
    intro s s' us h0 h1 h
    rw [Irn.draws] at h
    cases hn : s.next with
    | none => simp [hn] at h
    | some r =>
      obtain ⟨u, s1⟩ := r
      simp only [hn] at h
      cases hd : Irn.draws n s1 with
      | none => simp [hd] at h
      | some q =>
        simp only [hd, Option.map_some, Option.some.injEq, Prod.mk.injEq] at h
        obtain ⟨_, rfl⟩ := h
        have h2 : s1.irl = if s.irl - 1 < 0 then (M : Int) - 1 else s.irl - 1 := by
          unfold Irn.next at hn
          cases hs : s.irnStep with
          | none => simp [hs] at hn
          | some p =>
            obtain ⟨r, s2⟩ := p
            simp only [hs] at hn
            have h3 : s2.irl = if s.irl - 1 < 0 then (M : Int) - 1 else s.irl - 1 := by
              unfold Irn.irnStep at hs
              dsimp only at hs
              generalize (if s.irl - 1 < 0 then (M : Int) - 1 else s.irl - 1) = i at *
              split at hs
              · split at hs
                · simp only [Option.some.injEq, Prod.mk.injEq] at hs
                  rw [← hs.2]
                · exact absurd hs (by simp)
              · exact absurd hs (by simp)
            split at hn
            · exact absurd hn (by simp)
            · split at hn
              · simp only [Option.some.injEq, Prod.mk.injEq] at hn
                rw [← hn.2]
                exact h3
              · exact absurd hn (by simp)
        have hM : M = 55 := rfl
        have h4 : s1.irl = (s.irl - 1) % 55 := by
          rw [h2]
          split <;> omega
        have h5 := ih s1 q.2 q.1 (by omega) (by omega) hd
        rw [h5, h4]
        omega

/-- C40, not so: `SkipTo` of the shuffled generator does nothing, and from no state at all does it leave the state that the draws of
the skipped paths leave, unless their number is a multiple of 55. -/
theorem C40_irn_violated (s s' : Irn) (us : List Nat) (n nDim : Nat) (h0 : 0 ≤ s.irl) (h1 : s.irl < 55)
    (h : Irn.draws (n * nDim) s = some (us, s')) (hn : n * nDim % 55 ≠ 0) : s.skipTo n ≠ s' := by
  intro he
  have h2 := irl_draws _ s s' us h0 h1 h
  rw [← he] at h2
  have h3 : (s.skipTo n).irl = s.irl := rfl
  rw [h3] at h2
  generalize n * nDim = k at *
  omega

example : ∃ s us s', Irn.create 7 = some s ∧ Irn.draws (3 * 2) s = some (us, s') := by
  obtain ⟨s, us, s', h1, h2, _⟩ := C39_irn 7 6
  exact ⟨s, us, s', h1, h2⟩

end Dal
