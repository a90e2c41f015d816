import Verif.Numeric.CgModel
import Mathlib.LinearAlgebra.Dimension.Constructions
import Mathlib.LinearAlgebra.Dimension.Finite
import Mathlib.LinearAlgebra.FiniteDimensional.Basic
import Mathlib.Tactic.Ring
import Mathlib.Tactic.Linarith
import Mathlib.Tactic.FieldSimp
import Mathlib.Tactic.NormNum
import Mathlib.Tactic.LinearCombination

/-!
# C53: conjugate gradients

Specification: the returned vector's residual `b - A x` is as small as asked.
-/

namespace Dal

open Dal.Cg

section
variable {K : Type} [Field K] [LinearOrder K] [IsStrictOrderedRing K] {n : Nat}

/-- A linear operator. -/
def LinearOp (A : (Fin n → K) → (Fin n → K)) : Prop := ∀ (c : K) (x y), A (x + c • y) = A x + c • A y

/-- A symmetric positive definite operator. -/
structure Spd (A : (Fin n → K) → (Fin n → K)) : Prop where
  linear : LinearOp A
  symm : ∀ x y, dotProduct (A x) y = dotProduct (A y) x
  pos : ∀ x, x ≠ 0 → 0 < dotProduct (A x) x

private theorem step_resid {A P : (Fin n → K) → (Fin n → K)} (hA : LinearOp A) {b : Fin n → K} {s s' : St K n} (h : s.r = b - A s.x)
    (hs : cgStep A P s = some s') : s'.r = b - A s'.x := by
  unfold cgStep at hs
  obtain ⟨c, _, hs⟩ := Option.bind_eq_some_iff.1 hs
  dsimp only at hs
  split at hs
  · cases hs
  · cases hs
    dsimp only
    rw [hA, h, neg_smul]
    abel

private theorem loop_resid {A P : (Fin n → K) → (Fin n → K)} (hA : LinearOp A) {b : Fin n → K} {sqrt : K → K} {t : K} : ∀ (k : Nat) (s : St K n) (x),
    s.r = b - A s.x → cgLoop sqrt A P t k s = .returned x → sqrt (dotProduct (b - A x) (b - A x)) ≤ t := by
  intro k
  induction k with
  | zero => intro s x _ h; cases h
  | succ k ih =>
    intro s x h hr
    rw [cgLoop] at hr
    cases hs : cgStep A P s with
    | none => rw [hs] at hr; cases hr
    | some s' =>
      have h' := step_resid hA h hs
      rw [hs] at hr
      dsimp only at hr
      split at hr
      · rename_i hle
        cases hr
        rw [← h']
        exact hle
      · exact ih s' x h' hr

/-- C53: whatever the preconditioner, the right-hand side, the tolerances, the initial guess and the number of iterations, if the matrix multiplies
linearly and the call returns, the residual is within the tolerance asked for. -/
theorem C53_cg {A P : (Fin n → K) → (Fin n → K)} (hA : LinearOp A) {eps : K} {sqrt : K → K} {b x0 x : Fin n → K} {tolRel tolAbs : K} {m : Int}
    (h : cgSolve eps sqrt A P b tolRel tolAbs m x0 = .returned x) :
    sqrt (dotProduct (b - A x) (b - A x)) ≤ tolRel * sqrt (dotProduct b b) + tolAbs := by
  unfold cgSolve at h
  split at h
  · exact loop_resid hA _ _ _ rfl h
  · cases h

private theorem bstep_resid {A At P Pt : (Fin n → K) → (Fin n → K)} (hA : LinearOp A) {b : Fin n → K} {s s' : BSt K n} (h : s.r = b - A s.x)
    (hs : bcgStep A At P Pt s = some s') : s'.r = b - A s'.x := by
  unfold bcgStep at hs
  obtain ⟨c, _, hs⟩ := Option.bind_eq_some_iff.1 hs
  dsimp only at hs
  split at hs
  · cases hs
  · cases hs
    dsimp only
    rw [hA, h, neg_smul]
    abel

private theorem bloop_resid {A At P Pt : (Fin n → K) → (Fin n → K)} (hA : LinearOp A) {b : Fin n → K} {sqrt : K → K} {t : K} : ∀ (k : Nat) (s : BSt K n)
    (x), s.r = b - A s.x → bcgLoop sqrt A At P Pt t k s = .returned x → sqrt (dotProduct (b - A x) (b - A x)) ≤ t := by
  intro k
  induction k with
  | zero => intro s x _ h; cases h
  | succ k ih =>
    intro s x h hr
    rw [bcgLoop] at hr
    cases hs : bcgStep A At P Pt s with
    | none => rw [hs] at hr; cases hr
    | some s' =>
      have h' := bstep_resid hA h hs
      rw [hs] at hr
      dsimp only at hr
      split at hr
      · rename_i hle
        cases hr
        rw [← h']
        exact hle
      · exact ih s' x h' hr

/-- C53: the same for the biconjugate method, whatever the second multiplication and the preconditioners do. -/
theorem C53_bcg {A At P Pt : (Fin n → K) → (Fin n → K)} (hA : LinearOp A) {eps : K} {sqrt : K → K} {b x0 x : Fin n → K} {tolRel tolAbs : K} {m : Int}
    (h : bcgSolve eps sqrt A At P Pt b tolRel tolAbs m x0 = .returned x) :
    sqrt (dotProduct (b - A x) (b - A x)) ≤ tolRel * sqrt (dotProduct b b) + tolAbs := by
  unfold bcgSolve at h
  split at h
  · exact bloop_resid hA _ _ _ rfl h
  · cases h

/-! ### An exact initial guess -/

/-- C53, not so: an exact initial guess is never returned. The first pass divides zero by zero. -/
theorem C53_exact_guess_violated {A P : (Fin n → K) → (Fin n → K)} (hP : P 0 = 0) (eps : K) (sqrt : K → K) {b x0 : Fin n → K} (hx : A x0 = b)
    (tolRel tolAbs : K) (ht : eps ≤ tolRel ∨ eps ≤ tolAbs) (m : Int) (hm : 0 < m) : cgSolve eps sqrt A P b tolRel tolAbs m x0 = .nonfinite := by
  unfold cgSolve
  rw [if_pos ⟨ht, hm⟩]
  obtain ⟨k, hk⟩ : ∃ k, m.toNat = k + 1 := ⟨m.toNat - 1, by omega⟩
  rw [hk, cgLoop, hx, sub_self]
  have : cgStep A P ⟨x0, 0, 0, none⟩ = none := by
    unfold cgStep multiplier
    dsimp only
    rw [hP, Option.bind_some, smul_zero, add_zero, dotProduct_zero, if_pos rfl]
  rw [this]

/-- C53, not so, for the biconjugate method. -/
theorem C53_exact_guess_bcg_violated {A At P Pt : (Fin n → K) → (Fin n → K)} (hP : P 0 = 0) (hPt : Pt 0 = 0) (eps : K) (sqrt : K → K)
    {b x0 : Fin n → K} (hx : A x0 = b)
    (tolRel tolAbs : K) (ht : eps ≤ tolRel ∨ eps ≤ tolAbs) (m : Int) (hm : 0 < m) : bcgSolve eps sqrt A At P Pt b tolRel tolAbs m x0 = .nonfinite := by
  unfold bcgSolve
  rw [if_pos ⟨ht, hm⟩]
  obtain ⟨k, hk⟩ : ∃ k, m.toNat = k + 1 := ⟨m.toNat - 1, by omega⟩
  rw [hk, bcgLoop, hx, sub_self]
  have : bcgStep A At P Pt ⟨x0, 0, 0, 0, 0, none⟩ = none := by
    unfold bcgStep multiplier
    dsimp only
    rw [hP, hPt, Option.bind_some, smul_zero, add_zero, dotProduct_zero, if_pos rfl]
  rw [this]

/-! ### The biconjugate method on a symmetric matrix -/

/-- C53: where both multiplications agree and both preconditioners agree, the two methods do the same. -/
theorem C53_bcg_symmetric (A P : (Fin n → K) → (Fin n → K)) (eps : K) (sqrt : K → K) (b x0 : Fin n → K) (tolRel tolAbs : K) (m : Int) :
    bcgSolve eps sqrt A A P P b tolRel tolAbs m x0 = cgSolve eps sqrt A P b tolRel tolAbs m x0 := by
  have hloop : ∀ (t : K) (k : Nat) (x r p : Fin n → K) (be : Option K), bcgLoop sqrt A A P P t k ⟨x, r, r, p, p, be⟩ = cgLoop sqrt A P t k ⟨x, r, p, be⟩ := by
    intro t k
    induction k with
    | zero => intros; rfl
    | succ k ih =>
      intro x r p be
      rw [bcgLoop, cgLoop]
      unfold bcgStep cgStep
      dsimp only
      cases hc : multiplier (dotProduct (P r) r) be with
      | none => rfl
      | some c =>
        rw [Option.bind_some, Option.bind_some]
        by_cases hd : dotProduct (A (c • p + P r)) (c • p + P r) = 0
        · rw [if_pos hd, if_pos hd]
        · rw [if_neg hd, if_neg hd]
          dsimp only
          rw [ih]
  unfold bcgSolve cgSolve
  rw [hloop]

/-! ### Termination -/

private theorem lin_zero {A : (Fin n → K) → (Fin n → K)} (hA : LinearOp A) : A 0 = 0 := by
  have := hA 1 0 0
  simpa using this

private theorem lin_smul {A : (Fin n → K) → (Fin n → K)} (hA : LinearOp A) (c : K) (x) : A (c • x) = c • A x := by
  have := hA c 0 x
  rwa [zero_add, lin_zero hA, zero_add] at this

private theorem lin_add {A : (Fin n → K) → (Fin n → K)} (hA : LinearOp A) (x y) : A (x + y) = A x + A y := by
  have := hA 1 x y
  rwa [one_smul, one_smul] at this

private def Good (s : St K n) : Prop := s.betaPrev = none ∨ ∃ b, s.betaPrev = some b ∧ b ≠ 0 ∧ dotProduct s.r s.p = 0

private structure Link (A P : (Fin n → K) → (Fin n → K)) (s s' : St K n) : Prop where
  dir : ∃ c, s'.p = c • s.p + P s.r ∧ (s.betaPrev = none → c = 0) ∧ ∀ b, s.betaPrev = some b → c * b = dotProduct (P s.r) s.r
  step : ∃ a, s'.r = s.r + (-a) • A s'.p ∧ s'.x = s.x + a • s'.p ∧ a * dotProduct (A s'.p) s'.p = dotProduct (P s.r) s.r
  beta : s'.betaPrev = some (dotProduct (P s.r) s.r)

private theorem step_link {A P : (Fin n → K) → (Fin n → K)} {s s' : St K n} (h : cgStep A P s = some s') : Link A P s s' := by
  unfold cgStep at h
  obtain ⟨c, hc, h⟩ := Option.bind_eq_some_iff.1 h
  dsimp only at h
  split at h
  · cases h
  · rename_i hd
    cases h
    refine ⟨⟨c, rfl, fun hn => ?_, fun b hb => ?_⟩, ⟨_, rfl, rfl, div_mul_cancel₀ _ hd⟩, rfl⟩
    · rw [hn] at hc; exact (Option.some.inj hc).symm
    · rw [hb] at hc
      unfold multiplier at hc
      dsimp only at hc
      split at hc
      · cases hc
      · rename_i hb0
        rw [← Option.some.inj hc]
        exact div_mul_cancel₀ _ hb0

private theorem step_defined {A P : (Fin n → K) → (Fin n → K)} (hA : Spd A) (hP : Spd P) {s : St K n} (hr : s.r ≠ 0) (hg : Good s) :
    ∃ s', cgStep A P s = some s' ∧ Good s' := by
  have hb : 0 < dotProduct (P s.r) s.r := hP.pos _ hr
  have key : ∀ c : K, dotProduct s.r (c • s.p) = 0 → dotProduct (A (c • s.p + P s.r)) (c • s.p + P s.r) ≠ 0 ∧
      dotProduct s.r (c • s.p + P s.r) = dotProduct (P s.r) s.r := by
    intro c hc
    have h1 : dotProduct s.r (c • s.p + P s.r) = dotProduct (P s.r) s.r := by rw [dotProduct_add, hc, zero_add, dotProduct_comm]
    refine ⟨fun h0 => ?_, h1⟩
    have hne : c • s.p + P s.r ≠ 0 := fun h => by
      rw [h, dotProduct_zero] at h1
      exact absurd h1 hb.ne
    exact absurd h0 (hA.pos _ hne).ne'
  have hm : ∃ c, multiplier (dotProduct (P s.r) s.r) s.betaPrev = some c ∧ dotProduct s.r (c • s.p) = 0 := by
    rcases hg with hn | ⟨b, hbp, hb0, horth⟩
    · exact ⟨0, by rw [hn]; rfl, by rw [zero_smul, dotProduct_zero]⟩
    · refine ⟨dotProduct (P s.r) s.r / b, ?_, by rw [dotProduct_smul, horth, smul_zero]⟩
      rw [hbp]
      unfold multiplier
      dsimp only
      rw [if_neg hb0]
  obtain ⟨c, hc, horth⟩ := hm
  obtain ⟨hd, hrp⟩ := key c horth
  unfold cgStep
  dsimp only
  rw [hc, Option.bind_some, if_neg hd]
  refine ⟨_, rfl, Or.inr ⟨_, rfl, hb.ne', ?_⟩⟩
  dsimp only
  rw [add_dotProduct, smul_dotProduct, hrp, smul_eq_mul]
  field_simp
  ring

private structure Chain (A P : (Fin n → K) → (Fin n → K)) (g : Nat → St K n) (m : Nat) : Prop where
  link : ∀ k, k < m → Link A P (g k) (g (k + 1))
  start : (g 0).betaPrev = none
  nonzero : ∀ k, k ≤ m → (g k).r ≠ 0

private theorem chain_orth {A P : (Fin n → K) → (Fin n → K)} (hA : Spd A) (hP : Spd P) {g : Nat → St K n} {m : Nat} (hc : Chain A P g m) : ∀ k, k ≤ m →
    (∀ i, i < k → dotProduct (P (g i).r) (g k).r = 0) ∧ (∀ i, 1 ≤ i → i < k → dotProduct (A (g k).p) (g i).p = 0) := by
  intro k
  induction k using Nat.strong_induction_on with
  | _ k ih =>
    intro hk
    cases k with
    | zero => exact ⟨fun i hi => absurd hi (Nat.not_lt_zero i), fun i _ hi => absurd hi (Nat.not_lt_zero i)⟩
    | succ k =>
      obtain ⟨ihz, ihp⟩ := ih k (Nat.lt_succ_self k) (by omega)
      obtain ⟨⟨c, hdir, hc0, hcb⟩, ⟨a, hr, _, ha⟩, hbeta⟩ := hc.link k (by omega)
      have hpos : ∀ i, i ≤ m → 0 < dotProduct (P (g i).r) (g i).r := fun i hi => hP.pos _ (hc.nonzero i hi)
      -- conjugate directions
      have hconj : ∀ i, 1 ≤ i → i < k + 1 → dotProduct (A (g (k + 1)).p) (g i).p = 0 := by
        intro i hi1 hik
        obtain ⟨j, rfl⟩ : ∃ j, i = j + 1 := ⟨i - 1, by omega⟩
        obtain ⟨⟨c', hdir', _, _⟩, ⟨a', hr', _, ha'⟩, hbeta'⟩ := hc.link j (by omega)
        have ha0 : a' ≠ 0 := fun h0 => by
          rw [h0, zero_mul] at ha'
          exact absurd ha' (hpos j (by omega)).ne
        -- the product of P r_k with A p_i
        have hz : a' * dotProduct (P (g k).r) (A (g (j + 1)).p) = dotProduct (P (g k).r) (g j).r - dotProduct (P (g k).r) (g (j + 1)).r := by
          rw [hr', dotProduct_add, dotProduct_smul, smul_eq_mul]
          ring
        have hzj : dotProduct (P (g k).r) (g j).r = 0 := by
          rw [hP.symm]; exact ihz j (by omega)
        rw [hzj, zero_sub] at hz
        have hexp : dotProduct (A (g (k + 1)).p) (g (j + 1)).p = c * dotProduct (A (g (j + 1)).p) (g k).p + dotProduct (P (g k).r) (A (g (j + 1)).p) := by
          rw [hA.symm, hdir, dotProduct_add, dotProduct_smul, smul_eq_mul, dotProduct_comm (P (g k).r)]
        rw [hexp]
        by_cases hjk : j + 1 = k
        · subst hjk
          have hcb' := hcb _ hbeta'
          apply mul_left_cancel₀ ha0
          rw [mul_zero, mul_add, hz]
          have : a' * (c * dotProduct (A (g (j + 1)).p) (g (j + 1)).p) = c * (a' * dotProduct (A (g (j + 1)).p) (g (j + 1)).p) := by ring
          rw [this, ha', hcb']
          ring
        · have h1 : dotProduct (P (g k).r) (g (j + 1)).r = 0 := by
            rw [hP.symm]; exact ihz (j + 1) (by omega)
          have h2 : dotProduct (A (g (j + 1)).p) (g k).p = 0 := by
            rw [hA.symm]; exact ihp (j + 1) (by omega) (by omega)
          rw [h1, neg_zero] at hz
          rw [h2, mul_zero, zero_add]
          exact (mul_eq_zero.1 hz).resolve_left ha0
      refine ⟨fun i hi => ?_, hconj⟩
      obtain ⟨⟨c', hdir', hc0', _⟩, _, _⟩ := hc.link i (by omega)
      have hexp : dotProduct (P (g i).r) (g (k + 1)).r = dotProduct (P (g i).r) (g k).r - a * dotProduct (A (g (k + 1)).p) (P (g i).r) := by
        rw [hr, dotProduct_add, dotProduct_smul, smul_eq_mul, dotProduct_comm (A (g (k + 1)).p)]
        ring
      have hz : dotProduct (A (g (k + 1)).p) (P (g i).r) = dotProduct (A (g (k + 1)).p) (g (i + 1)).p := by
        rw [hdir', dotProduct_add, dotProduct_smul, smul_eq_mul]
        have : c' * dotProduct (A (g (k + 1)).p) (g i).p = 0 := by
          cases i with
          | zero => rw [hc0' hc.start, zero_mul]
          | succ i => rw [hconj (i + 1) (by omega) (by omega), mul_zero]
        rw [this, zero_add]
      rw [hexp, hz]
      by_cases hik : i = k
      · subst hik
        rw [ha, sub_self]
      · rw [ihz i (by omega), hconj (i + 1) (by omega) (by omega), mul_zero, sub_zero]

private theorem chain_short {A P : (Fin n → K) → (Fin n → K)} (hA : Spd A) (hP : Spd P) {g : Nat → St K n} {m : Nat} (hc : Chain A P g m) : m < n := by
  have hli : LinearIndependent K (fun i : Fin (m + 1) => (g i).r) := by
    rw [Fintype.linearIndependent_iff]
    intro w hw j
    have h := congrArg (dotProduct (P (g j).r)) hw
    rw [dotProduct_zero, dotProduct_sum, Finset.sum_eq_single j] at h
    · rw [dotProduct_smul, smul_eq_mul] at h
      exact (mul_eq_zero.1 h).resolve_right (hP.pos _ (hc.nonzero j (by omega))).ne'
    · intro i _ hij
      rw [dotProduct_smul, smul_eq_mul]
      have : dotProduct (P (g j).r) (g i).r = 0 := by
        rcases Nat.lt_or_ge j.1 i.1 with hlt | hge
        · exact (chain_orth hA hP hc i (by omega)).1 j hlt
        · rw [hP.symm]
          exact (chain_orth hA hP hc j (by omega)).1 i (lt_of_le_of_ne hge fun he => hij (Fin.ext he))
      rw [this, mul_zero]
    · intro hj; exact absurd (Finset.mem_univ j) hj
  have := hli.fintype_card_le_finrank
  rw [Module.finrank_fin_fun, Fintype.card_fin] at this
  omega

private theorem loop_cases {A P : (Fin n → K) → (Fin n → K)} (hA : Spd A) (hP : Spd P) {sqrt : K → K} {t : K} (h0 : sqrt 0 ≤ t) : ∀ (k : Nat) (s : St K n),
    s.r ≠ 0 → Good s → (∃ x, cgLoop sqrt A P t k s = .returned x) ∨ (cgLoop sqrt A P t k s = .exhausted ∧ ∃ g : Nat → St K n, g 0 = s ∧
      (∀ i, i < k → Link A P (g i) (g (i + 1))) ∧ ∀ i, i ≤ k → (g i).r ≠ 0) := by
  intro k
  induction k with
  | zero =>
    intro s hr _
    exact Or.inr ⟨rfl, fun _ => s, rfl, fun i hi => absurd hi (Nat.not_lt_zero i), fun i _ => hr⟩
  | succ k ih =>
    intro s hr hg
    obtain ⟨s', hs, hg'⟩ := step_defined hA hP hr hg
    rw [cgLoop, hs]
    dsimp only
    by_cases hle : sqrt (dotProduct s'.r s'.r) ≤ t
    · rw [if_pos hle]; exact Or.inl ⟨_, rfl⟩
    · rw [if_neg hle]
      have hr' : s'.r ≠ 0 := fun h => hle (by rw [h, dotProduct_zero]; exact h0)
      rcases ih s' hr' hg' with h | ⟨h, g, hg0, hl, hn⟩
      · exact Or.inl h
      · refine Or.inr ⟨h, fun i => if i = 0 then s else g (i - 1), if_pos rfl, fun i hi => ?_, fun i hi => ?_⟩
        · dsimp only
          rw [if_neg (Nat.succ_ne_zero i), Nat.add_sub_cancel]
          by_cases hi0 : i = 0
          · rw [if_pos hi0, hi0, hg0]; exact step_link hs
          · rw [if_neg hi0]
            have := hl (i - 1) (by omega)
            rwa [show i - 1 + 1 = i by omega] at this
        · dsimp only
          by_cases hi0 : i = 0
          · rw [if_pos hi0]; exact hr
          · rw [if_neg hi0]; exact hn (i - 1) (by omega)

/-- C53: for a symmetric positive definite matrix and preconditioner, no pass divides by zero unless the initial guess was exact: the call returns
or runs out of iterations. -/
theorem C53_defined {A P : (Fin n → K) → (Fin n → K)} (hA : Spd A) (hP : Spd P) {eps : K} (heps : 0 ≤ eps) {sqrt : K → K} (hsq : ∀ y, 0 ≤ sqrt y)
    (hsq0 : sqrt 0 = 0) {b x0 : Fin n → K} (hx : A x0 ≠ b) {tolRel tolAbs : K} (hrel : 0 ≤ tolRel) (habs : 0 ≤ tolAbs)
    (ht : eps ≤ tolRel ∨ eps ≤ tolAbs) {m : Int} (hm : 0 < m) :
    (∃ x, cgSolve eps sqrt A P b tolRel tolAbs m x0 = .returned x) ∨ cgSolve eps sqrt A P b tolRel tolAbs m x0 = .exhausted := by
  unfold cgSolve
  rw [if_pos ⟨ht, hm⟩]
  have h0 : sqrt 0 ≤ tolRel * sqrt (dotProduct b b) + tolAbs := by
    rw [hsq0]; exact add_nonneg (mul_nonneg hrel (hsq _)) habs
  have hr : b - A x0 ≠ 0 := fun h => hx (sub_eq_zero.1 h).symm
  rcases loop_cases hA hP h0 m.toNat ⟨x0, b - A x0, 0, none⟩ hr (Or.inl rfl) with h | ⟨h, _⟩
  · exact Or.inl h
  · exact Or.inr h

/-- C53: for a symmetric positive definite matrix and preconditioner and an initial guess that is not exact, as many iterations as the matrix has
rows are enough: the call returns. -/
theorem C53_terminates {A P : (Fin n → K) → (Fin n → K)} (hA : Spd A) (hP : Spd P) {eps : K} {sqrt : K → K} (hsq : ∀ y, 0 ≤ sqrt y)
    (hsq0 : sqrt 0 = 0) {b x0 : Fin n → K} (hx : A x0 ≠ b) {tolRel tolAbs : K} (hrel : 0 ≤ tolRel) (habs : 0 ≤ tolAbs)
    (ht : eps ≤ tolRel ∨ eps ≤ tolAbs) {m : Int} (hm : 0 < m) (hn : (n : Int) ≤ m) : ∃ x, cgSolve eps sqrt A P b tolRel tolAbs m x0 = .returned x := by
  unfold cgSolve
  rw [if_pos ⟨ht, hm⟩]
  have h0 : sqrt 0 ≤ tolRel * sqrt (dotProduct b b) + tolAbs := by
    rw [hsq0]; exact add_nonneg (mul_nonneg hrel (hsq _)) habs
  have hr : b - A x0 ≠ 0 := fun h => hx (sub_eq_zero.1 h).symm
  rcases loop_cases hA hP h0 m.toNat ⟨x0, b - A x0, 0, none⟩ hr (Or.inl rfl) with h | ⟨_, g, hg0, hl, hne⟩
  · exact h
  · have := chain_short hA hP (g := g) (m := m.toNat) ⟨hl, by rw [hg0], hne⟩
    omega

/-! ### The hypotheses hold -/

private theorem spd_diag (d : Fin n → K) (hd : ∀ i, 0 < d i) : Spd (fun x i => d i * x i) := by
  refine ⟨fun c x y => ?_, fun x y => ?_, fun x hx => ?_⟩
  · funext i
    simp only [Pi.add_apply, Pi.smul_apply, smul_eq_mul]
    ring
  · unfold dotProduct
    exact Finset.sum_congr rfl fun i _ => by ring
  · unfold dotProduct
    obtain ⟨i, hi⟩ : ∃ i, x i ≠ 0 := by
      by_contra h
      exact hx (funext fun i => by by_contra h0; exact h ⟨i, h0⟩)
    refine Finset.sum_pos' (fun j _ => ?_) ⟨i, Finset.mem_univ i, ?_⟩
    · have := mul_nonneg (hd j).le (mul_self_nonneg (x j))
      linarith [show d j * x j * x j = d j * (x j * x j) by ring]
    · have := mul_pos (hd i) (mul_self_pos.2 hi)
      linarith [show d i * x i * x i = d i * (x i * x i) by ring]

end

/-- A system of two unknowns with different diagonal entries, the identity as preconditioner and a guess that is not exact. -/
example : ∃ (A P : (Fin 2 → Rat) → (Fin 2 → Rat)) (b x0 : Fin 2 → Rat), Spd A ∧ Spd P ∧ A x0 ≠ b ∧ LinearOp A ∧ P 0 = 0 :=
  ⟨fun x i => (if i = 0 then 1 else 2) * x i, fun x i => 1 * x i, fun _ => 1, 0, spd_diag _ (fun i => by split <;> norm_num), spd_diag _ (fun i => by norm_num),
    fun h => by have := congrFun h 0; simp at this, (spd_diag _ (fun i => by split <;> norm_num)).linear, by funext i; simp⟩

/-- A call that returns: the exact solution after one pass. -/
example : ∃ x, cgSolve (n := 1) (1 : Rat) (fun _ => 0) (fun x i => 2 * x i) (fun x i => 1 * x i) (fun _ => 4) 0 1 3 (fun _ => 0) = .returned x :=
  C53_terminates (spd_diag (fun _ => 2) (fun i => by norm_num)) (spd_diag (fun _ => 1) (fun i => by norm_num)) (fun _ => le_refl _) rfl
    (fun h => by have := congrFun h 0; norm_num at this) (le_refl _) (by norm_num) (Or.inr (le_refl _)) (by norm_num) (by norm_num)

end Dal
