import Verif.Numeric.UnderLemmas
import Mathlib.Tactic.NormNum
import Mathlib.Tactic.LinearCombination
import Mathlib.Algebra.BigOperators.Fin

/-!
# C75: the underdetermined search

Specification: the tolerance of each function value, the limits of the controls, solutions nearest to the guess, and the least value of the penalised
misfit.
-/

namespace Dal
open Dal.Under Matrix

variable {K : Type} [Field K] [LinearOrder K] [IsStrictOrderedRing K] {m n : Nat}

/-! ### Every search -/

private theorem findLoop_ok (debug : Bool) (P : Problem K m n) (c : Controls K) : ∀ (fuel : Nat) (xOld : Fin n → K) (fOld : Fin m → K)
    (J : Matrix (Fin m) (Fin n) K) (approx restart : Bool) (ev gr : Int), 0 ≤ ev → 0 ≤ gr → (approx = true → 0 < c.maxBacktrackTries) → ev.toNat < fuel →
    (findLoop debug P c fuel xOld fOld J approx restart ev gr).out ≠ .running ∧
    (0 ≤ (findLoop debug P c fuel xOld fOld J approx restart ev gr).evals ∧ (findLoop debug P c fuel xOld fOld J approx restart ev gr).evals ≤ ev) ∧
    (0 ≤ (findLoop debug P c fuel xOld fOld J approx restart ev gr).grads ∧ (findLoop debug P c fuel xOld fOld J approx restart ev gr).grads ≤ gr) ∧
    ((findLoop debug P c fuel xOld fOld J approx restart ev gr).out = .noEvaluations → (findLoop debug P c fuel xOld fOld J approx restart ev gr).evals = 0) ∧
    ((findLoop debug P c fuel xOld fOld J approx restart ev gr).out = .noGradients → (findLoop debug P c fuel xOld fOld J approx restart ev gr).grads = 0) ∧
    (∀ x, (findLoop debug P c fuel xOld fOld J approx restart ev gr).out = .ok x → ∀ i, scaled P.F P.tol x i < 1 ∧ -1 < scaled P.F P.tol x i) := by
  intro fuel
  induction fuel with
  | zero => intro _ _ _ _ _ _ _ _ _ _ h; exact absurd h (Nat.not_lt_zero _)
  | succ fuel ih =>
    intro xOld fOld J approx restart ev gr hev hgr hap hfuel
    unfold findLoop
    by_cases hr : (restart && !decide (0 < gr)) = true
    · rw [if_pos hr]
      have : gr = 0 := by
        simp only [Bool.and_eq_true, Bool.not_eq_true', decide_eq_false_iff_not] at hr
        omega
      exact ⟨by simp, ⟨hev, Int.le_refl _⟩, ⟨hgr, Int.le_refl _⟩, (fun e => by cases e), fun _ => this, fun x e => by cases e⟩
    · rw [if_neg hr]
      dsimp only
      generalize (if restart = true then divideRows P.tol (P.grad xOld) else J) = J1
      have hap1 : (if restart = true then false else approx) = true → 0 < c.maxBacktrackTries := by
        cases restart
        · exact hap
        · intro e; cases e
      generalize (if restart = true then false else approx) = a1 at hap1
      have hgr1 : 0 ≤ (if restart = true then gr - 1 else gr) ∧ (if restart = true then gr - 1 else gr) ≤ gr := by
        cases restart
        · exact ⟨hgr, Int.le_refl _⟩
        · simp only [Bool.true_and, Bool.not_eq_true', decide_eq_false_iff_not, not_not] at hr
          exact ⟨by simp only [if_true]; omega, by simp only [if_true]; omega⟩
      generalize (if restart = true then gr - 1 else gr) = g1 at hgr1
      cases hstep : P.step fOld J1 with
      | none => exact ⟨by simp, ⟨hev, Int.le_refl _⟩, hgr1, (fun e => by cases e), (fun e => by cases e), fun x e => by cases e⟩
      | some s =>
        dsimp only
        obtain ⟨b1, b2, b3, b4⟩ := backtrack_evals (debug := debug) (P := P) (c := c) (xOld := xOld) (fOld := fOld) (J := J1) (approx := a1)
          c.maxBacktrackTries.toNat s false ev hev
        have b5 := fun x => backtrack_found (debug := debug) (P := P) (c := c) (xOld := xOld) (fOld := fOld) (J := J1) (approx := a1) (x := x)
          c.maxBacktrackTries.toNat s false ev
        have b6 : 0 < c.maxBacktrackTries ∨ backtrack debug P c xOld fOld J1 a1 c.maxBacktrackTries.toNat s false ev = (.none false, ev) := by
          rcases Int.lt_or_le 0 c.maxBacktrackTries with h | h
          · exact Or.inl h
          · right
            rw [Int.toNat_of_nonpos h]
            rfl
        generalize backtrack debug P c xOld fOld J1 a1 c.maxBacktrackTries.toNat s false ev = r at b1 b2 b3 b4 b5 b6
        obtain ⟨o, ev1⟩ := r
        dsimp only at b1 b2 b3 b4 b5
        have go : ∀ (x : Fin n → K) (f : Fin m → K) (J2 : Matrix (Fin m) (Fin n) K) (a2 r2 : Bool), (a2 = true → 0 < c.maxBacktrackTries) → ev1 < ev →
            _ := fun x f J2 a2 r2 ha hlt => ih x f J2 a2 r2 ev1 g1 b1 hgr1.1 ha (by omega)
        cases o with
        | found x =>
          refine ⟨by simp, ⟨b1, b2⟩, hgr1, (fun e => by cases e), (fun e => by cases e), fun y e => ?_⟩
          obtain rfl := Out.ok.inj e
          exact b5 _ rfl
        | stepped x f J2 a2 r2 =>
          have ht : 0 < c.maxBacktrackTries := by
            rcases b6 with h | h
            · exact h
            · cases h
          have hlt : ev1 < ev := by
            rcases b4 (by omega) with h | h
            · cases h
            · exact h
          obtain ⟨c1, c2, c3, c4, c5, c6⟩ := go x f J2 a2 r2 (fun _ => ht) hlt
          exact ⟨c1, ⟨c2.1, c2.2.trans b2⟩, ⟨c3.1, c3.2.trans hgr1.2⟩, c4, c5, c6⟩
        | none r2 =>
          dsimp only
          by_cases ha : a1 = true
          · rw [if_pos ha]
            have ht := hap1 ha
            have hlt : ev1 < ev := by
              rcases b4 (by omega) with h | h
              · cases h
              · exact h
            obtain ⟨c1, c2, c3, c4, c5, c6⟩ := go xOld fOld J1 a1 r2 (fun _ => ht) hlt
            exact ⟨c1, ⟨c2.1, by omega⟩, ⟨c3.1, by omega⟩, c4, c5, c6⟩
          · rw [if_neg ha]
            exact ⟨by simp, ⟨b1, b2⟩, hgr1, (fun e => by cases e), (fun e => by cases e), fun x e => by cases e⟩
        | noEvaluations => exact ⟨by simp, ⟨b1, b2⟩, hgr1, fun _ => b3 rfl, (fun e => by cases e), fun x e => by cases e⟩
        | nonfinite => exact ⟨by simp, ⟨b1, b2⟩, hgr1, (fun e => by cases e), (fun e => by cases e), fun x e => by cases e⟩
        | aborts => exact ⟨by simp, ⟨b1, b2⟩, hgr1, (fun e => by cases e), (fun e => by cases e), fun x e => by cases e⟩
        | undefined => exact ⟨by simp, ⟨b1, b2⟩, hgr1, (fun e => by cases e), (fun e => by cases e), fun x e => by cases e⟩

/-- C75: whatever the function, its Jacobian and the steps, a point is only returned when every function value there is within its tolerance. -/
theorem C75_find_within_tolerance (debug : Bool) (P : Problem K m n) (htol : ∀ i, 0 < P.tol i) (guess : Fin n → K) (c : Controls K) (hc : c.valid) (fuel : Nat)
    (hf : c.maxEvaluations.toNat ≤ fuel) (x : Fin n → K) (h : (find debug P guess c fuel).out = .ok x) (i : Fin m) : |P.F x i| < P.tol i := by
  unfold find at h
  rw [if_pos hc.1] at h
  have := (findLoop_ok debug P c fuel guess (scaled P.F P.tol guess) (fun _ _ => 0) false true (c.maxEvaluations - 1) c.maxRestarts
    (by have := hc.1; omega) (by have := hc.2.1; omega) (by intro e; cases e) (by have := hc.1; omega)).2.2.2.2.2 x h i
  unfold scaled at this
  rw [div_lt_one (htol i), lt_div_iff₀ (htol i), neg_one_mul] at this
  exact abs_lt.2 ⟨this.2, this.1⟩

/-- C75: every search ends, uses at least one and at most the allowed evaluations, at most the allowed gradients, and complains of their lack only
when they are used up. -/
theorem C75_find_ends (debug : Bool) (P : Problem K m n) (guess : Fin n → K) (c : Controls K) (hc : c.valid) (fuel : Nat) (hf : c.maxEvaluations.toNat ≤ fuel) :
    (find debug P guess c fuel).out ≠ .running ∧
    (0 ≤ (find debug P guess c fuel).evals ∧ (find debug P guess c fuel).evals < c.maxEvaluations) ∧
    (0 ≤ (find debug P guess c fuel).grads ∧ (find debug P guess c fuel).grads ≤ c.maxRestarts) ∧
    ((find debug P guess c fuel).out = .noEvaluations → (find debug P guess c fuel).evals = 0) ∧
    ((find debug P guess c fuel).out = .noGradients → (find debug P guess c fuel).grads = 0) := by
  unfold find
  rw [if_pos hc.1]
  obtain ⟨h1, h2, h3, h4, h5, -⟩ := findLoop_ok debug P c fuel guess (scaled P.F P.tol guess) (fun _ _ => 0) false true (c.maxEvaluations - 1) c.maxRestarts
    (by have := hc.1; omega) (by have := hc.2.1; omega) (by intro e; cases e) (by have := hc.1; omega)
  exact ⟨h1, ⟨h2.1, by omega⟩, h3, h4, h5⟩

private theorem findLoop_regular (debug : Bool) (P : Problem K m n) (c : Controls K) (hb : c.backtrackTolerance ≤ 1 / 2) : ∀ (fuel : Nat) (xOld : Fin n → K)
    (J : Matrix (Fin m) (Fin n) K) (approx restart : Bool) (ev gr : Int),
    (findLoop debug P c fuel xOld (scaled P.F P.tol xOld) J approx restart ev gr).out ≠ .nonfinite := by
  intro fuel
  induction fuel with
  | zero => intro _ _ _ _ _ _; simp [findLoop]
  | succ fuel ih =>
    intro xOld J approx restart ev gr
    unfold findLoop
    split
    · simp
    · dsimp only
      generalize (if restart = true then divideRows P.tol (P.grad xOld) else J) = J1
      generalize (if restart = true then false else approx) = a1
      generalize (if restart = true then gr - 1 else gr) = g1
      cases hstep : P.step (scaled P.F P.tol xOld) J1 with
      | none => simp
      | some s =>
        dsimp only
        obtain ⟨b1, b2⟩ := backtrack_regular (debug := debug) (P := P) (c := c) (xOld := xOld) (J := J1) (approx := a1) hb c.maxBacktrackTries.toNat s false ev
        generalize backtrack debug P c xOld (scaled P.F P.tol xOld) J1 a1 c.maxBacktrackTries.toNat s false ev = r at b1 b2
        obtain ⟨o, ev1⟩ := r
        dsimp only at b1 b2
        cases o with
        | stepped x f J2 a2 r2 =>
          dsimp only
          rw [b2 x f J2 a2 r2 rfl]
          exact ih _ _ _ _ _ _
        | none r2 =>
          dsimp only
          split
          · exact ih _ _ _ _ _ _
          · simp
        | nonfinite => exact absurd rfl b1
        | found x => simp
        | noEvaluations => simp
        | aborts => simp
        | undefined => simp

/-- C75: no search divides zero by zero in updating its Jacobian, as long as the backtracking tolerance is at most one half. -/
theorem C75_find_regular (debug : Bool) (P : Problem K m n) (guess : Fin n → K) (c : Controls K) (hb : c.backtrackTolerance ≤ 1 / 2) (fuel : Nat) :
    (find debug P guess c fuel).out ≠ .nonfinite := by
  unfold find
  split
  · exact findLoop_regular debug P c hb fuel guess _ _ _ _ _
  · simp

/-! ### The pieces -/

/-- C75: the Jacobian from bumps is exact for affine functions, whatever the bump and the point. -/
theorem C75_gradient_affine (A : Matrix (Fin m) (Fin n) K) (b : Fin m → K) {dx : K} (hd : dx ≠ 0) (x : Fin n → K) :
    gradient (fun x => A *ᵥ x + b) dx x = A := by
  funext i j
  unfold gradient
  have h : (fun k => if k = j then x k + dx else x k) = x + Pi.single j dx := by
    funext k
    by_cases hk : k = j
    · subst hk; simp
    · simp [hk]
  rw [h]
  show 1 / dx * ((A *ᵥ (x + Pi.single j dx)) i + b i - ((A *ᵥ x) i + b i)) = A i j
  have hs : (A *ᵥ (x + Pi.single j dx)) i = (A *ᵥ x) i + A i j * dx := by
    rw [mulVec_add]
    simp [mulVec_single, mul_comm]
  rw [hs]
  field_simp
  ring

/-- C75: the update of the Jacobian makes it exact along the step, and changes nothing across the step. -/
theorem C75_secant (J : Matrix (Fin m) (Fin n) K) (dx : Fin n → K) (df : Fin m → K) (hd : dx ≠ 0) :
    ∃ J', secantUpdate J dx df = some J' ∧ J' *ᵥ dx = df ∧ ∀ v, v ⬝ᵥ dx = 0 → J' *ᵥ v = J *ᵥ v := by
  have h0 : dx ⬝ᵥ dx ≠ 0 := fun h => hd (funext fun i => dot_self_zero h i)
  have hval : ∀ (v : Fin n → K) (i : Fin m), ((fun i j => J i j + (df i - dx ⬝ᵥ J i) / (dx ⬝ᵥ dx) * dx j : Matrix (Fin m) (Fin n) K) *ᵥ v) i =
      (J *ᵥ v) i + (df i - dx ⬝ᵥ J i) / (dx ⬝ᵥ dx) * (dx ⬝ᵥ v) := by
    intro v i
    show ∑ j, (J i j + (df i - dx ⬝ᵥ J i) / (dx ⬝ᵥ dx) * dx j) * v j = ∑ j, J i j * v j + _ * ∑ j, dx j * v j
    rw [Finset.mul_sum, ← Finset.sum_add_distrib]
    exact Finset.sum_congr rfl fun j _ => by ring
  refine ⟨_, if_neg h0, ?_, ?_⟩
  · funext i
    rw [hval]
    have : (J *ᵥ dx) i = dx ⬝ᵥ J i := dotProduct_comm _ _
    rw [this, div_mul_cancel₀ _ h0]
    ring
  · intro v hv
    funext i
    rw [hval, dotProduct_comm dx v, hv, mul_zero, add_zero]

/-- C75: a step that is taken is a part of the step proposed and lowers the misfit enough; without a wish for a new Jacobian, the Jacobian is brought up
to date with the values at both ends of the step and is from then on approximate, so that a failure asks for an exact one; with it, nothing is changed. -/
theorem C75_accepted_step (debug : Bool) (P : Problem K m n) (c : Controls K) (xOld : Fin n → K) (fOld : Fin m → K) (J : Matrix (Fin m) (Fin n) K)
    (approx : Bool) : ∀ (t : Nat) (s : Fin n → K) (restart : Bool) (ev : Int) (x : Fin n → K) (f : Fin m → K) (J' : Matrix (Fin m) (Fin n) K) (a r : Bool),
    (backtrack debug P c xOld fOld J approx t s restart ev).1 = .stepped x f J' a r →
    (∃ k, ∀ i, x i - xOld i = s i * k) ∧ (∀ i, f i = P.F x i / P.tol i) ∧ kMin fOld f < c.backtrackTolerance ∧ (restart = true → r = true) ∧
    (r = true → J' = J ∧ a = approx) ∧
    (r = false → a = true ∧ J' *ᵥ (x - xOld) = f - fOld ∧ ∀ v, v ⬝ᵥ (x - xOld) = 0 → J' *ᵥ v = J *ᵥ v) := by
  intro t
  induction t with
  | zero => intro s restart ev x f J' a r h; simp [backtrack] at h
  | succ t ih =>
    intro s restart ev x f J' a r h
    unfold backtrack at h
    by_cases h0 : 0 < ev
    · rw [if_pos h0] at h
      dsimp only at h
      split at h
      · cases h
      · split at h
        · cases h
        · split at h
          · rename_i hk
            split at h
            · rename_i hr
              obtain ⟨rfl, rfl, rfl, rfl, rfl⟩ := Search.stepped.inj h
              exact ⟨⟨1, fun i => by ring⟩, fun i => rfl, hk, fun h => h, fun _ => ⟨rfl, rfl⟩, fun h' => by rw [hr] at h'; cases h'⟩
            · rename_i hr
              split at h
              · rename_i J1 hs
                obtain ⟨rfl, rfl, rfl, rfl, rfl⟩ := Search.stepped.inj h
                have hd : s ≠ 0 := by
                  rintro rfl
                  simp [secantUpdate] at hs
                obtain ⟨J2, hJ2, h1, h2⟩ := C75_secant J s (fun i => scaled P.F P.tol (fun k => xOld k + s k) i - fOld i) hd
                rw [hs] at hJ2
                obtain rfl := Option.some.inj hJ2
                have hx : (fun k => xOld k + s k) - xOld = s := by funext k; simp
                rw [hx]
                exact ⟨⟨1, fun i => by ring⟩, fun i => rfl, hk, fun h => absurd h hr, fun h' => absurd h' hr, fun _ => ⟨rfl, h1, h2⟩⟩
              · cases h
          · split at h
            · cases h
            · obtain ⟨⟨k, hk⟩, h2, h3, h4, h5⟩ := ih _ _ _ _ _ _ _ _ h
              exact ⟨⟨_ * k, fun i => by rw [hk i, mul_assoc]⟩, h2, h3, fun h => h4 (by simp [h]), h5⟩
    · rw [if_neg h0] at h
      cases h

/-- Such a step: from 1 to 0 for the identity, with an old Jacobian that was wrong. -/
example : (match (backtrack false (⟨fun x => fun _ => x 0 + 1, fun _ => 1 / 10, fun _ => 0, fun _ _ => none⟩ : Problem Rat 1 1)
    (Controls.default 10 10) (fun _ => 1) (fun _ => 20) (fun _ _ => 3) false 1 (fun _ => -1) false 5).1 with
    | .stepped _ _ J' a r => J' 0 0 == 10 && a && !r | _ => false) = true := by
  decide +kernel

/-- C75: the step goes to a zero of the linearised function, and is the shortest such step in the norm of the weights. -/
theorem C75_step {wSolve : (Fin n → K) → Option (Fin n → K)} {W : Matrix (Fin n) (Fin n) K} (hW : W.transpose = W)
    (hp : ∀ v : Fin n → K, 0 ≤ v ⬝ᵥ (W *ᵥ v)) (hw : ∀ b x, wSolve b = some x → W *ᵥ x = b)
    {chol : Matrix (Fin m) (Fin m) K → (Fin m → K) → Option (Fin m → K)} (hc : ∀ q b y, chol q b = some y → q *ᵥ y = b) {f : Fin m → K}
    {J : Matrix (Fin m) (Fin n) K} {s : Fin n → K} (h : qpStep wSolve chol f J = some s) :
    J *ᵥ s = -f ∧ ∀ s', J *ᵥ s' = -f → s ⬝ᵥ (W *ᵥ s) ≤ s' ⬝ᵥ (W *ᵥ s') := by
  obtain ⟨h1, y, hy⟩ := qpStep_spec hW hw hc h
  refine ⟨h1, fun s' hs' => ?_⟩
  have e : s' = s + (s' - s) := (add_sub_cancel s s').symm
  rw [e]
  apply psd_min hW hp
  rw [hy, dotProduct_comm, ← dotProduct_mulVec, mulVec_sub, hs', h1, sub_self, dotProduct_zero]

private theorem scaled_affine (A : Matrix (Fin m) (Fin n) K) (b tol : Fin m → K) (x s : Fin n → K) :
    scaled (fun x => A *ᵥ x + b) tol (fun k => x k + s k) = scaled (fun x => A *ᵥ x + b) tol x + divideRows tol A *ᵥ s := by
  funext i
  have e : (fun k => x k + s k) = x + s := rfl
  have h : (divideRows tol A *ᵥ s) i = (A *ᵥ s) i / tol i := by
    show ∑ j, 1 / tol i * A i j * s j = (∑ j, A i j * s j) / tol i
    rw [show (∑ j, A i j * s j) / tol i = 1 / tol i * ∑ j, A i j * s j by ring, Finset.mul_sum]
    exact Finset.sum_congr rfl fun j _ => by ring
  rw [e]
  show (A *ᵥ (x + s) + b) i / tol i = (A *ᵥ x + b) i / tol i + (divideRows tol A *ᵥ s) i
  rw [h, mulVec_add]
  simp only [Pi.add_apply]
  ring

private theorem findLoop_restart {debug : Bool} {P : Problem K m n} {x : Fin n → K} {f : Fin m → K} {J : Matrix (Fin m) (Fin n) K} {a : Bool} {c : Controls K}
    {ev gr : Int} (h2 : 0 < gr) (fuel : Nat) {s : Fin n → K} (hs : P.step f (divideRows P.tol (P.grad x)) = some s) {o : Search K m n} {e : Int}
    (hb : backtrack debug P c x f (divideRows P.tol (P.grad x)) false c.maxBacktrackTries.toNat s false ev = (o, e)) :
    (∀ x', o = .found x' → findLoop debug P c (fuel + 1) x f J a true ev gr = ⟨.ok x', e, gr - 1⟩) ∧
    (∀ r, o = .none r → findLoop debug P c (fuel + 1) x f J a true ev gr = ⟨.noDescent, e, gr - 1⟩) ∧
    (o = .aborts → findLoop debug P c (fuel + 1) x f J a true ev gr = ⟨.aborts, e, gr - 1⟩) := by
  rw [findLoop]
  rw [if_neg (by simp [h2])]
  dsimp only
  rw [if_pos rfl, if_pos rfl, if_pos rfl, hs]
  dsimp only
  rw [hb]
  exact ⟨fun x h => by subst h; rfl, fun r h => by subst h; rfl, fun h => by subst h; rfl⟩

private theorem findLoop_unsolved {debug : Bool} {P : Problem K m n} {x : Fin n → K} {f : Fin m → K} {J : Matrix (Fin m) (Fin n) K} {a : Bool} {c : Controls K}
    {ev gr : Int} (h2 : 0 < gr) (fuel : Nat) (hs : P.step f (divideRows P.tol (P.grad x)) = none) :
    (findLoop debug P c (fuel + 1) x f J a true ev gr).out = .unsolved := by
  rw [findLoop]
  rw [if_neg (by simp [h2])]
  dsimp only
  rw [if_pos rfl, if_pos rfl, if_pos rfl, hs]

private theorem find_once {debug : Bool} {P : Problem K m n} {guess : Fin n → K} {c : Controls K} (h1 : 0 < c.maxEvaluations) (h2 : 0 < c.maxRestarts) (fuel : Nat)
    {s : Fin n → K} (hs : P.step (scaled P.F P.tol guess) (divideRows P.tol (P.grad guess)) = some s) {o : Search K m n} {e : Int}
    (hb : backtrack debug P c guess (scaled P.F P.tol guess) (divideRows P.tol (P.grad guess)) false c.maxBacktrackTries.toNat s false (c.maxEvaluations - 1) = (o, e)) :
    (∀ x, o = .found x → find debug P guess c (fuel + 1) = ⟨.ok x, e, c.maxRestarts - 1⟩) ∧
    (∀ r, o = .none r → find debug P guess c (fuel + 1) = ⟨.noDescent, e, c.maxRestarts - 1⟩) ∧
    (o = .aborts → find debug P guess c (fuel + 1) = ⟨.aborts, e, c.maxRestarts - 1⟩) := by
  unfold find
  rw [if_pos h1]
  exact findLoop_restart h2 fuel hs hb

private theorem find_unsolved {debug : Bool} {P : Problem K m n} {guess : Fin n → K} {c : Controls K} (h1 : 0 < c.maxEvaluations) (h2 : 0 < c.maxRestarts) (fuel : Nat)
    (hs : P.step (scaled P.F P.tol guess) (divideRows P.tol (P.grad guess)) = none) : (find debug P guess c (fuel + 1)).out = .unsolved := by
  unfold find
  rw [if_pos h1]
  exact findLoop_unsolved h2 fuel hs

/-- C75: for an affine function with its Jacobian from bumps, the search takes one step, two evaluations and one gradient: it returns a zero of the function,
the nearest to the guess in the norm of the weights.  Only the two solvers can fail. -/
theorem C75_find_affine (debug : Bool) {wSolve : (Fin n → K) → Option (Fin n → K)} {W : Matrix (Fin n) (Fin n) K} (hW : W.transpose = W)
    (hp : ∀ v : Fin n → K, 0 ≤ v ⬝ᵥ (W *ᵥ v)) (hw : ∀ b x, wSolve b = some x → W *ᵥ x = b)
    {chol : Matrix (Fin m) (Fin m) K → (Fin m → K) → Option (Fin m → K)} (hch : ∀ q b y, chol q b = some y → q *ᵥ y = b)
    (A : Matrix (Fin m) (Fin n) K) (b tol : Fin m → K) (htol : ∀ i, 0 < tol i) {dx : K} (hd : dx ≠ 0) (guess : Fin n → K) (c : Controls K) (hc : c.valid)
    (he : 2 ≤ c.maxEvaluations) (ht : 1 ≤ c.maxBacktrackTries) (hm : 0 < m) (fuel : Nat) (hf : 1 ≤ fuel) :
    (find debug ⟨fun x => A *ᵥ x + b, tol, gradient (fun x => A *ᵥ x + b) dx, qpStep wSolve chol⟩ guess c fuel).out = .unsolved ∨
    ∃ x, find debug ⟨fun x => A *ᵥ x + b, tol, gradient (fun x => A *ᵥ x + b) dx, qpStep wSolve chol⟩ guess c fuel
        = ⟨.ok x, c.maxEvaluations - 2, c.maxRestarts - 1⟩ ∧
      A *ᵥ x + b = 0 ∧ ∀ x', A *ᵥ x' + b = 0 → (x - guess) ⬝ᵥ (W *ᵥ (x - guess)) ≤ (x' - guess) ⬝ᵥ (W *ᵥ (x' - guess)) := by
  obtain ⟨fuel, rfl⟩ : ∃ k, fuel = k + 1 := ⟨fuel - 1, by omega⟩
  obtain ⟨t, htr⟩ : ∃ t, c.maxBacktrackTries.toNat = t + 1 := ⟨c.maxBacktrackTries.toNat - 1, by omega⟩
  have hg : ∀ x, gradient (fun x => A *ᵥ x + b) dx x = A := C75_gradient_affine A b hd
  cases hs : qpStep wSolve chol (scaled (fun x => A *ᵥ x + b) tol guess) (divideRows tol A) with
  | none =>
    left
    apply find_unsolved hc.1 hc.2.1
    dsimp only
    rw [hg]
    exact hs
  | some s =>
    right
    obtain ⟨h1, h2⟩ := C75_step hW hp hw hch hs
    have hz : scaled (fun x => A *ᵥ x + b) tol (fun k => guess k + s k) = 0 := by
      rw [scaled_affine, h1, add_neg_cancel]
    have hzero : A *ᵥ (fun k => guess k + s k) + b = 0 := by
      funext i
      have := congrFun hz i
      exact (div_eq_zero_iff.1 this).resolve_right (htol i).ne'
    refine ⟨fun k => guess k + s k, ?_, hzero, ?_⟩
    · refine (find_once hc.1 hc.2.1 fuel (s := s) (by dsimp only; rw [hg]; exact hs) ?_).1 _ rfl
      rw [htr, backtrack]
      dsimp only
      rw [if_pos (by omega), if_neg (by omega), hz, if_pos (fun i => ⟨zero_lt_one, neg_one_lt_zero⟩)]
      rw [show c.maxEvaluations - 1 - 1 = c.maxEvaluations - 2 by omega]
    · intro x' hx'
      have e1 : (fun k => guess k + s k) - guess = s := by
        funext k
        simp
      rw [e1]
      apply h2
      have := scaled_affine A b tol guess (x' - guess)
      have e2 : (fun k => guess k + (x' - guess) k) = x' := by
        funext k
        simp
      rw [e2] at this
      have hx0 : scaled (fun x => A *ᵥ x + b) tol x' = 0 := by
        funext i
        show (A *ᵥ x' + b) i / tol i = 0
        rw [hx']
        simp
      rw [hx0] at this
      exact (neg_eq_of_add_eq_zero_right this.symm).symm

/-! ### The line search -/

/-- The square of the misfit at a fraction `k` of the way back to the old point, supposing the function affine in between. -/
def modelSq (fOld fNew : Fin m → K) (k : K) : K := (k • fOld + (1 - k) • fNew) ⬝ᵥ (k • fOld + (1 - k) • fNew)

private theorem modelSq_eq (fOld fNew : Fin m → K) (k : K) :
    modelSq fOld fNew k = k ^ 2 * (fOld ⬝ᵥ fOld) + 2 * k * (1 - k) * (fOld ⬝ᵥ fNew) + (1 - k) ^ 2 * (fNew ⬝ᵥ fNew) := by
  unfold modelSq
  simp only [dotProduct_add, add_dotProduct, dotProduct_smul, smul_dotProduct, smul_eq_mul, dotProduct_comm fNew fOld]
  ring

/-- C75: what the line search is after: the least misfit of its model is at `(newNew - oldNew) / (newNew - 2 oldNew + oldOld)`; the number computed is that one
exactly when the two misfits are orthogonal or equally large.  Missing: all other cases. -/
theorem C75_backtrack_fraction_partial (fOld fNew : Fin m → K) (hne : fOld ≠ fNew) :
    (∀ k, modelSq fOld fNew ((fNew ⬝ᵥ fNew - fOld ⬝ᵥ fNew) / (fNew ⬝ᵥ fNew - 2 * (fOld ⬝ᵥ fNew) + fOld ⬝ᵥ fOld)) ≤ modelSq fOld fNew k) ∧
    (kMin fOld fNew = (fNew ⬝ᵥ fNew - fOld ⬝ᵥ fNew) / (fNew ⬝ᵥ fNew - 2 * (fOld ⬝ᵥ fNew) + fOld ⬝ᵥ fOld) ↔
      fOld ⬝ᵥ fNew = 0 ∨ fOld ⬝ᵥ fOld = fNew ⬝ᵥ fNew) := by
  have hpos : 0 < fNew ⬝ᵥ fNew - 2 * (fOld ⬝ᵥ fNew) + fOld ⬝ᵥ fOld := by
    obtain ⟨i, hi⟩ : ∃ i, (fNew - fOld) i ≠ 0 := by
      by_contra hall
      push Not at hall
      exact hne (funext fun i => (sub_eq_zero.1 (hall i)).symm)
    have := dot_self_pos hi
    simp only [dotProduct_sub, sub_dotProduct, dotProduct_comm fNew fOld] at this
    linarith
  have hsum : 0 ≤ (fNew + fOld) ⬝ᵥ (fNew + fOld) := dot_self_nonneg' _
  simp only [dotProduct_add, add_dotProduct, dotProduct_comm fNew fOld] at hsum
  have hpos2 : 0 < fNew ⬝ᵥ fNew - fOld ⬝ᵥ fNew + fOld ⬝ᵥ fOld := by
    have h1 := dot_self_nonneg' fOld
    have h2 := dot_self_nonneg' fNew
    by_contra hle
    linarith
  constructor
  · intro k
    rw [modelSq_eq, modelSq_eq]
    generalize fNew ⬝ᵥ fNew = N at *
    generalize fOld ⬝ᵥ fNew = O at *
    generalize fOld ⬝ᵥ fOld = D at *
    obtain ⟨k0, hk0⟩ : ∃ k0, k0 = (N - O) / (N - 2 * O + D) := ⟨_, rfl⟩
    have hk : k0 * (N - 2 * O + D) = N - O := by rw [hk0, div_mul_cancel₀ _ hpos.ne']
    rw [← hk0]
    have : 0 ≤ (k - k0) ^ 2 * (N - 2 * O + D) := mul_nonneg (sq_nonneg _) hpos.le
    nlinarith [this, hk]
  · unfold kMin
    rw [div_eq_div_iff hpos2.ne' hpos.ne']
    generalize fNew ⬝ᵥ fNew = N at *
    generalize fOld ⬝ᵥ fNew = O at *
    generalize fOld ⬝ᵥ fOld = D at *
    constructor
    · intro h
      have : O * (D - N) = 0 := by linear_combination 2 * h
      rcases mul_eq_zero.1 this with h | h
      · exact Or.inl h
      · exact Or.inr (sub_eq_zero.1 h)
    · rintro (h | h)
      · subst h; ring
      · subst h; ring

/-- C75, not so: a step that takes every function value down by the same factor, between one and two thirds, is rejected with the default
tolerance, although by the model of the line search itself every shorter step is worse. -/
theorem C75_good_step_rejected_violated (fOld : Fin m → K) (h0 : fOld ≠ 0) (a : K) (ha : 2 / 3 ≤ a) (ha1 : a < 1) :
    (∀ k, 0 < k → k ≤ 1 → modelSq fOld (a • fOld) 0 < modelSq fOld (a • fOld) k) ∧ 1 / 10 < kMin fOld (a • fOld) := by
  have hD : 0 < fOld ⬝ᵥ fOld := by
    obtain ⟨i, hi⟩ : ∃ i, fOld i ≠ 0 := by
      by_contra hall
      push Not at hall
      exact h0 (funext hall)
    exact dot_self_pos hi
  have hO : fOld ⬝ᵥ (a • fOld) = a * (fOld ⬝ᵥ fOld) := by rw [dotProduct_smul, smul_eq_mul]
  have hN : (a • fOld) ⬝ᵥ (a • fOld) = a ^ 2 * (fOld ⬝ᵥ fOld) := by rw [smul_dotProduct, dotProduct_smul, smul_eq_mul, smul_eq_mul]; ring
  constructor
  · intro k hk hk1
    rw [modelSq_eq, modelSq_eq, hO, hN]
    have e : k ^ 2 * (fOld ⬝ᵥ fOld) + 2 * k * (1 - k) * (a * (fOld ⬝ᵥ fOld)) + (1 - k) ^ 2 * (a ^ 2 * (fOld ⬝ᵥ fOld))
        = (a + k * (1 - a)) ^ 2 * (fOld ⬝ᵥ fOld) := by ring
    rw [e]
    have hka : 0 < k * (1 - a) := mul_pos hk (by linarith)
    have : a ^ 2 < (a + k * (1 - a)) ^ 2 := by nlinarith
    nlinarith
  · unfold kMin
    rw [hO, hN]
    have e : a ^ 2 * (fOld ⬝ᵥ fOld) - a * (fOld ⬝ᵥ fOld) + fOld ⬝ᵥ fOld = (a ^ 2 - a + 1) * (fOld ⬝ᵥ fOld) := by ring
    have e2 : a ^ 2 * (fOld ⬝ᵥ fOld) - 1 / 2 * (a * (fOld ⬝ᵥ fOld)) = (a ^ 2 - 1 / 2 * a) * (fOld ⬝ᵥ fOld) := by ring
    have hp : 0 < a ^ 2 - a + 1 := by nlinarith
    rw [e, e2, mul_div_mul_right _ _ hD.ne', lt_div_iff₀ hp]
    nlinarith

example : (2 / 3 : ℚ) ≤ 7 / 10 ∧ (7 / 10 : ℚ) < 1 ∧ (fun _ : Fin 2 => (5 : ℚ)) ≠ 0 :=
  ⟨by norm_num, by norm_num, fun h => by have := congrFun h 0; norm_num at this⟩

/-! ### Searches that fail -/

/-- A function of one variable that flattens below 100. -/
def bentF (x : Fin 1 → ℚ) : Fin 1 → ℚ := fun _ => if 100 ≤ x 0 then x 0 else 100 + 3 / 10 * (x 0 - 100)

/-- The search for its zero, with unit tolerance and weight. -/
def bent : Problem ℚ 1 1 := ⟨bentF, fun _ => 1, gradient bentF (1 / 10000), qpStep some fun q b => some fun _ => b 0 / q 0 0⟩

private theorem bent_rejects (J : Matrix (Fin 1) (Fin 1) ℚ) (a : Bool) (ev' gr : Int) : ∀ (t : Nat) (s : ℚ) (r : Bool) (ev : Int), (t : Int) ≤ ev → -100 ≤ s → s < 0 →
    ∃ r', backtrack false bent (Controls.default ev' gr) (fun _ => 100) (fun _ => 100) J a t (fun _ => s) r ev = (.none r', ev - t)
  | 0, s, r, ev, _, _, _ => ⟨r, by simp [backtrack]⟩
  | t + 1, s, r, ev, he, h1, h2 => by
    have hf : scaled bent.F bent.tol (fun _ : Fin 1 => (100 : ℚ) + s) = (1 + 3 / 1000 * s) • (fun _ : Fin 1 => (100 : ℚ)) := by
      funext i
      have : ¬ (100 : ℚ) ≤ 100 + s := by linarith
      simp only [scaled, bent, bentF, this, if_false, Pi.smul_apply, smul_eq_mul]
      ring
    have hk : 1 / 10 < kMin (fun _ : Fin 1 => (100 : ℚ)) ((1 + 3 / 1000 * s) • (fun _ : Fin 1 => (100 : ℚ))) :=
      (C75_good_step_rejected_violated _ (fun h => by have := congrFun h 0; norm_num at this) _ (by linarith) (by linarith)).2
    simp only [backtrack]
    rw [if_pos (by omega), if_neg (by decide), hf]
    rw [if_neg (fun h => by
      have := (h 0).1
      simp only [Pi.smul_apply, smul_eq_mul] at this
      linarith)]
    rw [if_neg (by simp only [Controls.default]; exact not_lt.2 hk.le)]
    simp only [Bool.false_and, Bool.false_eq_true, if_false]
    generalize kMin (fun _ : Fin 1 => (100 : ℚ)) ((1 + 3 / 1000 * s) • (fun _ : Fin 1 => (100 : ℚ))) = km at hk
    have hk1 : min (4 / 5 : ℚ) (min km (2 * (km - 1 / 10))) ≤ 4 / 5 := min_le_left _ _
    have hk0 : 0 < min (4 / 5 : ℚ) (min km (2 * (km - 1 / 10))) := lt_min (by norm_num) (lt_min (by linarith) (by linarith))
    obtain ⟨r', hr'⟩ := bent_rejects J a ev' gr t (s * (1 - min (4 / 5 : ℚ) (min km (2 * (km - 1 / 10)))))
      (r || decide ((2 / 5 : ℚ) < km)) (ev - 1) (by omega) (by nlinarith) (by nlinarith)
    refine ⟨r', ?_⟩
    rw [show ev - ((t + 1 : Nat) : Int) = ev - 1 - t by omega]
    exact hr'

/-- C75, not so: from 100, with the default controls, at least six evaluations and a gradient, the search reports that it could not find a descent
direction, although each part of its first step takes the function down. -/
theorem C75_gives_up_violated (ev gr : Int) (he : 6 ≤ ev) (hg : 1 ≤ gr) (fuel : Nat) :
    find false bent (fun _ => 100) (Controls.default ev gr) (fuel + 1) = ⟨.noDescent, ev - 6, gr - 1⟩ ∧
    bent.step (scaled bentF bent.tol fun _ => 100) (divideRows bent.tol (bent.grad fun _ => 100)) = some (fun _ => -100) ∧
    ∀ t : ℚ, 0 < t → t ≤ 1 → 0 < bentF (fun _ => 100 + t * -100) 0 ∧ bentF (fun _ => 100 + t * -100) 0 < bentF (fun _ => 100) 0 := by
  have hs : bent.step (scaled bentF bent.tol fun _ => 100) (divideRows bent.tol (bent.grad fun _ => 100)) = some (fun _ => -100) := by
    have hg : gradient bentF (1 / 10000) (fun _ => 100) = fun _ _ => 1 := by
      funext i j
      obtain rfl : j = 0 := Subsingleton.elim _ _
      simp only [gradient, bentF]
      norm_num
    show qpStep some (fun q b => some fun _ => b 0 / q 0 0) (scaled bentF (fun _ => 1) fun _ => 100) (divideRows (fun _ => 1) (gradient bentF (1 / 10000) fun _ => 100)) = _
    rw [hg]
    have hz : scaled bentF (fun _ => 1) (fun _ : Fin 1 => (100 : ℚ)) = fun _ => 100 := by
      funext i
      simp [scaled, bentF]
    rw [hz]
    have hd : divideRows (fun _ : Fin 1 => (1 : ℚ)) (fun _ _ : Fin 1 => (1 : ℚ)) = fun _ _ => 1 := by
      funext i j
      norm_num [divideRows]
    rw [hd]
    simp only [qpStep, qForm, Option.isSome_some, implies_true, if_true, Option.bind_some, Option.getD_some]
    refine congrArg some (funext fun k => ?_)
    obtain rfl : k = 0 := Subsingleton.elim _ _
    simp only [vecMul, dotProduct, Finset.univ_unique, Finset.sum_singleton, le_refl, if_true]
    norm_num
  refine ⟨?_, hs, fun t h1 h2 => ?_⟩
  · obtain ⟨r', hr'⟩ := bent_rejects (divideRows bent.tol (bent.grad fun _ => 100)) false ev gr 5 (-100) false (ev - 1) (by omega) le_rfl (by norm_num)
    have h0 : scaled bent.F bent.tol (fun _ : Fin 1 => (100 : ℚ)) = fun _ => 100 := by
      funext i
      simp [scaled, bent, bentF]
    refine (find_once (show 0 < ev by omega) (show 0 < gr by omega) fuel hs ?_).2.1 r' rfl
    rw [h0, show ev - 6 = ev - 1 - ((5 : Nat) : Int) by omega]
    exact hr'
  · have : ¬ (100 : ℚ) ≤ 100 + t * -100 := by linarith
    simp only [bentF, this, if_false, le_refl, if_true]
    constructor <;> linarith

/-- A problem in two functions of one variable. -/
def skew : Problem ℚ 2 1 :=
  ⟨fun x => if x 0 = 0 then ![10, 0] else ![2, 4], fun _ => 1, fun _ _ _ => 0, fun _ _ => some fun _ => 1⟩

/-- C75, not so: when the number computed is exactly the backtracking tolerance, the assertion that the step is shortened fails, which ends a debug build. -/
theorem C75_assertion_violated (ev gr : Int) (he : 2 ≤ ev) (hg : 1 ≤ gr) :
    (find true skew (fun _ => 0) (Controls.default ev gr) (ev.toNat + 1)).out = .aborts := by
  have h0 : scaled skew.F skew.tol (fun _ : Fin 1 => (0 : ℚ)) = ![10, 0] := by
    funext i
    simp [scaled, skew]
  have h1 : scaled skew.F skew.tol (fun _ : Fin 1 => (0 : ℚ) + 1) = ![2, 4] := by
    funext i
    simp [scaled, skew]
  have hk : kMin ![(10 : ℚ), 0] ![2, 4] = 1 / 10 := by
    simp only [kMin, dotProduct, Fin.sum_univ_two, cons_val_zero, cons_val_one]
    norm_num
  refine congrArg End.out ((find_once (show 0 < ev by omega) (show 0 < gr by omega) ev.toNat (s := fun _ => 1) rfl (e := ev - 1 - 1) ?_).2.2 rfl)
  rw [h0, show ((Controls.default ev gr : Controls ℚ).maxBacktrackTries).toNat = 4 + 1 from rfl, show (Controls.default ev gr : Controls ℚ).maxEvaluations = ev from rfl]
  simp only [backtrack]
  rw [if_pos (by omega), if_neg (by decide), h1, hk, if_neg (fun h => by have := (h 0).1; norm_num at this)]
  rw [if_neg (by simp [Controls.default])]
  rw [if_pos (by simp [Controls.default])]

/-! ### Approximations -/

/-- A call that has not run out of anything. -/
def NotSpent (o : Out (Fin n → K)) : Prop := (∃ x, o = .ok x) ∨ o = .unsolved ∨ o = .nonfinite

private theorem approxLoop_ok (P : Problem K m n) (step : (Fin n → K) → (Fin m → K) → Matrix (Fin m) (Fin n) K → Option (Fin n → K)) (c : Controls K)
    (hR : 0 < c.maxRestarts) : ∀ (fuel : Nat) (r k : Nat) (ie ticker ev gr : Int) (x : Fin n → K) (f : Fin m → K) (J : Matrix (Fin m) (Fin n) K), 0 < fuel →
    ie = 3 + r + k → c.maxEvaluations < ie + fuel → r * c.maxEvaluations ≤ k * c.maxRestarts + ticker → ev = c.maxEvaluations - 1 - k → gr = c.maxRestarts - r →
    NotSpent (approxLoop P step c fuel ie ticker x f J ev gr).out := by
  intro fuel
  induction fuel with
  | zero => intro r k ie ticker ev gr x f J h0; exact absurd h0 (Nat.lt_irrefl 0)
  | succ fuel ih =>
    intro r k ie ticker ev gr x f J _ hie hf htk hev hgr
    unfold approxLoop
    by_cases hlt : ie < c.maxEvaluations
    · rw [if_pos hlt]
      dsimp only
      have hev0 : 0 < ev := by omega
      have hgr0 : ticker ≤ 0 → 0 < gr := by
        intro hre
        by_contra hle
        have h1 : c.maxRestarts * c.maxEvaluations ≤ r * c.maxEvaluations := by
          apply mul_le_mul_of_nonneg_right <;> omega
        have h2 : (k : Int) * c.maxRestarts < c.maxEvaluations * c.maxRestarts := by
          apply mul_lt_mul_of_pos_right <;> omega
        rw [mul_comm c.maxEvaluations] at h2
        omega
      rw [if_neg (by
        intro h
        simp only [Bool.and_eq_true, decide_eq_true_eq, Bool.not_eq_true', decide_eq_false_iff_not] at h
        exact h.2 (hgr0 h.1))]
      generalize (if decide (ticker ≤ 0) = true then divideRows P.tol (P.grad x) else J) = J1
      obtain ⟨r', hr1, hr2, hr3⟩ : ∃ r' : Nat, (if decide (ticker ≤ 0) = true then ie + 1 else ie) = 3 + r' + k ∧
          (r' : Int) * c.maxEvaluations ≤ k * c.maxRestarts + (if decide (ticker ≤ 0) = true then c.maxEvaluations else ticker) ∧
          (if decide (ticker ≤ 0) = true then gr - 1 else gr) = c.maxRestarts - r' := by
        by_cases hre : ticker ≤ 0
        · refine ⟨r + 1, ?_, ?_, ?_⟩
          · rw [if_pos (decide_eq_true hre)]; push_cast; omega
          · rw [if_pos (decide_eq_true hre)]; push_cast; rw [add_mul, one_mul]; omega
          · rw [if_pos (decide_eq_true hre)]; push_cast; omega
        · refine ⟨r, ?_, ?_, ?_⟩
          · rw [if_neg (by simpa using hre)]; omega
          · rw [if_neg (by simpa using hre)]; exact htk
          · rw [if_neg (by simpa using hre)]; exact hgr
      have hle : ie ≤ (if decide (ticker ≤ 0) = true then ie + 1 else ie) := by split <;> omega
      generalize (if decide (ticker ≤ 0) = true then ie + 1 else ie) = ie' at hr1 hle
      generalize (if decide (ticker ≤ 0) = true then c.maxEvaluations else ticker) = tk' at hr2
      generalize (if decide (ticker ≤ 0) = true then gr - 1 else gr) = gr' at hr3
      cases step x f J1 with
      | none => exact Or.inr (Or.inl rfl)
      | some s =>
        dsimp only
        rw [if_pos hev0]
        have key := fun J' => ih r' (k + 1) (ie' + 1) (tk' - c.maxRestarts) (ev - 1) gr' (fun k => x k + s k) (scaled P.F P.tol fun k => x k + s k) J' (by omega)
          (by push_cast; omega) (by omega) (by push_cast; rw [add_mul, one_mul]; omega) (by push_cast; omega) hr3
        split
        · split
          · exact key _
          · split
            · exact Or.inr (Or.inr rfl)
            · exact Or.inl ⟨_, rfl⟩
        · exact key _
    · rw [if_neg hlt]
      exact Or.inl ⟨x, rfl⟩

/-- C75: with any positive limits an approximation ends, and never runs out of evaluations or gradients: it answers, unless a solver fails or a Jacobian of
zeros over zeros comes up. -/
theorem C75_approximate_ends (P : Problem K m n) (solve : ((Fin n → K) → Fin n → K) → (Fin n → K) → Option (Fin n → K)) (W : Matrix (Fin n) (Fin n) K)
    (fitTol : K) (guess : Fin n → K) (c : Controls K) (hc : c.valid) (fuel : Nat) (hf : c.maxEvaluations.toNat ≤ fuel) :
    (∃ x, (approximate P solve W fitTol guess c fuel).out = .ok x) ∨ (approximate P solve W fitTol guess c fuel).out = .unsolved ∨
      (approximate P solve W fitTol guess c fuel).out = .nonfinite := by
  have h1 := hc.1
  unfold approximate
  rw [if_pos h1]
  exact approxLoop_ok P _ c hc.2.1 fuel 0 0 3 0 _ _ _ _ _ (by omega) (by simp) (by omega) (by simp) (by simp) (by simp)

/-- The quantity an approximation makes small: the distance from the guess in the norm of the weights, and the squares of the function values over their
tolerances with the weight of the fit. -/
def misfit (F : (Fin n → K) → Fin m → K) (tol : Fin m → K) (fitTol : K) (W : Matrix (Fin n) (Fin n) K) (x0 x : Fin n → K) : K :=
  (x - x0) ⬝ᵥ (W *ᵥ (x - x0)) + (∑ i, tol i ^ 2) / fitTol ^ 2 * ∑ i, (F x i / tol i) ^ 2

private theorem fitWeight_eq (tol : Fin m → K) (fitTol : K) : fitWeight tol fitTol = (∑ i, tol i ^ 2) / fitTol ^ 2 := by
  unfold fitWeight dotProduct
  rw [pow_two fitTol]
  congr 1
  exact Finset.sum_congr rfl fun i _ => (pow_two _).symm

private theorem penalty_eq (W : Matrix (Fin n) (Fin n) K) (J : Matrix (Fin m) (Fin n) K) (jw : K) (x : Fin n → K) :
    penalty W J jw x = W *ᵥ x + jw • ((J *ᵥ x) ᵥ* J) := rfl

private theorem approx_min {W : Matrix (Fin n) (Fin n) K} (hW : W.transpose = W) (hp : ∀ v : Fin n → K, 0 ≤ v ⬝ᵥ (W *ᵥ v)) {jw : K} (hj : 0 ≤ jw)
    {J : Matrix (Fin m) (Fin n) K} {x0 x s : Fin n → K} {f : Fin m → K}
    (h : penalty W J jw s = fun i => (W *ᵥ (fun k => x0 k - x k)) i + -jw * (f ᵥ* J) i) (d : Fin n → K) :
    (x + s - x0) ⬝ᵥ (W *ᵥ (x + s - x0)) + jw * ((f + J *ᵥ s) ⬝ᵥ (f + J *ᵥ s)) ≤
    (x + (s + d) - x0) ⬝ᵥ (W *ᵥ (x + (s + d) - x0)) + jw * ((f + J *ᵥ (s + d)) ⬝ᵥ (f + J *ᵥ (s + d))) := by
  have hsym : ∀ u v : Fin n → K, u ⬝ᵥ (W *ᵥ v) = v ⬝ᵥ (W *ᵥ u) := by
    intro u v
    rw [dotProduct_mulVec, ← mulVec_transpose, hW, dotProduct_comm]
  have hT : ∀ (y : Fin m → K) (v : Fin n → K), v ⬝ᵥ (y ᵥ* J) = y ⬝ᵥ (J *ᵥ v) := fun y v => by rw [dotProduct_comm, ← dotProduct_mulVec]
  have hd : d ⬝ᵥ penalty W J jw s = d ⬝ᵥ (W *ᵥ (x0 - x)) - jw * (f ⬝ᵥ (J *ᵥ d)) := by
    rw [h]
    have e : (fun i => (W *ᵥ (fun k => x0 k - x k)) i + -jw * (f ᵥ* J) i) = W *ᵥ (x0 - x) + (-jw) • (f ᵥ* J) := rfl
    rw [e, dotProduct_add, dotProduct_smul, hT, smul_eq_mul]
    ring
  rw [penalty_eq, dotProduct_add, dotProduct_smul, hT, smul_eq_mul, mulVec_sub, dotProduct_sub] at hd
  have h1 := hp d
  have h2 : 0 ≤ jw * ((J *ᵥ d) ⬝ᵥ (J *ᵥ d)) := mul_nonneg hj (dot_self_nonneg' _)
  simp only [mulVec_add, mulVec_sub, dotProduct_add, dotProduct_sub, add_dotProduct, sub_dotProduct]
  have c1 := dotProduct_comm (J *ᵥ d) f
  have c2 := dotProduct_comm (J *ᵥ d) (J *ᵥ s)
  have c3 := hsym x d
  have c4 := hsym s d
  have c5 := hsym x0 d
  rw [c1, c2, c3, c4, c5]
  nlinarith

private theorem misfit_eq (F : (Fin n → K) → Fin m → K) (tol : Fin m → K) (fitTol : K) (W : Matrix (Fin n) (Fin n) K) (x0 x : Fin n → K) :
    misfit F tol fitTol W x0 x = (x - x0) ⬝ᵥ (W *ᵥ (x - x0)) + fitWeight tol fitTol * (scaled F tol x ⬝ᵥ scaled F tol x) := by
  rw [fitWeight_eq]
  unfold misfit
  congr 2
  exact Finset.sum_congr rfl fun i _ => pow_two _

private theorem fitWeight_nonneg (tol : Fin m → K) (fitTol : K) : 0 ≤ fitWeight tol fitTol :=
  div_nonneg (dot_self_nonneg' tol) (mul_self_nonneg fitTol)

/-- C75: for an affine function, one step of an approximation goes from anywhere to where the misfit is least. -/
theorem C75_approx_step {solve : ((Fin n → K) → Fin n → K) → (Fin n → K) → Option (Fin n → K)} (hsolve : ∀ M b s, solve M b = some s → M s = b)
    {W : Matrix (Fin n) (Fin n) K} (hW : W.transpose = W) (hp : ∀ v : Fin n → K, 0 ≤ v ⬝ᵥ (W *ᵥ v)) (A : Matrix (Fin m) (Fin n) K) (b tol : Fin m → K)
    (fitTol : K) (x0 x s : Fin n → K)
    (h : approxStep solve W (fitWeight tol fitTol) x0 x (scaled (fun x => A *ᵥ x + b) tol x) (divideRows tol A) = some s) (y : Fin n → K) :
    misfit (fun x => A *ᵥ x + b) tol fitTol W x0 (fun k => x k + s k) ≤ misfit (fun x => A *ᵥ x + b) tol fitTol W x0 y := by
  have h1 := hsolve _ _ _ h
  have h2 := approx_min hW hp (fitWeight_nonneg tol fitTol) h1 (y - x - s)
  rw [misfit_eq, misfit_eq, scaled_affine]
  have e : y = (fun k => x k + (s + (y - x - s)) k) := by
    funext k
    simp
  rw [e, scaled_affine]
  exact h2

private theorem approxLoop_min {P : Problem K m n} {step : (Fin n → K) → (Fin m → K) → Matrix (Fin m) (Fin n) K → Option (Fin n → K)} {c : Controls K}
    {Best : (Fin n → K) → Prop} (hstep : ∀ x s, step x (scaled P.F P.tol x) (divideRows P.tol (P.grad x)) = some s → Best fun k => x k + s k)
    (hR : c.maxEvaluations ≤ c.maxRestarts) :
    ∀ (fuel : Nat) (ie ticker ev gr : Int) (x : Fin n → K) (J : Matrix (Fin m) (Fin n) K), ticker ≤ 0 → (ie < c.maxEvaluations ∨ Best x) →
    (approxLoop P step c fuel ie ticker x (scaled P.F P.tol x) J ev gr).out ≠ .nonfinite ∧
    ∀ y, (approxLoop P step c fuel ie ticker x (scaled P.F P.tol x) J ev gr).out = .ok y → Best y := by
  intro fuel
  induction fuel with
  | zero => intro ie ticker ev gr x J _ _; exact ⟨by simp [approxLoop], fun y h => by cases h⟩
  | succ fuel ih =>
    intro ie ticker ev gr x J htk hx
    unfold approxLoop
    by_cases hlt : ie < c.maxEvaluations
    · rw [if_pos hlt, decide_eq_true htk]
      dsimp only
      split
      · exact ⟨by simp, fun y h => by cases h⟩
      · rw [if_pos rfl, if_pos rfl, if_pos rfl, if_pos rfl]
        cases hs : step x (scaled P.F P.tol x) (divideRows P.tol (P.grad x)) with
        | none => exact ⟨by simp, fun y h => by cases h⟩
        | some s =>
          dsimp only
          split
          · rw [if_neg (by omega)]
            exact ih _ _ _ _ _ _ (by omega) (Or.inr (hstep x s hs))
          · exact ⟨by simp, fun y h => by cases h⟩
    · rw [if_neg hlt]
      refine ⟨by simp, fun y h => ?_⟩
      obtain rfl := Out.ok.inj h
      exact hx.resolve_left hlt

private theorem approxLoop_one {P : Problem K m n} {step : (Fin n → K) → (Fin m → K) → Matrix (Fin m) (Fin n) K → Option (Fin n → K)} {c : Controls K}
    {Best : (Fin n → K) → Prop} {x : Fin n → K} (hstep : ∀ s, step x (scaled P.F P.tol x) (divideRows P.tol (P.grad x)) = some s → Best fun k => x k + s k)
    (h3 : 3 < c.maxEvaluations) (h5 : c.maxEvaluations ≤ 5) (fuel : Nat) (ev gr : Int) (J : Matrix (Fin m) (Fin n) K) :
    (approxLoop P step c fuel 3 0 x (scaled P.F P.tol x) J ev gr).out ≠ .nonfinite ∧
    ∀ y, (approxLoop P step c fuel 3 0 x (scaled P.F P.tol x) J ev gr).out = .ok y → Best y := by
  have stop : ∀ (fuel : Nat) (tk ev gr : Int) (x : Fin n → K) (f : Fin m → K) (J : Matrix (Fin m) (Fin n) K), Best x →
      (approxLoop P step c fuel (3 + 1 + 1) tk x f J ev gr).out ≠ .nonfinite ∧ ∀ y, (approxLoop P step c fuel (3 + 1 + 1) tk x f J ev gr).out = .ok y → Best y := by
    intro fuel tk ev gr x f J hx
    cases fuel with
    | zero => exact ⟨by simp [approxLoop], fun y h => by cases h⟩
    | succ fuel =>
      unfold approxLoop
      rw [if_neg (by omega)]
      refine ⟨by simp, fun y h => ?_⟩
      obtain rfl := Out.ok.inj h
      exact hx
  cases fuel with
  | zero => exact ⟨by simp [approxLoop], fun y h => by cases h⟩
  | succ fuel =>
    unfold approxLoop
    rw [if_pos h3, decide_eq_true (le_refl (0 : Int))]
    dsimp only
    split
    · exact ⟨by simp, fun y h => by cases h⟩
    · rw [if_pos rfl, if_pos rfl, if_pos rfl, if_pos rfl]
      cases hs : step x (scaled P.F P.tol x) (divideRows P.tol (P.grad x)) with
      | none => exact ⟨by simp, fun y h => by cases h⟩
      | some s =>
        dsimp only
        have hbest := hstep s hs
        split
        · split
          · split
            · exact stop _ _ _ _ _ _ _ hbest
            · rw [if_neg (by omega)]
              refine ⟨by simp, fun y h => ?_⟩
              obtain rfl := Out.ok.inj h
              exact hbest
          · exact stop _ _ _ _ _ _ _ hbest
        · exact ⟨by simp, fun y h => by cases h⟩

/-- C75: for an affine function, an approximation with four or five evaluations, or with no fewer gradients than evaluations, answers where the misfit is
least, unless the solver fails.  Missing: all other limits. -/
theorem C75_approximate_affine_partial {solve : ((Fin n → K) → Fin n → K) → (Fin n → K) → Option (Fin n → K)} (hsolve : ∀ M b s, solve M b = some s → M s = b)
    {W : Matrix (Fin n) (Fin n) K} (hW : W.transpose = W) (hp : ∀ v : Fin n → K, 0 ≤ v ⬝ᵥ (W *ᵥ v)) (A : Matrix (Fin m) (Fin n) K) (b tol : Fin m → K)
    (fitTol : K) {dx : K} (hd : dx ≠ 0) (step) (guess : Fin n → K) (c : Controls K) (hc : c.valid) (h3 : 3 < c.maxEvaluations)
    (hlim : c.maxEvaluations ≤ 5 ∨ c.maxEvaluations ≤ c.maxRestarts) (fuel : Nat) (hf : c.maxEvaluations.toNat ≤ fuel) :
    (approximate ⟨fun x => A *ᵥ x + b, tol, gradient (fun x => A *ᵥ x + b) dx, step⟩ solve W fitTol guess c fuel).out = .unsolved ∨
    ∃ x, (approximate ⟨fun x => A *ᵥ x + b, tol, gradient (fun x => A *ᵥ x + b) dx, step⟩ solve W fitTol guess c fuel).out = .ok x ∧
      ∀ y, misfit (fun x => A *ᵥ x + b) tol fitTol W guess x ≤ misfit (fun x => A *ᵥ x + b) tol fitTol W guess y := by
  have hg : ∀ x, gradient (fun x => A *ᵥ x + b) dx x = A := C75_gradient_affine A b hd
  have hstep : ∀ x s, approxStep solve W (fitWeight tol fitTol) guess x (scaled (fun x => A *ᵥ x + b) tol x)
      (divideRows tol (gradient (fun x => A *ᵥ x + b) dx x)) = some s →
      ∀ y, misfit (fun x => A *ᵥ x + b) tol fitTol W guess (fun k => x k + s k) ≤ misfit (fun x => A *ᵥ x + b) tol fitTol W guess y := by
    intro x s h
    rw [hg] at h
    exact C75_approx_step hsolve hW hp A b tol fitTol guess x s h
  have key : (approximate ⟨fun x => A *ᵥ x + b, tol, gradient (fun x => A *ᵥ x + b) dx, step⟩ solve W fitTol guess c fuel).out ≠ .nonfinite ∧
      ∀ x, (approximate ⟨fun x => A *ᵥ x + b, tol, gradient (fun x => A *ᵥ x + b) dx, step⟩ solve W fitTol guess c fuel).out = .ok x →
        ∀ y, misfit (fun x => A *ᵥ x + b) tol fitTol W guess x ≤ misfit (fun x => A *ᵥ x + b) tol fitTol W guess y := by
    unfold approximate
    rw [if_pos hc.1]
    rcases hlim with h5 | hR
    · exact approxLoop_one (Best := fun x => ∀ y, misfit (fun x => A *ᵥ x + b) tol fitTol W guess x ≤ misfit (fun x => A *ᵥ x + b) tol fitTol W guess y)
        (hstep guess) h3 h5 _ _ _ _
    · exact approxLoop_min (Best := fun x => ∀ y, misfit (fun x => A *ᵥ x + b) tol fitTol W guess x ≤ misfit (fun x => A *ᵥ x + b) tol fitTol W guess y)
        hstep hR _ _ _ _ _ _ _ (le_refl 0) (Or.inl h3)
  rcases C75_approximate_ends ⟨fun x => A *ᵥ x + b, tol, gradient (fun x => A *ᵥ x + b) dx, step⟩ solve W fitTol guess c hc fuel hf with ⟨x, hx⟩ | h | h
  · exact Or.inr ⟨x, hx, key.2 x hx⟩
  · exact Or.inl h
  · exact absurd h key.1

private theorem approxLoop_stop {P : Problem K m n} {step : (Fin n → K) → (Fin m → K) → Matrix (Fin m) (Fin n) K → Option (Fin n → K)} {c : Controls K}
    {ie tk ev gr : Int} (h : c.maxEvaluations ≤ ie) (fuel : Nat) (x : Fin n → K) (f : Fin m → K) (J : Matrix (Fin m) (Fin n) K) :
    (approxLoop P step c (fuel + 1) ie tk x f J ev gr).out = .ok x := by
  unfold approxLoop
  rw [if_neg (by omega)]

/-- C75, not so: with up to three evaluations an approximation is its guess, however bad. -/
theorem C75_approximate_few_violated (P : Problem K m n) (solve : ((Fin n → K) → Fin n → K) → (Fin n → K) → Option (Fin n → K)) (W : Matrix (Fin n) (Fin n) K)
    (fitTol : K) (guess : Fin n → K) (c : Controls K) (hc : c.valid) (h3 : c.maxEvaluations ≤ 3) (fuel : Nat) :
    (approximate P solve W fitTol guess c (fuel + 1)).out = .ok guess := by
  unfold approximate
  rw [if_pos hc.1]
  exact approxLoop_stop h3 fuel _ _ _

private theorem secant_same {J J' : Matrix (Fin m) (Fin n) K} {s : Fin n → K} {df : Fin m → K} (hdf : df = J *ᵥ s) (h : secantUpdate J s df = some J') : J' = J := by
  unfold secantUpdate at h
  dsimp only at h
  split at h
  · cases h
  · rw [← Option.some.inj h]
    funext i j
    have : df i - s ⬝ᵥ J i = 0 := by
      rw [hdf, dotProduct_comm]
      exact sub_self _
    rw [this, zero_div, zero_mul, add_zero]

private theorem secant_none (J : Matrix (Fin m) (Fin n) K) (df : Fin m → K) {s : Fin n → K} (h : s = 0) : secantUpdate J s df = none := by
  subst h
  unfold secantUpdate
  simp

private theorem approxLoop_zero {P : Problem K m n} {step : (Fin n → K) → (Fin m → K) → Matrix (Fin m) (Fin n) K → Option (Fin n → K)} {c : Controls K}
    {ie tk ev gr : Int} (h : ie + 1 < c.maxEvaluations) (htk : 0 < tk) (htk' : c.maxRestarts < tk) (hev : 0 < ev) (fuel : Nat) (x : Fin n → K) (f : Fin m → K)
    (J : Matrix (Fin m) (Fin n) K) (hz : ∀ s, step x f J = some s → s = 0) :
    (approxLoop P step c (fuel + 1) ie tk x f J ev gr).out = .unsolved ∨ (approxLoop P step c (fuel + 1) ie tk x f J ev gr).out = .nonfinite := by
  unfold approxLoop
  rw [if_pos (by omega), decide_eq_false (by omega)]
  dsimp only
  rw [if_neg (by simp)]
  simp only [Bool.false_eq_true, if_false]
  cases hs : step x f J with
  | none => exact Or.inl rfl
  | some s =>
    dsimp only
    rw [if_pos hev, if_pos htk', secant_none J _ (hz s hs)]
    dsimp only
    rw [if_pos h]
    exact Or.inr rfl

private theorem approxLoop_two {solve : ((Fin n → K) → Fin n → K) → (Fin n → K) → Option (Fin n → K)} (hsolve : ∀ M b s, solve M b = some s → M s = b)
    {W : Matrix (Fin n) (Fin n) K} (hp : ∀ v : Fin n → K, v ≠ 0 → 0 < v ⬝ᵥ (W *ᵥ v)) (A : Matrix (Fin m) (Fin n) K) (b tol : Fin m → K)
    (fitTol : K) {dx : K} (hd : dx ≠ 0) (step) (guess : Fin n → K) (c : Controls K) (hc : c.valid) (h7 : 7 ≤ c.maxEvaluations)
    (hR : 2 * c.maxRestarts < c.maxEvaluations) (J0 : Matrix (Fin m) (Fin n) K) (fuel : Nat) :
    (approxLoop ⟨fun x => A *ᵥ x + b, tol, gradient (fun x => A *ᵥ x + b) dx, step⟩ (approxStep solve W (fitWeight tol fitTol) guess) c (fuel + 1 + 1) 3 0 guess
      (scaled (fun x => A *ᵥ x + b) tol guess) J0 (c.maxEvaluations - 1) c.maxRestarts).out = .unsolved ∨
    (approxLoop ⟨fun x => A *ᵥ x + b, tol, gradient (fun x => A *ᵥ x + b) dx, step⟩ (approxStep solve W (fitWeight tol fitTol) guess) c (fuel + 1 + 1) 3 0 guess
      (scaled (fun x => A *ᵥ x + b) tol guess) J0 (c.maxEvaluations - 1) c.maxRestarts).out = .nonfinite := by
  have hg : ∀ x, gradient (fun x => A *ᵥ x + b) dx x = A := C75_gradient_affine A b hd
  have hR0 := hc.2.1
  rw [approxLoop]
  rw [if_pos (by omega), decide_eq_true (le_refl (0 : Int))]
  dsimp only
  rw [if_neg (by simp [hR0])]
  rw [if_pos rfl, if_pos rfl, if_pos rfl, if_pos rfl, hg]
  generalize hjw : fitWeight tol fitTol = jw
  have hjw0 : 0 ≤ jw := hjw ▸ fitWeight_nonneg tol fitTol
  cases hs : approxStep solve W jw guess guess (scaled (fun x => A *ᵥ x + b) tol guess) (divideRows tol A) with
  | none => exact Or.inl rfl
  | some s =>
    dsimp only
    rw [if_pos (by omega), if_pos (by omega)]
    have hdf : (fun i => scaled (fun x => A *ᵥ x + b) tol (fun k => guess k + s k) i - scaled (fun x => A *ᵥ x + b) tol guess i) = divideRows tol A *ᵥ s := by
      rw [scaled_affine]
      funext i
      simp
    split
    · rename_i J' hJ'
      rw [secant_same hdf hJ']
      refine approxLoop_zero (by omega) (by omega) (by omega) (by omega) fuel _ _ _ fun s2 hs2 => ?_
      have e1 := hsolve _ _ _ hs
      have e2 := hsolve _ _ _ hs2
      by_contra hne
      have h1 := congrArg (s2 ⬝ᵥ ·) e2
      have hz : (fun i => (W *ᵥ (fun k => guess k - (guess k + s k))) i + -jw * (scaled (fun x => A *ᵥ x + b) tol (fun k => guess k + s k) ᵥ* divideRows tol A) i) = 0 := by
        funext i
        have e1i := congrFun e1 i
        have ew : (fun k => guess k - (guess k + s k)) = -s := by funext k; simp
        have e0 : (fun k => guess k - guess k) = 0 := by funext k; simp
        rw [ew, mulVec_neg, scaled_affine, add_vecMul]
        rw [e0, mulVec_zero] at e1i
        simp only [penalty, Pi.zero_apply, zero_add] at e1i
        simp only [Pi.neg_apply, Pi.add_apply, Pi.zero_apply]
        linear_combination -e1i
      dsimp only at h1
      rw [hz, dotProduct_zero, penalty_eq, dotProduct_add, dotProduct_smul, dotProduct_comm s2 (_ ᵥ* _), ← dotProduct_mulVec, smul_eq_mul] at h1
      have h2 := hp s2 hne
      have h3 := mul_nonneg hjw0 (dot_self_nonneg' (divideRows tol A *ᵥ s2))
      linarith
    · rw [if_pos (by omega)]
      exact Or.inr rfl

/-- C75, not so: for an affine function and positive definite weights, an approximation with at least seven evaluations and more than twice as many evaluations as
gradients never answers: its first step is exact, its second step is zero, and the Jacobian is then zeros over zeros. -/
theorem C75_approximate_affine_violated {solve : ((Fin n → K) → Fin n → K) → (Fin n → K) → Option (Fin n → K)} (hsolve : ∀ M b s, solve M b = some s → M s = b)
    {W : Matrix (Fin n) (Fin n) K} (hp : ∀ v : Fin n → K, v ≠ 0 → 0 < v ⬝ᵥ (W *ᵥ v)) (A : Matrix (Fin m) (Fin n) K) (b tol : Fin m → K)
    (fitTol : K) {dx : K} (hd : dx ≠ 0) (step) (guess : Fin n → K) (c : Controls K) (hc : c.valid) (h7 : 7 ≤ c.maxEvaluations)
    (hR : 2 * c.maxRestarts < c.maxEvaluations) (fuel : Nat) :
    (approximate ⟨fun x => A *ᵥ x + b, tol, gradient (fun x => A *ᵥ x + b) dx, step⟩ solve W fitTol guess c (fuel + 2)).out = .unsolved ∨
    (approximate ⟨fun x => A *ᵥ x + b, tol, gradient (fun x => A *ᵥ x + b) dx, step⟩ solve W fitTol guess c (fuel + 2)).out = .nonfinite := by
  unfold approximate
  rw [if_pos hc.1]
  exact approxLoop_two hsolve hp A b tol fitTol hd step guess c hc h7 hR _ fuel

/-! ### Instances -/

/-- A solver for one unknown. -/
def solveOne (M : (Fin 1 → ℚ) → Fin 1 → ℚ) (b : Fin 1 → ℚ) : Option (Fin 1 → ℚ) :=
  if M (fun _ => b 0 / M (fun _ => 1) 0) = b then some fun _ => b 0 / M (fun _ => 1) 0 else none

example : ∀ M b s, solveOne M b = some s → M s = b := by
  intro M b s h
  unfold solveOne at h
  split at h
  · rename_i e
    rw [← Option.some.inj h]
    exact e
  · cases h

example : (Controls.default 10 4 : Controls ℚ).valid ∧ 7 ≤ (Controls.default 10 4 : Controls ℚ).maxEvaluations ∧
    2 * (Controls.default 10 4 : Controls ℚ).maxRestarts < (Controls.default 10 4 : Controls ℚ).maxEvaluations :=
  ⟨⟨by decide, by decide, ⟨by norm_num [Controls.default], by norm_num [Controls.default]⟩, by norm_num [Controls.default], by norm_num [Controls.default]⟩,
    by decide, by decide⟩

example : ∀ v : Fin 1 → ℚ, v ≠ 0 → 0 < v ⬝ᵥ ((fun _ _ => 2 : Matrix (Fin 1) (Fin 1) ℚ) *ᵥ v) := by
  intro v hv
  have h0 : v 0 ≠ 0 := fun h => hv (funext fun i => by obtain rfl : i = 0 := Subsingleton.elim _ _; exact h)
  simp only [dotProduct, mulVec, Finset.univ_unique, Finset.sum_singleton]
  have := mul_self_pos.2 h0
  show 0 < v 0 * (2 * v 0)
  linarith

example : (fun _ : Fin 1 => (1 : ℚ)) ≠ 0 := fun h => by have := congrFun h 0; norm_num at this

/-- The affine function `2 x - 6`, from zero with unit weight: the step is three. -/
example : qpStep (some : (Fin 1 → ℚ) → _) (fun (q : Matrix (Fin 1) (Fin 1) ℚ) b => some fun _ => b 0 / q 0 0) (fun _ => -6) (fun _ _ => 2) = some fun _ => 3 := by
  simp only [qpStep, qForm, Option.isSome_some, implies_true, if_true, Option.bind_some, Option.getD_some]
  refine congrArg some (funext fun k => ?_)
  obtain rfl : k = 0 := Subsingleton.elim _ _
  simp only [vecMul, dotProduct, Finset.univ_unique, Finset.sum_singleton, le_refl, if_true]
  norm_num

end Dal
