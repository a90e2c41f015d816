import Verif.Numeric.UnderModel
import Mathlib.Tactic.Ring
import Mathlib.Tactic.Linarith
import Mathlib.Tactic.FieldSimp
import Mathlib.Tactic.Positivity
import Mathlib.LinearAlgebra.Matrix.DotProduct

/-! # Lemmas on the underdetermined search -/

namespace Dal.Under

open Matrix

variable {K : Type} [Field K] [LinearOrder K] [IsStrictOrderedRing K] {m n : Nat}

/-! ### Backtracking -/

theorem backtrack_found {debug : Bool} {P : Problem K m n} {c : Controls K} {xOld : Fin n → K} {fOld : Fin m → K} {J : Matrix (Fin m) (Fin n) K}
    {approx : Bool} {x : Fin n → K} : ∀ (t : Nat) (s : Fin n → K) (restart : Bool) (ev : Int),
    (backtrack debug P c xOld fOld J approx t s restart ev).1 = .found x → ∀ i, scaled P.F P.tol x i < 1 ∧ -1 < scaled P.F P.tol x i := by
  intro t
  induction t with
  | zero => intro s restart ev h; cases h
  | succ t ih =>
    intro s restart ev h
    unfold backtrack at h
    by_cases h0 : 0 < ev
    · rw [if_pos h0] at h
      dsimp only at h
      split at h
      · cases h
      · split at h
        · rename_i hf
          obtain rfl := Search.found.inj h
          exact hf
        · split at h
          · split at h
            · cases h
            · split at h <;> cases h
          · split at h
            · cases h
            · exact ih _ _ _ h
    · rw [if_neg h0] at h
      cases h

/-- Where backtracking can end, with the evaluations left. -/
theorem backtrack_evals {debug : Bool} {P : Problem K m n} {c : Controls K} {xOld : Fin n → K} {fOld : Fin m → K} {J : Matrix (Fin m) (Fin n) K}
    {approx : Bool} : ∀ (t : Nat) (s : Fin n → K) (restart : Bool) (ev : Int), 0 ≤ ev →
    0 ≤ (backtrack debug P c xOld fOld J approx t s restart ev).2 ∧ (backtrack debug P c xOld fOld J approx t s restart ev).2 ≤ ev ∧
    ((backtrack debug P c xOld fOld J approx t s restart ev).1 = .noEvaluations → (backtrack debug P c xOld fOld J approx t s restart ev).2 = 0) ∧
    (0 < t → (backtrack debug P c xOld fOld J approx t s restart ev).1 = .noEvaluations ∨
      (backtrack debug P c xOld fOld J approx t s restart ev).2 < ev) := by
  intro t
  induction t with
  | zero =>
    intro s restart ev h
    exact ⟨h, Int.le_refl _, (fun e => by cases e), fun e => absurd e (Nat.lt_irrefl 0)⟩
  | succ t ih =>
    intro s restart ev h
    unfold backtrack
    by_cases h0 : 0 < ev
    · rw [if_pos h0]
      dsimp only
      have hok : ∀ o : Search K m n, o ≠ .noEvaluations → (0 ≤ ((o, ev - 1) : Search K m n × Int).2 ∧ ((o, ev - 1) : Search K m n × Int).2 ≤ ev ∧
          (((o, ev - 1) : Search K m n × Int).1 = .noEvaluations → ((o, ev - 1) : Search K m n × Int).2 = 0) ∧
          (0 < t + 1 → ((o, ev - 1) : Search K m n × Int).1 = .noEvaluations ∨ ((o, ev - 1) : Search K m n × Int).2 < ev)) :=
        fun o ho => ⟨by dsimp only; omega, by dsimp only; omega, fun e => absurd e ho, fun _ => Or.inr (by dsimp only; omega)⟩
      split
      · exact hok _ (by simp)
      · split
        · exact hok _ (by simp)
        · split
          · split
            · exact hok _ (by simp)
            · split
              · exact hok _ (by simp)
              · exact hok _ (by simp)
          · split
            · exact hok _ (by simp)
            · obtain ⟨a1, a2, a3, -⟩ := ih (fun i => s i * (1 - min c.maxBacktrack (min (kMin fOld (scaled P.F P.tol fun k => xOld k + s k))
                  (2 * (kMin fOld (scaled P.F P.tol fun k => xOld k + s k) - c.backtrackTolerance)))))
                (restart || decide (c.restartTolerance < kMin fOld (scaled P.F P.tol fun k => xOld k + s k))) (ev - 1) (by omega)
              exact ⟨a1, by omega, a3, fun _ => Or.inr (by omega)⟩
    · rw [if_neg h0]
      exact ⟨h, Int.le_refl _, fun _ => by dsimp only; omega, fun _ => Or.inl rfl⟩

theorem dot_self_nonneg' (v : Fin m → K) : 0 ≤ v ⬝ᵥ v := Finset.sum_nonneg fun i _ => mul_self_nonneg (v i)

theorem dot_self_zero {v : Fin m → K} (h : v ⬝ᵥ v = 0) (i : Fin m) : v i = 0 :=
  mul_self_eq_zero.1 ((Finset.sum_eq_zero_iff_of_nonneg fun i _ => mul_self_nonneg (v i)).1 h i (Finset.mem_univ i))

theorem dot_self_pos {v : Fin m → K} {i : Fin m} (h : v i ≠ 0) : 0 < v ⬝ᵥ v :=
  lt_of_le_of_ne (dot_self_nonneg' v) fun e => h (dot_self_zero e.symm i)

/-- Backtracking from a point whose value is known never divides zero by zero, and a step taken is to a point whose value is known. -/
theorem backtrack_regular {debug : Bool} {P : Problem K m n} {c : Controls K} {xOld : Fin n → K} {J : Matrix (Fin m) (Fin n) K}
    {approx : Bool} (hb : c.backtrackTolerance ≤ 1 / 2) : ∀ (t : Nat) (s : Fin n → K) (restart : Bool) (ev : Int),
    (backtrack debug P c xOld (scaled P.F P.tol xOld) J approx t s restart ev).1 ≠ .nonfinite ∧
    ∀ x f J' a r, (backtrack debug P c xOld (scaled P.F P.tol xOld) J approx t s restart ev).1 = .stepped x f J' a r → f = scaled P.F P.tol x := by
  intro t
  induction t with
  | zero => intro s restart ev; exact ⟨by simp [backtrack], fun x f J' a r h => by simp [backtrack] at h⟩
  | succ t ih =>
    intro s restart ev
    unfold backtrack
    by_cases h0 : 0 < ev
    · rw [if_pos h0]
      dsimp only
      split
      · exact ⟨by simp, fun x f J' a r h => by cases h⟩
      · split
        · exact ⟨by simp, fun x f J' a r h => by cases h⟩
        · rename_i hnf
          split
          · rename_i hk
            split
            · refine ⟨by simp, fun x f J' a r h => ?_⟩
              obtain ⟨rfl, rfl, -⟩ := Search.stepped.inj h
              rfl
            · split
              · refine ⟨by simp, fun x f J' a r h => ?_⟩
                obtain ⟨rfl, rfl, -⟩ := Search.stepped.inj h
                rfl
              · rename_i hs
                exfalso
                have hz : s ⬝ᵥ s = 0 := by
                  unfold secantUpdate at hs
                  dsimp only at hs
                  by_contra hne
                  rw [if_neg hne] at hs
                  cases hs
                have hx : (fun k => xOld k + s k) = xOld := by
                  funext k
                  rw [dot_self_zero hz k, add_zero]
                rw [hx] at hk hnf
                have hpos : 0 < scaled P.F P.tol xOld ⬝ᵥ scaled P.F P.tol xOld := by
                  by_contra hle
                  have h00 : scaled P.F P.tol xOld ⬝ᵥ scaled P.F P.tol xOld = 0 := le_antisymm (not_lt.1 hle) (dot_self_nonneg' _)
                  refine hnf fun i => ?_
                  rw [dot_self_zero h00 i]
                  exact ⟨zero_lt_one, by linarith [zero_lt_one (α := K)]⟩
                have : kMin (scaled P.F P.tol xOld) (scaled P.F P.tol xOld) = 1 / 2 := by
                  unfold kMin
                  rw [sub_self, zero_add, div_eq_iff hpos.ne']
                  ring
                rw [this] at hk
                exact absurd hk (not_lt.2 hb)
          · split
            · exact ⟨by simp, fun x f J' a r h => by cases h⟩
            · exact ih _ _ _
    · rw [if_neg h0]
      exact ⟨by simp, fun x f J' a r h => by cases h⟩

/-- Steps are only taken by tries. -/
theorem backtrack_zero {debug : Bool} {P : Problem K m n} {c : Controls K} {xOld : Fin n → K} {fOld : Fin m → K} {J : Matrix (Fin m) (Fin n) K}
    {approx : Bool} (s : Fin n → K) (restart : Bool) (ev : Int) :
    backtrack debug P c xOld fOld J approx 0 s restart ev = (.none restart, ev) := rfl

/-! ### Algebra -/

theorem psd_min {W : Matrix (Fin n) (Fin n) K} (hs : W.transpose = W) (hp : ∀ v : Fin n → K, 0 ≤ v ⬝ᵥ (W *ᵥ v)) (s d : Fin n → K) (h : d ⬝ᵥ (W *ᵥ s) = 0) :
    s ⬝ᵥ (W *ᵥ s) ≤ (s + d) ⬝ᵥ (W *ᵥ (s + d)) := by
  have hsym : s ⬝ᵥ (W *ᵥ d) = d ⬝ᵥ (W *ᵥ s) := by
    rw [dotProduct_mulVec, ← mulVec_transpose, hs, dotProduct_comm]
  rw [mulVec_add, dotProduct_add, add_dotProduct, add_dotProduct, hsym, h]
  linarith [hp d]

theorem qForm_apply {wSolve : (Fin n → K) → Option (Fin n → K)} {W : Matrix (Fin n) (Fin n) K} (hW : W.transpose = W)
    (hw : ∀ b x, wSolve b = some x → W *ᵥ x = b) {J : Matrix (Fin m) (Fin n) K} {q : Matrix (Fin m) (Fin m) K} (h : qForm wSolve J = some q) :
    ∃ X : Fin m → Fin n → K, (∀ i, W *ᵥ X i = J i) ∧ ∀ i j, q i j = X j ⬝ᵥ J i := by
  unfold qForm at h
  split at h
  · rename_i hall
    have hX : ∀ i, W *ᵥ ((wSolve (J i)).getD 0) = J i := by
      intro i
      obtain ⟨x, hx⟩ := Option.isSome_iff_exists.1 (hall i)
      rw [hx]
      exact hw _ _ hx
    refine ⟨fun i => (wSolve (J i)).getD 0, hX, fun i j => ?_⟩
    rw [← Option.some.inj h]
    dsimp only
    split
    · have key : ∀ a b : Fin n → K, a ⬝ᵥ (W *ᵥ b) = b ⬝ᵥ (W *ᵥ a) := fun a b => by
        rw [dotProduct_mulVec, ← mulVec_transpose, hW, dotProduct_comm]
      have e := key ((wSolve (J i)).getD 0) ((wSolve (J j)).getD 0)
      rw [hX j, hX i] at e
      exact e
    · rfl
  · cases h

theorem qpStep_spec {wSolve : (Fin n → K) → Option (Fin n → K)} {W : Matrix (Fin n) (Fin n) K} (hW : W.transpose = W)
    (hw : ∀ b x, wSolve b = some x → W *ᵥ x = b) {chol : Matrix (Fin m) (Fin m) K → (Fin m → K) → Option (Fin m → K)}
    (hc : ∀ q b y, chol q b = some y → q *ᵥ y = b) {f : Fin m → K} {J : Matrix (Fin m) (Fin n) K} {s : Fin n → K} (h : qpStep wSolve chol f J = some s) :
    J *ᵥ s = -f ∧ ∃ y, W *ᵥ s = y ᵥ* J := by
  unfold qpStep at h
  obtain ⟨q, hq, h⟩ := Option.bind_eq_some_iff.1 h
  obtain ⟨y, hy, h⟩ := Option.bind_eq_some_iff.1 h
  obtain ⟨X, hX, hqX⟩ := qForm_apply hW hw hq
  have hy' := hc _ _ _ hy
  have hs := hw _ _ h
  refine ⟨?_, y, hs⟩
  funext i
  have h1 : (J *ᵥ s) i = X i ⬝ᵥ (y ᵥ* J) := by
    rw [← hs, dotProduct_mulVec, ← mulVec_transpose, hW, hX]
    rfl
  have h2 : (q *ᵥ y) i = X i ⬝ᵥ (y ᵥ* J) := by
    have h3 : (q *ᵥ y) i = ∑ j, (X j ⬝ᵥ J i) * y j := by
      show ∑ j, q i j * y j = _
      exact Finset.sum_congr rfl fun j _ => by rw [hqX]
    have h4 : X i ⬝ᵥ (y ᵥ* J) = ∑ j, y j * (X i ⬝ᵥ J j) := by
      rw [dotProduct_comm, ← dotProduct_mulVec]
      show ∑ j, y j * (J j ⬝ᵥ X i) = _
      exact Finset.sum_congr rfl fun j _ => by rw [dotProduct_comm]
    rw [h3, h4]
    refine Finset.sum_congr rfl fun j _ => ?_
    rw [mul_comm, ← hX i, ← hX j, dotProduct_mulVec, ← mulVec_transpose, hW, dotProduct_comm]
  rw [h1, ← h2, hy']
  show f i * -1 = -f i
  ring

end Dal.Under
