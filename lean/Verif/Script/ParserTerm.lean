import Verif.Script.ParserLemmas

/-! # The parser always stops

A depth of calls linear in the number of tokens is enough, whatever the tokens. -/

namespace Dal.Script

variable {D : Type} {v : PEnv D}

/-- Not out of depth, and on success at most `k` tokens are left. -/
def Fine {α : Type} (r : Res (α × List Tok)) (k : Nat) : Prop :=
  match r with
  | .ok q => q.2.length ≤ k
  | .throw => True
  | .ub => True
  | .fuel => False

theorem Fine.bind {α β : Type} {r : Res (α × List Tok)} {f : α × List Tok → Res (β × List Tok)} {j k : Nat} (h : Fine r j)
    (hf : ∀ q, q.2.length ≤ j → Fine (f q) k) : Fine (r.bind f) k := by
  cases r with
  | ok q => exact hf q h
  | throw => trivial
  | ub => trivial
  | fuel => exact h

theorem Fine.mono {α : Type} {r : Res (α × List Tok)} {j k : Nat} (h : Fine r j) (hjk : j ≤ k) : Fine r k := by
  cases r with
  | ok q => exact Nat.le_trans h hjk
  | throw => trivial
  | ub => trivial
  | fuel => exact h

theorem findClose_len : ∀ (k : Nat) (l : List Tok) (e : Nat),
    findClose k l e ≠ .fuel ∧ ∀ c, findClose k l e = .ok c → c.length ≤ l.length := by
  intro k l
  induction l generalizing k with
  | nil =>
    intro e
    rw [findClose]
    split <;> simp
  | cons t r ih =>
    intro e
    rw [findClose]
    split
    · simp
    · split
      · exact ⟨(ih _ e).1, fun c hc => Nat.le_succ_of_le ((ih _ e).2 c hc)⟩
      · split
        · split
          · refine ⟨by simp, fun c hc => ?_⟩
            injection hc with hc
            rw [← hc]
            exact Nat.le_refl _
          · exact ⟨(ih _ e).1, fun c hc => Nat.le_succ_of_le ((ih _ e).2 c hc)⟩
        · exact ⟨(ih _ e).1, fun c hc => Nat.le_succ_of_le ((ih _ e).2 c hc)⟩

theorem close_fine {α : Type} {k : Nat} {l : List Tok} {e : Nat} {f : List Tok → Res (α × List Tok)} {j : Nat}
    (hf : ∀ c, c.length ≤ l.length → Fine (f c) j) : Fine ((findClose k l e).bind f) j := by
  have h := findClose_len k l e
  cases hr : findClose k l e with
  | ok c => exact hf c (h.2 c hr)
  | throw => trivial
  | ub => trivial
  | fuel => exact absurd hr h.1

/-- The arguments of a function do not run out of depth. -/
def FineA {α : Type} (r : Res α) : Prop := r ≠ .fuel

theorem FineA.bind {α β : Type} {r : Res α} {f : α → Res (β × List Tok)} {k : Nat} (h : FineA r) (hf : ∀ q, Fine (f q) k) :
    Fine (r.bind f) k := by
  cases r with
  | ok q => exact hf q
  | throw => trivial
  | ub => trivial
  | fuel => exact absurd rfl h

theorem Fine.bindA {α β : Type} {r : Res (α × List Tok)} {f : α × List Tok → Res β} {j : Nat} (h : Fine r j)
    (hf : ∀ q, q.2.length ≤ j → FineA (f q)) : FineA (r.bind f) := by
  cases r with
  | ok q => exact hf q h
  | throw => simp [FineA, Res.bind]
  | ub => simp [FineA, Res.bind]
  | fuel => exact absurd h (by simp [Fine])

theorem pVar_fine (cur : List Tok) : Fine (pVar v cur) (cur.length - 1) := by
  unfold pVar
  split
  · trivial
  · split <;> simp [Fine]
  · split <;> simp [Fine]
  · trivial

/-- What is shown of the nine functions together. -/
structure AllFine (v : PEnv D) (n : Nat) : Prop where
  pExpr : ∀ cur e, 10 * cur.length + 8 ≤ n → Fine (pExpr v n cur e) (cur.length - 1)
  loop1 : ∀ x cur e, 10 * cur.length + 1 ≤ n → Fine (loop1 v n x cur e) cur.length
  pL2 : ∀ cur e, 10 * cur.length + 7 ≤ n → Fine (pL2 v n cur e) (cur.length - 1)
  loop2 : ∀ x cur e, 10 * cur.length + 1 ≤ n → Fine (loop2 v n x cur e) cur.length
  pL3 : ∀ cur e, 10 * cur.length + 6 ≤ n → Fine (pL3 v n cur e) (cur.length - 1)
  loop3 : ∀ x cur e, 10 * cur.length + 1 ≤ n → Fine (loop3 v n x cur e) cur.length
  pL4 : ∀ cur e, 10 * cur.length + 5 ≤ n → Fine (pL4 v n cur e) (cur.length - 1)
  pPrim : ∀ cur e, 10 * cur.length + 4 ≤ n → Fine (pPrim v n cur e) (cur.length - 1)
  pFunc : ∀ k cur e, 10 * cur.length + 3 ≤ n → Fine (pFunc v n k cur e) cur.length
  pArgs : ∀ cur c e, 10 * cur.length + 9 ≤ n → FineA (pArgs v n cur c e)

theorem allFine (n : Nat) : AllFine v n := by
  induction n with
  | zero => constructor <;> intros <;> omega
  | succ n ih =>
    constructor
    · intro cur e h
      rw [Dal.Script.pExpr]
      refine (ih.pL2 cur e (by omega)).bind fun q hq => ?_
      exact (ih.loop1 q.1 q.2 e (by omega)).mono hq
    · intro x cur e h
      rw [Dal.Script.loop1.eq_def]
      dsimp only
      split
      · exact Nat.le_refl _
      · split
        · trivial
        · split
          · trivial
          · simp only [List.length_cons] at h
            refine (ih.pL2 _ e (by omega)).bind fun q hq => ?_
            exact (ih.loop1 _ q.2 e (by omega)).mono (by simp only [List.length_cons]; omega)
        · split
          · trivial
          · simp only [List.length_cons] at h
            refine (ih.pL2 _ e (by omega)).bind fun q hq => ?_
            exact (ih.loop1 _ q.2 e (by omega)).mono (by simp only [List.length_cons]; omega)
        · exact Nat.le_refl _
    · intro cur e h
      rw [Dal.Script.pL2]
      refine (ih.pL3 cur e (by omega)).bind fun q hq => ?_
      exact (ih.loop2 q.1 q.2 e (by omega)).mono hq
    · intro x cur e h
      rw [Dal.Script.loop2.eq_def]
      dsimp only
      split
      · exact Nat.le_refl _
      · split
        · trivial
        · split
          · trivial
          · simp only [List.length_cons] at h
            refine (ih.pL3 _ e (by omega)).bind fun q hq => ?_
            exact (ih.loop2 _ q.2 e (by omega)).mono (by simp only [List.length_cons]; omega)
        · split
          · trivial
          · simp only [List.length_cons] at h
            refine (ih.pL3 _ e (by omega)).bind fun q hq => ?_
            exact (ih.loop2 _ q.2 e (by omega)).mono (by simp only [List.length_cons]; omega)
        · exact Nat.le_refl _
    · intro cur e h
      rw [Dal.Script.pL3]
      refine (ih.pL4 cur e (by omega)).bind fun q hq => ?_
      exact (ih.loop3 q.1 q.2 e (by omega)).mono hq
    · intro x cur e h
      rw [Dal.Script.loop3.eq_def]
      dsimp only
      split
      · exact Nat.le_refl _
      · split
        · trivial
        · split
          · trivial
          · simp only [List.length_cons] at h
            refine (ih.pL4 _ e (by omega)).bind fun q hq => ?_
            exact (ih.loop3 _ q.2 e (by omega)).mono (by simp only [List.length_cons]; omega)
        · exact Nat.le_refl _
    · intro cur e h
      rw [Dal.Script.pL4.eq_def]
      dsimp only
      split
      · trivial
      · split
        · trivial
        · split
          · trivial
          · simp only [List.length_cons] at h
            refine (ih.pL4 _ e (by omega)).bind fun q hq => ?_
            simp only [Fine, List.length_cons]
            omega
      · split
        · trivial
        · split
          · trivial
          · simp only [List.length_cons] at h
            refine (ih.pL4 _ e (by omega)).bind fun q hq => ?_
            simp only [Fine, List.length_cons]
            omega
      · simp only [List.length_cons] at h
        refine close_fine fun c hc => ?_
        refine (ih.pExpr _ _ (by omega)).bind fun q hq => ?_
        simp only [Fine, List.length_cons, List.length_tail]
        omega
      · exact ih.pPrim _ e (by omega)
    · intro cur e h
      rw [Dal.Script.pPrim.eq_def]
      dsimp only
      split
      · split
        · simp [Fine]
        · trivial
      · split
        · trivial
        · refine close_fine fun c hc => ?_
          split
          · simp only [Fine, List.length_cons, List.length_tail]
            omega
          · trivial
          · trivial
        · trivial
      · split
        · simp only [List.length_cons] at h
          exact (ih.pFunc _ _ e (by omega)).mono (by simp)
        · trivial
      · exact pVar_fine _
    · intro k cur e h
      rw [Dal.Script.pFunc.eq_def]
      dsimp only
      split
      · trivial
      · simp only [List.length_cons] at h
        refine close_fine fun c hc => ?_
        refine (ih.pArgs _ _ _ (by omega)).bind fun q => ?_
        split
        · simp only [Fine, List.length_cons, List.length_tail]
          omega
        · trivial
      · trivial
    · intro cur c e h
      rw [Dal.Script.pArgs.eq_def]
      dsimp only
      split
      · simp [FineA]
      · refine (ih.pExpr cur e (by omega)).bindA fun q hq => ?_
        split
        · simp [FineA]
        · next r hr =>
          rw [hr, List.length_cons] at hq
          have := ih.pArgs r c e (by omega)
          intro hf
          cases hp : Dal.Script.pArgs v n r c e with
          | fuel => exact this hp
          | ok _ => simp [hp, Res.bind] at hf
          | throw => simp [hp, Res.bind] at hf
          | ub => simp [hp, Res.bind] at hf
        · split <;> simp [FineA]

theorem pOpt_fine : ∀ (m : Nat) (w : D) (cur : List Tok) (e : Nat), cur.length ≤ m → Fine (pOpt v w cur e) cur.length := by
  intro m
  induction m with
  | zero =>
    intro w cur e h
    have : cur = [] := List.length_eq_zero_iff.1 (by omega)
    subst this
    rw [pOpt]
    trivial
  | succ m ih =>
    intro w cur e h
    rw [pOpt.eq_def]
    split
    · trivial
    · split
      · split
        · split <;> trivial
        · split
          · trivial
          · split
            · simp only [List.length_cons] at h ⊢
              exact (ih _ _ _ (by omega)).mono (by omega)
            · trivial
      · exact Nat.le_refl _

theorem pElem_fine {n : Nat} {cur : List Tok} (e : Nat) (h : 10 * cur.length + 8 ≤ n) : Fine (pElem v n cur e) (cur.length - 1) := by
  unfold pElem
  refine ((allFine n).pExpr cur e h).bind fun q hq => ?_
  split
  · trivial
  · split
    · trivial
    · next t r hr =>
      rw [hr, List.length_cons] at hq
      split
      · trivial
      · refine ((allFine n).pExpr r e (by omega)).bind fun q' hq' => ?_
        refine (pOpt_fine _ _ _ e (Nat.le_refl _)).bind fun w hw => ?_
        split
        · simp only [Fine]
          omega
        · trivial

/-- What is shown of the functions reading conditions. -/
structure AllFineC (v : PEnv D) (n : Nat) : Prop where
  pCond : ∀ cur e, 10 * cur.length + 11 ≤ n → Fine (pCond v n cur e) (cur.length - 1)
  loopOr : ∀ x cur e, 10 * cur.length + 1 ≤ n → Fine (loopOr v n x cur e) cur.length
  pCond2 : ∀ cur e, 10 * cur.length + 10 ≤ n → Fine (pCond2 v n cur e) (cur.length - 1)
  loopAnd : ∀ x cur e, 10 * cur.length + 1 ≤ n → Fine (loopAnd v n x cur e) cur.length
  pCondP : ∀ cur e, 10 * cur.length + 9 ≤ n → Fine (pCondP v n cur e) (cur.length - 1)

theorem allFineC (n : Nat) : AllFineC v n := by
  induction n with
  | zero => constructor <;> intros <;> omega
  | succ n ih =>
    constructor
    · intro cur e h
      rw [Dal.Script.pCond]
      refine (ih.pCond2 cur e (by omega)).bind fun q hq => ?_
      exact (ih.loopOr q.1 q.2 e (by omega)).mono hq
    · intro x cur e h
      rw [Dal.Script.loopOr.eq_def]
      dsimp only
      split
      · exact Nat.le_refl _
      · split
        · trivial
        · split
          · trivial
          · simp only [List.length_cons] at h
            refine (ih.pCond2 _ e (by omega)).bind fun q hq => ?_
            exact (ih.loopOr _ q.2 e (by omega)).mono (by simp only [List.length_cons]; omega)
        · exact Nat.le_refl _
    · intro cur e h
      rw [Dal.Script.pCond2]
      refine (ih.pCondP cur e (by omega)).bind fun q hq => ?_
      exact (ih.loopAnd q.1 q.2 e (by omega)).mono hq
    · intro x cur e h
      rw [Dal.Script.loopAnd.eq_def]
      dsimp only
      split
      · exact Nat.le_refl _
      · split
        · trivial
        · split
          · trivial
          · simp only [List.length_cons] at h
            refine (ih.pCondP _ e (by omega)).bind fun q hq => ?_
            exact (ih.loopAnd _ q.2 e (by omega)).mono (by simp only [List.length_cons]; omega)
        · exact Nat.le_refl _
    · intro cur e h
      rw [Dal.Script.pCondP.eq_def]
      dsimp only
      split
      · trivial
      · simp only [List.length_cons] at h
        refine close_fine fun c hc => ?_
        refine (ih.pCond _ _ (by omega)).bind fun q hq => ?_
        simp only [Fine, List.length_cons, List.length_tail]
        omega
      · exact pElem_fine e (by omega)

/-- What is shown of the functions reading statements. -/
structure AllFineS (v : PEnv D) (n : Nat) : Prop where
  pStmt : ∀ cur e, 10 * cur.length + 12 ≤ n → Fine (pStmt v n cur e) (cur.length - 1)
  pStmts : ∀ m cur e, 10 * cur.length + 13 ≤ n → Fine (pStmts v n m cur e) cur.length

theorem allFineS (n : Nat) : AllFineS v n := by
  induction n with
  | zero => constructor <;> intros <;> omega
  | succ n ih =>
    constructor
    · intro cur e h
      rw [Dal.Script.pStmt.eq_def]
      dsimp only
      split
      · next r =>
        simp only [List.length_cons] at h
        split
        · trivial
        · refine ((allFineC n).pCond r e (by omega)).bind fun q hq => ?_
          split
          · next r2 hr2 =>
            rw [hr2, List.length_cons] at hq
            split
            · trivial
            · refine (ih.pStmts .thn r2 e (by omega)).bind fun t ht => ?_
              split
              · trivial
              · split
                · next r3 hr3 =>
                  rw [hr3, List.length_cons] at ht
                  refine (ih.pStmts .els r3 e (by omega)).bind fun f hf => ?_
                  split
                  · trivial
                  · simp only [Fine, List.length_cons, List.length_tail]
                    omega
                · simp only [Fine, List.length_cons, List.length_tail]
                  omega
          · trivial
      · refine (pVar_fine cur).bind fun x hx => ?_
        split
        · trivial
        · split
          · next r hr =>
            rw [hr, List.length_cons] at hx
            split
            · trivial
            · refine ((allFine n).pExpr r e (by omega)).bind fun q hq => ?_
              simp only [Fine]
              omega
          · next r hr =>
            rw [hr, List.length_cons] at hx
            split
            · trivial
            · refine ((allFine n).pExpr r e (by omega)).bind fun q hq => ?_
              simp only [Fine]
              omega
          · trivial
    · intro m cur e h
      rw [Dal.Script.pStmts.eq_def]
      dsimp only
      split
      · exact Nat.le_refl _
      · split
        · trivial
        · next t r _ =>
          simp only [List.length_cons] at h
          split
          · exact Nat.le_refl _
          · refine (ih.pStmt _ e (by simp only [List.length_cons]; omega)).bind fun s hs => ?_
            simp only [List.length_cons] at hs
            refine (ih.pStmts m s.2 e (by omega)).bind fun ss hss => ?_
            simp only [Fine, List.length_cons]
            omega

end Dal.Script
