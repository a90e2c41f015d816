import Mathlib.Tactic.Tauto
import Mathlib.Tactic.DefEqTransformations
import Verif.Script.ParserSpec

/-! # Lemmas on the parser -/

namespace Dal.Script

variable {D : Type} {v : PEnv D}

/-- With enough depth the function gives `r`. -/
def Runs {α : Type} (f : Nat → Res α) (r : Res α) : Prop := ∃ N, ∀ n, N ≤ n → f n = r

theorem Runs.succ {α : Type} {f : Nat → Res α} {r : Res α} (h : Runs (fun n => f (n + 1)) r) : Runs f r := by
  obtain ⟨N, hN⟩ := h
  refine ⟨N + 1, fun n hn => ?_⟩
  obtain ⟨m, rfl⟩ : ∃ m, n = m + 1 := ⟨n - 1, by omega⟩
  exact hN m (by omega)

theorem Runs.bind {α β : Type} {f : Nat → Res α} {a : α} {g : α → Nat → Res β} {r : Res β} (hf : Runs f (.ok a)) (hg : Runs (g a) r) :
    Runs (fun n => (f n).bind fun x => g x n) r := by
  obtain ⟨N, hN⟩ := hf
  obtain ⟨M, hM⟩ := hg
  refine ⟨max N M, fun n hn => ?_⟩
  simp only [hN n (by omega), Res.bind]
  exact hM n (by omega)

theorem Res.bind_ok {α β : Type} (a : α) (f : α → Res β) : (Res.ok a).bind f = f a := rfl

theorem Kw.isFunc_simp : Kw.isFunc .spot = true ∧ Kw.isFunc .log_ = true ∧ Kw.isFunc .sqrt_ = true ∧ Kw.isFunc .exp_ = true ∧
    Kw.isFunc .max_ = true ∧ Kw.isFunc .min_ = true := by decide

theorem Runs.const {α : Type} (r : Res α) : Runs (fun _ => r) r := ⟨0, fun _ _ => rfl⟩

theorem Runs.unique {α : Type} {f : Nat → Res α} {r s : Res α} (h : Runs f r) (k : Runs f s) : r = s := by
  obtain ⟨N, hN⟩ := h
  obtain ⟨M, hM⟩ := k
  rw [← hN (max N M) (by omega), hM (max N M) (by omega)]

mutual
theorem G1.ne : {a : List Tok} → {x : PExpr D} → G1 v a x → a ≠ []
  | _, _, .add _ _ => by simp
  | _, _, .sub _ _ => by simp
  | _, _, .up h => G2.ne h
theorem G2.ne : {a : List Tok} → {x : PExpr D} → G2 v a x → a ≠ []
  | _, _, .mul _ _ => by simp
  | _, _, .div _ _ => by simp
  | _, _, .up h => G3.ne h
theorem G3.ne : {a : List Tok} → {x : PExpr D} → G3 v a x → a ≠ []
  | _, _, .pow _ _ => by simp
  | _, _, .up h => G4.ne h
theorem G4.ne : {a : List Tok} → {x : PExpr D} → G4 v a x → a ≠ []
  | _, _, .plus _ => by simp
  | _, _, .minus _ => by simp
  | _, _, .paren _ => by simp
  | _, _, .num _ => by simp
  | _, _, .var _ => by simp
  | _, _, .cvar _ => by simp
  | _, _, .spot => by simp
  | _, _, .dcf _ _ => by simp
  | _, _, .log _ => by simp
  | _, _, .sqrt _ => by simp
  | _, _, .exp _ => by simp
  | _, _, .max _ _ => by simp
  | _, _, .min _ _ => by simp
end

/-- The tokens neither close a parenthesis opened before nor leave one open. -/
def Bal (a : List Tok) : Prop := ∀ k tail e, 1 ≤ k → e ≤ tail.length → findClose k (a ++ tail) e = findClose k tail e

theorem Bal.nil : Bal [] := fun _ _ _ _ _ => rfl

theorem Bal.append {a b : List Tok} (ha : Bal a) (hb : Bal b) : Bal (a ++ b) := by
  intro k tail e hk he
  rw [List.append_assoc, ha k _ e hk (by simp; omega), hb k tail e hk he]

theorem Bal.cons {t : Tok} {b : List Tok} (h1 : t ≠ .lp) (h2 : t ≠ .rp) (hb : Bal b) : Bal (t :: b) := by
  intro k tail e hk he
  rw [List.cons_append, findClose]
  have : ¬ (t :: (b ++ tail)).length = e := by simp; omega
  rw [if_neg this, if_neg h1, if_neg h2]
  exact hb k tail e hk he

theorem Bal.paren {a : List Tok} (ha : Bal a) : Bal (.lp :: (a ++ [.rp])) := by
  intro k tail e hk he
  rw [List.cons_append, findClose]
  have : ¬ (Tok.lp :: (a ++ [.rp] ++ tail)).length = e := by simp; omega
  rw [if_neg this, if_pos rfl, List.append_assoc, ha (k + 1) _ e (by omega) (by simp; omega)]
  rw [List.singleton_append, findClose]
  have : ¬ (Tok.rp :: tail).length = e := by simp; omega
  rw [if_neg this, if_neg (by decide), if_pos rfl, if_neg (by omega)]
  rfl

theorem Bal.flat {a : List Tok} (h : ∀ t ∈ a, t ≠ .lp ∧ t ≠ .rp) : Bal a := by
  induction a with
  | nil => exact Bal.nil
  | cons t a ih =>
    have ht := h t (List.mem_cons_self ..)
    exact (ih fun u hu => h u (List.mem_cons_of_mem _ hu)).cons ht.1 ht.2

mutual
theorem G1.bal : {a : List Tok} → {x : PExpr D} → G1 v a x → Bal a
  | _, _, .add h k => h.bal.append (k.bal.cons (by decide) (by decide))
  | _, _, .sub h k => h.bal.append (k.bal.cons (by decide) (by decide))
  | _, _, .up h => h.bal
theorem G2.bal : {a : List Tok} → {x : PExpr D} → G2 v a x → Bal a
  | _, _, .mul h k => h.bal.append (k.bal.cons (by decide) (by decide))
  | _, _, .div h k => h.bal.append (k.bal.cons (by decide) (by decide))
  | _, _, .up h => h.bal
theorem G3.bal : {a : List Tok} → {x : PExpr D} → G3 v a x → Bal a
  | _, _, .pow h k => h.bal.append (k.bal.cons (by decide) (by decide))
  | _, _, .up h => h.bal
theorem G4.bal : {a : List Tok} → {x : PExpr D} → G4 v a x → Bal a
  | _, _, .plus h => h.bal.cons (by decide) (by decide)
  | _, _, .minus h => h.bal.cons (by decide) (by decide)
  | _, _, .paren h => h.bal.paren
  | _, _, .num _ => Bal.nil.cons (by simp) (by simp)
  | _, _, .var _ => Bal.nil.cons (by simp) (by simp)
  | _, _, .cvar _ => Bal.nil.cons (by simp) (by simp)
  | _, _, .spot => (Bal.nil.paren).cons (by decide) (by decide)
  | _, _, .dcf h _ => (Bal.flat h).paren.cons (by decide) (by decide)
  | _, _, .log h => h.bal.paren.cons (by decide) (by decide)
  | _, _, .sqrt h => h.bal.paren.cons (by decide) (by decide)
  | _, _, .exp h => h.bal.paren.cons (by decide) (by decide)
  | _, _, .max h _ => h.bal.paren.cons (by decide) (by decide)
  | _, _, .min h _ => h.bal.paren.cons (by decide) (by decide)
theorem GArgs.bal : {a : List Tok} → {x : List (PExpr D)} → GArgs v a x → Bal a
  | _, _, .one h => h.bal
  | _, _, .more h k => h.bal.append (k.bal.cons (by decide) (by decide))
end

theorem findClose_paren {a : List Tok} (ha : Bal a) (rest : List Tok) (e : Nat) (he : e ≤ rest.length) :
    findClose 1 (a ++ .rp :: rest) e = .ok (.rp :: rest) := by
  rw [ha 1 _ e (Nat.le_refl _) (by simp; omega), findClose]
  have : ¬ (Tok.rp :: rest).length = e := by simp; omega
  rw [if_neg this, if_neg (by decide), if_pos rfl, if_pos rfl]

/-- The input is at its end or does not go on with one of the tokens. -/
def Stop (ts : List Tok) (rest : List Tok) (e : Nat) : Prop := rest.length = e ∨ ∃ t r, rest = t :: r ∧ t ∉ ts

theorem Stop.mono {ts ts' : List Tok} {rest : List Tok} {e : Nat} (h : Stop ts rest e) (hs : ∀ t ∈ ts', t ∈ ts) : Stop ts' rest e := by
  rcases h with h | ⟨t, r, h1, h2⟩
  · exact Or.inl h
  · exact Or.inr ⟨t, r, h1, fun h => h2 (hs t h)⟩

theorem loop3_stop {x : PExpr D} {rest : List Tok} {e : Nat} (h : Stop [.caret] rest e) : Runs (fun n => loop3 v n x rest e) (.ok (x, rest)) := by
  apply Runs.succ
  refine ⟨0, fun n _ => ?_⟩
  rcases h with h | ⟨t, r, rfl, h2⟩
  · beta_reduce
    rw [loop3.eq_def]
    simp only [h, if_true]
  · cases t <;> simp_all [loop3]

theorem loop2_stop {x : PExpr D} {rest : List Tok} {e : Nat} (h : Stop [.times, .divide] rest e) :
    Runs (fun n => loop2 v n x rest e) (.ok (x, rest)) := by
  apply Runs.succ
  refine ⟨0, fun n _ => ?_⟩
  rcases h with h | ⟨t, r, rfl, h2⟩
  · beta_reduce
    rw [loop2.eq_def]
    simp only [h, if_true]
  · cases t <;> simp_all [loop2]

theorem loop1_stop {x : PExpr D} {rest : List Tok} {e : Nat} (h : Stop [.plus, .minus] rest e) :
    Runs (fun n => loop1 v n x rest e) (.ok (x, rest)) := by
  apply Runs.succ
  refine ⟨0, fun n _ => ?_⟩
  rcases h with h | ⟨t, r, rfl, h2⟩
  · beta_reduce
    rw [loop1.eq_def]
    simp only [h, if_true]
  · cases t <;> simp_all [loop1]

theorem len_ne {a rest : List Tok} {e : Nat} (ha : a ≠ []) (he : e ≤ rest.length) : ¬ (a ++ rest).length = e := by
  have := List.length_pos_iff.2 ha
  simp
  omega

theorem len_ne' {t : Tok} {rest : List Tok} {e : Nat} (he : e ≤ rest.length) : ¬ (t :: rest).length = e := by
  simp
  omega

theorem one_arg {a : List Tok} {x : PExpr D} (h : a ≠ []) (rest : List Tok) (e : Nat)
    (hr : Runs (fun n => pExpr v n (a ++ .rp :: rest) e) (.ok (x, .rp :: rest))) :
    Runs (fun n => pArgs v n (a ++ .rp :: rest) (Tok.rp :: rest).length e) (.ok [x]) := by
  apply Runs.succ
  simp only [pArgs, len_ne h (Nat.le_refl (Tok.rp :: rest).length), if_false]
  refine Runs.bind (a := (x, .rp :: rest)) hr ?_
  simp only [if_true]
  exact Runs.const _

mutual
theorem G1.runs : {a : List Tok} → {x : PExpr D} → G1 v a x → ∀ (rest : List Tok) (e : Nat), e ≤ rest.length →
    Stop [.times, .divide, .caret] rest e → ∀ r, Runs (fun n => loop1 v n x rest e) r → Runs (fun n => pExpr v n (a ++ rest) e) r
  | _, _, .add (b := b) (y := y) (x := x) h k, rest, e, he, hs, r, hr => by
    rw [List.append_assoc]
    refine G1.runs h _ e (by simp; omega) (Or.inr ⟨.plus, b ++ rest, rfl, by decide⟩) r (Runs.succ ?_)
    simp only [List.cons_append, loop1, len_ne' (show e ≤ (b ++ rest).length by simp; omega), len_ne k.ne he, if_false]
    exact Runs.bind (g := fun q n => loop1 v n (.bin .add x q.1 none) q.2 e) (G2.runs k rest e he (hs.mono (by simp)) _ (loop2_stop (hs.mono (by simp)))) hr
  | _, _, .sub (b := b) (y := y) (x := x) h k, rest, e, he, hs, r, hr => by
    rw [List.append_assoc]
    refine G1.runs h _ e (by simp; omega) (Or.inr ⟨.minus, b ++ rest, rfl, by decide⟩) r (Runs.succ ?_)
    simp only [List.cons_append, loop1, len_ne' (show e ≤ (b ++ rest).length by simp; omega), len_ne k.ne he, if_false]
    exact Runs.bind (g := fun q n => loop1 v n (.bin .sub x q.1 none) q.2 e) (G2.runs k rest e he (hs.mono (by simp)) _ (loop2_stop (hs.mono (by simp)))) hr
  | _, _, .up h, rest, e, he, hs, r, hr => by
    apply Runs.succ
    simp only [pExpr]
    exact Runs.bind (g := fun q n => loop1 v n q.1 q.2 e) (G2.runs h rest e he (hs.mono (by simp)) _ (loop2_stop (hs.mono (by simp)))) hr
theorem G2.runs : {a : List Tok} → {x : PExpr D} → G2 v a x → ∀ (rest : List Tok) (e : Nat), e ≤ rest.length →
    Stop [.caret] rest e → ∀ r, Runs (fun n => loop2 v n x rest e) r → Runs (fun n => pL2 v n (a ++ rest) e) r
  | _, _, .mul (b := b) (y := y) (x := x) h k, rest, e, he, hs, r, hr => by
    rw [List.append_assoc]
    refine G2.runs h _ e (by simp; omega) (Or.inr ⟨.times, b ++ rest, rfl, by decide⟩) r (Runs.succ ?_)
    simp only [List.cons_append, loop2, len_ne' (show e ≤ (b ++ rest).length by simp; omega), len_ne k.ne he, if_false]
    exact Runs.bind (g := fun q n => loop2 v n (.bin .mul x q.1 none) q.2 e) (G3.runs k rest e he _ (loop3_stop hs)) hr
  | _, _, .div (b := b) (y := y) (x := x) h k, rest, e, he, hs, r, hr => by
    rw [List.append_assoc]
    refine G2.runs h _ e (by simp; omega) (Or.inr ⟨.divide, b ++ rest, rfl, by decide⟩) r (Runs.succ ?_)
    simp only [List.cons_append, loop2, len_ne' (show e ≤ (b ++ rest).length by simp; omega), len_ne k.ne he, if_false]
    exact Runs.bind (g := fun q n => loop2 v n (.bin .div x q.1 none) q.2 e) (G3.runs k rest e he _ (loop3_stop hs)) hr
  | _, _, .up h, rest, e, he, hs, r, hr => by
    apply Runs.succ
    simp only [pL2]
    exact Runs.bind (g := fun q n => loop2 v n q.1 q.2 e) (G3.runs h rest e he _ (loop3_stop hs)) hr
theorem G3.runs : {a : List Tok} → {x : PExpr D} → G3 v a x → ∀ (rest : List Tok) (e : Nat), e ≤ rest.length →
    ∀ r, Runs (fun n => loop3 v n x rest e) r → Runs (fun n => pL3 v n (a ++ rest) e) r
  | _, _, .pow (b := b) (y := y) (x := x) h k, rest, e, he, r, hr => by
    rw [List.append_assoc]
    refine G3.runs h _ e (by simp; omega) r (Runs.succ ?_)
    simp only [List.cons_append, loop3, len_ne' (show e ≤ (b ++ rest).length by simp; omega), len_ne k.ne he, if_false]
    exact Runs.bind (g := fun q n => loop3 v n (.bin .pow x q.1 none) q.2 e) (G4.runs k rest e he) hr
  | _, _, .up h, rest, e, he, r, hr => by
    apply Runs.succ
    simp only [pL3]
    exact Runs.bind (g := fun q n => loop3 v n q.1 q.2 e) (G4.runs h rest e he) hr
theorem G4.runs : {a : List Tok} → {x : PExpr D} → G4 v a x → ∀ (rest : List Tok) (e : Nat), e ≤ rest.length →
    Runs (fun n => pL4 v n (a ++ rest) e) (.ok (x, rest))
  | _, _, .plus (a := a) h, rest, e, he => by
    apply Runs.succ
    simp only [List.cons_append, pL4, len_ne' (show e ≤ (a ++ rest).length by simp; omega), len_ne h.ne he, if_false]
    exact Runs.bind (g := fun q n => .ok (Expr.un .uplus q.1 none, q.2)) (G4.runs h rest e he) (Runs.const _)
  | _, _, .minus (a := a) h, rest, e, he => by
    apply Runs.succ
    simp only [List.cons_append, pL4, len_ne' (show e ≤ (a ++ rest).length by simp; omega), len_ne h.ne he, if_false]
    exact Runs.bind (g := fun q n => .ok (Expr.un .uminus q.1 none, q.2)) (G4.runs h rest e he) (Runs.const _)
  | _, _, .paren (a := a) h, rest, e, he => by
    apply Runs.succ
    simp only [List.cons_append, pL4, List.append_assoc, List.nil_append, findClose_paren h.bal rest e he, Res.bind_ok, Kw.isFunc_simp, if_true]
    exact Runs.bind (g := fun q n => .ok (q.1, (Tok.rp :: rest).tail)) (G1.runs h (.rp :: rest) _ (Nat.le_refl _) (Or.inl rfl) _ (loop1_stop (Or.inl rfl))) (Runs.const _)
  | _, _, .num (s := s) (c := c) hc, rest, e, he => by
    apply Runs.succ; apply Runs.succ
    simp only [List.singleton_append, pL4, pPrim, hc]
    exact Runs.const _
  | _, _, .var (s := s) hc, rest, e, he => by
    apply Runs.succ; apply Runs.succ
    simp only [List.singleton_append, pL4, pPrim, pVar, hc]
    exact Runs.const _
  | _, _, .cvar (s := s) (c := c) hc, rest, e, he => by
    apply Runs.succ; apply Runs.succ
    simp only [List.singleton_append, pL4, pPrim, pVar, hc]
    exact Runs.const _
  | _, _, .spot, rest, e, he => by
    apply Runs.succ; apply Runs.succ; apply Runs.succ; apply Runs.succ
    have hf := findClose_paren Bal.nil rest e he
    rw [List.nil_append] at hf
    simp only [List.cons_append, List.nil_append, pL4, pPrim, pFunc, hf, Res.bind_ok, Kw.isFunc_simp, pArgs, if_true]
    exact Runs.const _
  | _, _, .dcf (a := a) (x := x) h hd, rest, e, he => by
    apply Runs.succ; apply Runs.succ
    have hl : (Tok.rp :: rest).length = rest.length + 1 := rfl
    simp only [List.cons_append, pL4, pPrim, List.append_assoc, List.nil_append, findClose_paren (Bal.flat h) rest e he, Res.bind_ok, hl, hd rest]
    exact Runs.const _
  | _, _, .log h, rest, e, he => by
    apply Runs.succ; apply Runs.succ; apply Runs.succ
    simp only [List.cons_append, pL4, pPrim, pFunc, List.append_assoc, List.nil_append, findClose_paren h.bal rest e he, Res.bind_ok, Kw.isFunc_simp, if_true]
    exact Runs.bind (g := fun args n => match mkFunc .log_ args with | some x => .ok (x, (Tok.rp :: rest).tail) | none => .throw)
      (one_arg (h := h.ne) rest e (G1.runs h (.rp :: rest) e (by simp; omega) (Or.inr ⟨_, _, rfl, by decide⟩) _
        (loop1_stop (Or.inr ⟨_, _, rfl, by decide⟩)))) (Runs.const _)
  | _, _, .sqrt h, rest, e, he => by
    apply Runs.succ; apply Runs.succ; apply Runs.succ
    simp only [List.cons_append, pL4, pPrim, pFunc, List.append_assoc, List.nil_append, findClose_paren h.bal rest e he, Res.bind_ok, Kw.isFunc_simp, if_true]
    exact Runs.bind (g := fun args n => match mkFunc .sqrt_ args with | some x => .ok (x, (Tok.rp :: rest).tail) | none => .throw)
      (one_arg (h := h.ne) rest e (G1.runs h (.rp :: rest) e (by simp; omega) (Or.inr ⟨_, _, rfl, by decide⟩) _
        (loop1_stop (Or.inr ⟨_, _, rfl, by decide⟩)))) (Runs.const _)
  | _, _, .exp h, rest, e, he => by
    apply Runs.succ; apply Runs.succ; apply Runs.succ
    simp only [List.cons_append, pL4, pPrim, pFunc, List.append_assoc, List.nil_append, findClose_paren h.bal rest e he, Res.bind_ok, Kw.isFunc_simp, if_true]
    exact Runs.bind (g := fun args n => match mkFunc .exp_ args with | some x => .ok (x, (Tok.rp :: rest).tail) | none => .throw)
      (one_arg (h := h.ne) rest e (G1.runs h (.rp :: rest) e (by simp; omega) (Or.inr ⟨_, _, rfl, by decide⟩) _
        (loop1_stop (Or.inr ⟨_, _, rfl, by decide⟩)))) (Runs.const _)
  | _, _, .max (x := x) (y := y) (l := l) h hl, rest, e, he => by
    apply Runs.succ; apply Runs.succ; apply Runs.succ
    simp only [List.cons_append, pL4, pPrim, pFunc, List.append_assoc, List.nil_append, findClose_paren h.bal rest e he, Res.bind_ok, Kw.isFunc_simp, if_true]
    have hm : mkFunc .max_ (x :: y :: l) = some (l.foldl (fun m z => .extra m z none) (.bin .max x y none)) := by
      have : (x :: y :: l).length ≤ 1000 := by simp; omega
      simp only [mkFunc, Kw.nary, if_pos this]
      rfl
    refine Runs.bind (g := fun args n => match mkFunc .max_ args with | some x => .ok (x, (Tok.rp :: rest).tail) | none => .throw)
      (GArgs.runs h rest e he) ?_
    simp only [hm]
    exact Runs.const _
  | _, _, .min (x := x) (y := y) (l := l) h hl, rest, e, he => by
    apply Runs.succ; apply Runs.succ; apply Runs.succ
    simp only [List.cons_append, pL4, pPrim, pFunc, List.append_assoc, List.nil_append, findClose_paren h.bal rest e he, Res.bind_ok, Kw.isFunc_simp, if_true]
    have hm : mkFunc .min_ (x :: y :: l) = some (l.foldl (fun m z => .extra m z none) (.bin .min x y none)) := by
      have : (x :: y :: l).length ≤ 1000 := by simp; omega
      simp only [mkFunc, Kw.nary, if_pos this]
      rfl
    refine Runs.bind (g := fun args n => match mkFunc .min_ args with | some x => .ok (x, (Tok.rp :: rest).tail) | none => .throw)
      (GArgs.runs h rest e he) ?_
    simp only [hm]
    exact Runs.const _
theorem GArgs.runs : {a : List Tok} → {xs : List (PExpr D)} → GArgs v a xs → ∀ (rest : List Tok) (e : Nat), e ≤ rest.length →
    Runs (fun n => pArgs v n (a ++ .rp :: rest) (Tok.rp :: rest).length e) (.ok xs)
  | _, _, .one h, rest, e, he => one_arg (h := h.ne) rest e (G1.runs h (.rp :: rest) e (by simp; omega) (Or.inr ⟨_, _, rfl, by decide⟩) _
        (loop1_stop (Or.inr ⟨_, _, rfl, by decide⟩)))
  | _, _, .more (a := a) (b := b) (x := x) (xs := xs) h k, rest, e, he => by
    apply Runs.succ
    rw [List.append_assoc]
    have hlen : ¬ (a ++ (.comma :: b ++ .rp :: rest)).length = (Tok.rp :: rest).length := by
      have := List.length_pos_iff.2 h.ne
      simp
      omega
    simp only [pArgs, hlen, if_false]
    refine Runs.bind (a := (x, .comma :: b ++ .rp :: rest)) (G1.runs h _ e (by simp; omega) (Or.inr ⟨_, _, rfl, by decide⟩) _
      (loop1_stop (Or.inr ⟨_, _, rfl, by decide⟩))) ?_
    simp only [List.cons_append]
    exact Runs.bind (g := fun xs n => .ok (x :: xs)) (GArgs.runs k rest e he) (Runs.const _)
end

/-- Expressions before something that is not an operator. -/
theorem G1.done {a : List Tok} {x : PExpr D} (h : G1 v a x) (rest : List Tok) (e : Nat) (he : e ≤ rest.length)
    (hs : Stop [.plus, .minus, .times, .divide, .caret] rest e) : Runs (fun n => pExpr v n (a ++ rest) e) (.ok (x, rest)) :=
  G1.runs h rest e he (hs.mono (by simp)) _ (loop1_stop (hs.mono (by simp)))

theorem GWidth.bal {a : List Tok} {w : D} (h : GWidth v a w) : Bal a := by
  cases h with
  | none => exact Bal.nil
  | semi _ => exact (Bal.nil.cons (by simp) (by simp)).cons (by simp) (by simp)
  | colon _ => exact (Bal.nil.cons (by simp) (by simp)).cons (by simp) (by simp)

mutual
theorem GOr.bal : {a : List Tok} → {x : PCond D} → GOr v a x → Bal a
  | _, _, .or h k => h.bal.append (k.bal.cons (by decide) (by decide))
  | _, _, .up h => h.bal
theorem GAnd.bal : {a : List Tok} → {x : PCond D} → GAnd v a x → Bal a
  | _, _, .and h k => h.bal.append (k.bal.cons (by decide) (by decide))
  | _, _, .up h => h.bal
theorem GElem.bal : {a : List Tok} → {x : PCond D} → GElem v a x → Bal a
  | _, _, .paren h => h.bal.paren
  | _, _, .cmp h k w _ => h.bal.append ((k.bal.append w.bal).cons (by simp) (by simp))
end

mutual
theorem GOr.ne : {a : List Tok} → {x : PCond D} → GOr v a x → a ≠ []
  | _, _, .or _ _ => by simp
  | _, _, .up h => h.ne
theorem GAnd.ne : {a : List Tok} → {x : PCond D} → GAnd v a x → a ≠ []
  | _, _, .and _ _ => by simp
  | _, _, .up h => h.ne
theorem GElem.ne : {a : List Tok} → {x : PCond D} → GElem v a x → a ≠ []
  | _, _, .paren _ => by simp
  | _, _, .cmp _ _ _ _ => by simp
end

theorem loopAnd_stop {x : PCond D} {rest : List Tok} {e : Nat} (h : Stop [.kw .and_] rest e) :
    Runs (fun n => loopAnd v n x rest e) (.ok (x, rest)) := by
  apply Runs.succ
  refine ⟨0, fun n _ => ?_⟩
  rcases h with h | ⟨t, r, rfl, h2⟩
  · beta_reduce
    rw [loopAnd.eq_def]
    simp only [h, if_true]
  · cases t with
    | kw k => cases k <;> simp_all [loopAnd]
    | _ => simp_all [loopAnd]

theorem loopOr_stop {x : PCond D} {rest : List Tok} {e : Nat} (h : Stop [.kw .or_] rest e) :
    Runs (fun n => loopOr v n x rest e) (.ok (x, rest)) := by
  apply Runs.succ
  refine ⟨0, fun n _ => ?_⟩
  rcases h with h | ⟨t, r, rfl, h2⟩
  · beta_reduce
    rw [loopOr.eq_def]
    simp only [h, if_true]
  · cases t with
    | kw k => cases k <;> simp_all [loopOr]
    | _ => simp_all [loopOr]

/-- What follows a condition: a token that is none of the operators. -/
def CStop (ts : List Tok) (rest : List Tok) (e : Nat) : Prop := e ≤ rest.length ∧ ∃ t r, rest = t :: r ∧ t ∉ ts

/-- Tokens that can go on with a comparison. -/
def goOn : List Tok := [.plus, .minus, .times, .divide, .caret, .semi, .colon]

theorem pOpt_stop {t : Tok} {r : List Tok} {w : D} (e : Nat) (hs : ¬ (t = .semi ∨ t = .colon)) :
    pOpt v w (t :: r) e = .ok (w, t :: r) := by
  rw [pOpt.eq_def]
  simp only [hs, if_false]

theorem pOpt_run {a : List Tok} {w : D} (h : GWidth v a w) {t : Tok} {r : List Tok} (e : Nat) (he : e ≤ (t :: r).length)
    (ht : t ∉ goOn) : pOpt v v.eps0 (a ++ t :: r) e = .ok (w, t :: r) := by
  have hs : ¬ (t = .semi ∨ t = .colon) := by
    rintro (rfl | rfl) <;> exact ht (by decide)
  cases h with
  | none => exact pOpt_stop e hs
  | semi hw =>
    have h1 : ¬ (r.length + 1 + 1 = e) := by simp at he; omega
    rw [← pOpt_stop (v := v) (w := w) (r := r) e hs]
    simp [pOpt.eq_def v v.eps0, hw, h1]
  | colon hw =>
    have h1 : ¬ (r.length + 1 + 1 = e) := by simp at he; omega
    rw [← pOpt_stop (v := v) (w := w) (r := r) e hs]
    simp [pOpt.eq_def v v.eps0, hw, h1]

theorem GWidth.head {w : List Tok} {eps : D} (h : GWidth v w eps) {t : Tok} {r : List Tok} (ht : t ∉ goOn) :
    ∃ t' r', w ++ t :: r = t' :: r' ∧ t' ∉ [Tok.plus, .minus, .times, .divide, .caret] := by
  cases h with
  | none => exact ⟨t, r, rfl, fun hm => ht (by simp [goOn] at *; tauto)⟩
  | semi _ => exact ⟨_, _, rfl, by decide⟩
  | colon _ => exact ⟨_, _, rfl, by decide⟩

theorem pElem_run {a b w : List Tok} {x y : PExpr D} {c : CmpTok} {eps : D} (ha : G1 v a x) (hb : G1 v b y) (hw : GWidth v w eps)
    {t : Tok} {r : List Tok} (e : Nat) (he : e ≤ (t :: r).length) (ht : t ∉ goOn) :
    Runs (fun n => pElem v n (a ++ .cmp c :: (b ++ w) ++ t :: r) e) (.ok (cmpMeaning v c x y eps, t :: r)) := by
  have h1 : e ≤ (b ++ (w ++ t :: r)).length := by simp at *; omega
  have hap : a ++ .cmp c :: (b ++ w) ++ t :: r = a ++ .cmp c :: (b ++ (w ++ t :: r)) := by simp
  rw [hap]
  obtain ⟨t', r', hh, ht'⟩ := hw.head (r := r) ht
  unfold pElem
  refine Runs.bind (a := (x, .cmp c :: (b ++ (w ++ t :: r)))) (ha.done _ e (by simp at *; omega) (Or.inr ⟨_, _, rfl, by simp⟩)) ?_
  simp only [len_ne' h1, len_ne hb.ne (show e ≤ (w ++ t :: r).length by simp at *; omega), if_false]
  refine Runs.bind (a := (y, w ++ t :: r)) (hb.done _ e (by simp at *; omega) (Or.inr ⟨t', r', hh, ht'⟩)) ?_
  refine Runs.bind (a := (eps, t :: r)) (f := fun _ => _) (g := fun w' _ => _) ?_ ?_
  · simp only [pOpt_run hw e he ht]
    exact Runs.const _
  · cases c <;> exact Runs.const _

mutual
theorem GOr.runs : {a : List Tok} → {x : PCond D} → GOr v a x → ∀ (rest : List Tok) (e : Nat), CStop (.kw .and_ :: goOn) rest e →
    ∀ r, Runs (fun n => loopOr v n x rest e) r → Runs (fun n => pCond v n (a ++ rest) e) r
  | _, _, .or (b := b) (x := x) h k, rest, e, hs, r, hr => by
    have he := hs.1
    rw [List.append_assoc]
    refine GOr.runs h _ e ⟨by simp; omega, .kw .or_, b ++ rest, rfl, by decide⟩ r (Runs.succ ?_)
    simp only [List.cons_append, loopOr, len_ne' (show e ≤ (b ++ rest).length by simp; omega), len_ne k.ne he, if_false]
    refine Runs.bind (g := fun q n => loopOr v n (.or x q.1 ⟨false, false⟩) q.2 e) (GAnd.runs k rest e ?_ _ (loopAnd_stop ?_)) hr
    · obtain ⟨_, t, r, rfl, ht⟩ := hs
      exact ⟨he, t, r, rfl, fun hm => ht (List.mem_cons_of_mem _ hm)⟩
    · obtain ⟨_, t, r, rfl, ht⟩ := hs
      exact Or.inr ⟨t, r, rfl, fun hm => ht (by simp at *; tauto)⟩
  | _, _, .up h, rest, e, hs, r, hr => by
    apply Runs.succ
    simp only [pCond]
    refine Runs.bind (g := fun q n => loopOr v n q.1 q.2 e) (GAnd.runs h rest e ?_ _ (loopAnd_stop ?_)) hr
    · obtain ⟨he, t, r, rfl, ht⟩ := hs
      exact ⟨he, t, r, rfl, fun hm => ht (List.mem_cons_of_mem _ hm)⟩
    · obtain ⟨_, t, r, rfl, ht⟩ := hs
      exact Or.inr ⟨t, r, rfl, fun hm => ht (by simp at *; tauto)⟩
theorem GAnd.runs : {a : List Tok} → {x : PCond D} → GAnd v a x → ∀ (rest : List Tok) (e : Nat), CStop goOn rest e →
    ∀ r, Runs (fun n => loopAnd v n x rest e) r → Runs (fun n => pCond2 v n (a ++ rest) e) r
  | _, _, .and (b := b) (x := x) h k, rest, e, hs, r, hr => by
    have he := hs.1
    rw [List.append_assoc]
    refine GAnd.runs h _ e ⟨by simp; omega, .kw .and_, b ++ rest, rfl, by decide⟩ r (Runs.succ ?_)
    simp only [List.cons_append, loopAnd, len_ne' (show e ≤ (b ++ rest).length by simp; omega), len_ne k.ne he, if_false]
    exact Runs.bind (g := fun q n => loopAnd v n (.and x q.1 ⟨false, false⟩) q.2 e) (GElem.runs k rest e hs) hr
  | _, _, .up h, rest, e, hs, r, hr => by
    apply Runs.succ
    simp only [pCond2]
    exact Runs.bind (g := fun q n => loopAnd v n q.1 q.2 e) (GElem.runs h rest e hs) hr
theorem GElem.runs : {a : List Tok} → {x : PCond D} → GElem v a x → ∀ (rest : List Tok) (e : Nat), CStop goOn rest e →
    Runs (fun n => pCondP v n (a ++ rest) e) (.ok (x, rest))
  | _, _, .paren (a := a) (x := x) h, rest, e, hs => by
    apply Runs.succ
    simp only [List.cons_append, pCondP, List.append_assoc, List.nil_append, findClose_paren h.bal rest e hs.1, Res.bind_ok]
    exact Runs.bind (a := (x, .rp :: rest)) (g := fun q n => .ok (q.1, (Tok.rp :: rest).tail))
      (GOr.runs h (.rp :: rest) _ ⟨Nat.le_refl _, _, _, rfl, by decide⟩ _ (loopOr_stop (Or.inl rfl))) (Runs.const _)
  | _, _, .cmp (a := a) (b := b) (w := w) (c := c) h k hw hd, rest, e, hs => by
    apply Runs.succ
    obtain ⟨he, t, r, rfl, ht⟩ := hs
    have hr := pElem_run (c := c) h k hw e he ht
    cases a with
    | nil => exact absurd rfl h.ne
    | cons q a =>
      obtain ⟨N, hN⟩ := hr
      refine ⟨N, fun n hn => ?_⟩
      rw [← hN n hn]
      simp only [List.cons_append]
      cases q with
      | lp => exact absurd rfl hd
      | _ => simp only [pCondP]
end

theorem GOr.done {a : List Tok} {x : PCond D} (h : GOr v a x) (t : Tok) (r : List Tok) (e : Nat) (he : e ≤ (t :: r).length)
    (ht : t ∉ Tok.kw .or_ :: .kw .and_ :: goOn) : Runs (fun n => pCond v n (a ++ t :: r) e) (.ok (x, t :: r)) :=
  GOr.runs h (t :: r) e ⟨he, t, r, rfl, fun hm => ht (List.mem_cons_of_mem _ hm)⟩ _
    (loopOr_stop (Or.inr ⟨t, r, rfl, fun hm => ht (by simp at *; tauto)⟩))

/-- Statements never start with a token that ends a list or goes on with an expression. -/
theorem GStmt.head {a : List Tok} {s : PStmt D} (h : GStmt v a s) :
    ∃ t r, a = t :: r ∧ (t = .kw .if_ ∨ ∃ nm, t = .name nm) := by
  cases h with
  | assign _ => exact ⟨_, _, rfl, Or.inr ⟨_, rfl⟩⟩
  | pays _ => exact ⟨_, _, rfl, Or.inr ⟨_, rfl⟩⟩
  | ifThen _ _ => exact ⟨_, _, rfl, Or.inl rfl⟩
  | ifElse _ _ _ => exact ⟨_, _, rfl, Or.inl rfl⟩

/-- What can follow a statement. -/
def SStop (rest : List Tok) (e : Nat) : Prop := Stop [.plus, .minus, .times, .divide, .caret] rest e

theorem GStmts.stop {b : List Tok} {ss : PStmts D} (h : GStmts v b ss) {rest : List Tok} {e : Nat} (hr : SStop rest e) : SStop (b ++ rest) e := by
  cases h with
  | nil => exact hr
  | cons h _ =>
    obtain ⟨t, r, rfl, ht⟩ := h.head
    refine Or.inr ⟨t, _, rfl, ?_⟩
    rcases ht with rfl | ⟨nm, rfl⟩ <;> simp

mutual
theorem GStmt.runs : {a : List Tok} → {s : PStmt D} → GStmt v a s → ∀ (rest : List Tok) (e : Nat), e ≤ rest.length → SStop rest e →
    Runs (fun n => pStmt v n (a ++ rest) e) (.ok (s, rest))
  | _, _, .assign (s := s) (a := a) (x := x) h, rest, e, he, hs => by
    apply Runs.succ
    have h1 : e ≤ (a ++ rest).length := by simp; omega
    cases hc : v.cvs s <;>
      simp only [List.cons_append, pStmt, pVar, hc, Res.bind_ok, len_ne' h1, len_ne h.ne he, if_false, Option.isSome] <;>
      exact Runs.bind (a := (x, rest)) (h.done rest e he hs) (Runs.const _)
  | _, _, .pays (s := s) (a := a) (x := x) h, rest, e, he, hs => by
    apply Runs.succ
    have h1 : e ≤ (a ++ rest).length := by simp; omega
    cases hc : v.cvs s <;>
      simp only [List.cons_append, pStmt, pVar, hc, Res.bind_ok, len_ne' h1, len_ne h.ne he, if_false, Option.isSome] <;>
      exact Runs.bind (a := (x, rest)) (h.done rest e he hs) (Runs.const _)
  | _, _, .ifThen (c := c) (x := x) (t := t) (ss := ss) h k, rest, e, he, hs => by
    apply Runs.succ
    have h1 : e ≤ (t ++ (.kw .end_ :: rest)).length := by simp; omega
    have hap : .kw .if_ :: (c ++ .kw .then_ :: (t ++ [.kw .end_])) ++ rest = .kw .if_ :: (c ++ .kw .then_ :: (t ++ .kw .end_ :: rest)) := by
      simp
    rw [hap]
    simp only [pStmt, len_ne h.ne (show e ≤ (Tok.kw .then_ :: (t ++ .kw .end_ :: rest)).length by simp at *; omega), if_false]
    refine Runs.bind (h.done (.kw .then_) (t ++ .kw .end_ :: rest) e (by simp at *; omega) (by decide)) ?_
    simp only [len_ne' h1, if_false]
    refine Runs.bind (GStmts.runs k .thn (.kw .end_ :: rest) e (by simp; omega) (Or.inr ⟨_, _, rfl, by decide⟩) (Or.inr ⟨_, _, rfl, rfl⟩)
      (by decide)) ?_
    simp only [len_ne' he, if_false]
    exact Runs.const _
  | _, _, .ifElse (c := c) (x := x) (t := t) (ss := ss) (f := f) (ff := ff) h k l, rest, e, he, hs => by
    apply Runs.succ
    have h2 : e ≤ (f ++ (.kw .end_ :: rest)).length := by simp; omega
    have h1 : e ≤ (t ++ .kw .else_ :: (f ++ (.kw .end_ :: rest))).length := by simp; omega
    have hap : .kw .if_ :: (c ++ .kw .then_ :: (t ++ .kw .else_ :: (f ++ [.kw .end_]))) ++ rest
        = .kw .if_ :: (c ++ .kw .then_ :: (t ++ .kw .else_ :: (f ++ .kw .end_ :: rest))) := by
      simp
    rw [hap]
    simp only [pStmt, len_ne h.ne (show e ≤ (Tok.kw .then_ :: (t ++ .kw .else_ :: (f ++ .kw .end_ :: rest))).length by simp at *; omega), if_false]
    refine Runs.bind (h.done (.kw .then_) (t ++ .kw .else_ :: (f ++ .kw .end_ :: rest)) e (by simp at *; omega) (by decide)) ?_
    simp only [len_ne' h1, if_false]
    refine Runs.bind (GStmts.runs k .thn (.kw .else_ :: (f ++ .kw .end_ :: rest)) e (by simp; omega) (Or.inr ⟨_, _, rfl, by decide⟩)
      (Or.inr ⟨_, _, rfl, rfl⟩) (by decide)) ?_
    simp only [len_ne' h2, if_false]
    refine Runs.bind (GStmts.runs l .els (.kw .end_ :: rest) e (by simp; omega) (Or.inr ⟨_, _, rfl, by decide⟩) (Or.inr ⟨_, _, rfl, rfl⟩)
      (by decide)) ?_
    simp only [len_ne' he, if_false]
    exact Runs.const _
theorem GStmts.runs : {a : List Tok} → {ss : PStmts D} → GStmts v a ss → ∀ (m : Mode) (rest : List Tok) (e : Nat), e ≤ rest.length →
    SStop rest e → (rest.length = e ∨ ∃ t r, rest = t :: r ∧ m.stops t = true) → (m.stops (.kw .if_) = false) →
    Runs (fun n => pStmts v n m (a ++ rest) e) (.ok (ss, rest))
  | _, _, .nil, m, rest, e, he, hs, hm, hi => by
    apply Runs.succ
    rw [List.nil_append]
    rcases hm with hm | ⟨t, r, rfl, ht⟩
    · refine ⟨0, fun n _ => ?_⟩
      beta_reduce
      rw [pStmts.eq_def]
      simp only [hm, if_true]
    · refine ⟨0, fun n _ => ?_⟩
      simp only [pStmts, ht, if_true, ite_self]
  | _, _, .cons (a := a) (b := b) (s := s) (ss := ss) h k, m, rest, e, he, hs, hm, hi => by
    apply Runs.succ
    have hst := k.stop hs
    have hrun := GStmt.runs h (b ++ rest) e (by simp; omega) hst
    obtain ⟨t, r, rfl, ht⟩ := h.head
    have hmt : m.stops t = false := by
      rcases ht with rfl | ⟨nm, rfl⟩
      · exact hi
      · cases m <;> rfl
    have hl : ¬ (t :: (r ++ b ++ rest)).length = e := by simp; omega
    simp only [List.cons_append, List.append_assoc] at hrun hl ⊢
    simp only [pStmts, hl, hmt, if_false, Bool.false_eq_true]
    refine Runs.bind hrun ?_
    exact Runs.bind (g := fun q n => .ok (Stmts.cons s q.1, q.2)) (GStmts.runs k m rest e he hs hm hi) (Runs.const _)
end

end Dal.Script
