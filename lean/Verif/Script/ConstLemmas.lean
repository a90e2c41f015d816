import Verif.Script.CompileModel

/-! # Specification notions and lemmas for constant marking -/

namespace Dal.Script
variable {D : Type}

/-- `x` is a subexpression of an expression. -/
inductive SubE (x : Expr Nat D) : Expr Nat D → Prop
  | self : SubE x x
  | binL {op l r k} : SubE x l → SubE x (.bin op l r k)
  | binR {op l r k} : SubE x r → SubE x (.bin op l r k)
  | un {op a k} : SubE x a → SubE x (.un op a k)
  | extraL {m y k} : SubE x m → SubE x (.extra m y k)
  | extraR {m y k} : SubE x y → SubE x (.extra m y k)

/-- `x` is an expression occurring in a condition. -/
inductive SubC (x : Expr Nat D) : Cond Nat D → Prop
  | cmp {op e a f} : SubE x e → SubC x (.cmp op e a f)
  | andL {l r f} : SubC x l → SubC x (.and l r f)
  | andR {l r f} : SubC x r → SubC x (.and l r f)
  | orL {l r f} : SubC x l → SubC x (.or l r f)
  | orR {l r f} : SubC x r → SubC x (.or l r f)
  | not {c f} : SubC x c → SubC x (.not c f)

mutual
/-- Executing a statement from `σ` comes to the expression `x` in state `σ'`. -/
inductive Reach (o : Ops D) (cv : Nat → D) (sp : Sample D) (x : Expr Nat D) :
    Stmt Nat D → (Nat → D) → (Nat → D) → Prop
  | assign {l e σ} : SubE x e → Reach o cv sp x (.assign l e) σ σ
  | pays {l e σ} : SubE x e → Reach o cv sp x (.pays l e) σ σ
  | cond {c t he e af f σ} : SubC x c → Reach o cv sp x (.ite c t he e af f) σ σ
  | then' {c t he e af f σ σ'} : evalC o cv sp σ c = true → Reachs o cv sp x t σ σ' →
      Reach o cv sp x (.ite c t he e af f) σ σ'
  | else' {c t e af f σ σ'} : evalC o cv sp σ c = false → Reachs o cv sp x e σ σ' →
      Reach o cv sp x (.ite c t true e af f) σ σ'
  | collect {b σ σ'} : Reachs o cv sp x b σ σ' → Reach o cv sp x (.collect b) σ σ'
/-- The same for statements in order. -/
inductive Reachs (o : Ops D) (cv : Nat → D) (sp : Sample D) (x : Expr Nat D) :
    Stmts Nat D → (Nat → D) → (Nat → D) → Prop
  | head {s ss σ σ'} : Reach o cv sp x s σ σ' → Reachs o cv sp x (.cons s ss) σ σ'
  | tail {s ss σ σ'} : Reachs o cv sp x ss (exec o cv sp s σ) σ' → Reachs o cv sp x (.cons s ss) σ σ'
end

/-- No constant mark yet on operations (as after parsing), and constants carry the value `cv` gives. -/
def FreshE (cv : Nat → D) : Expr Nat D → Prop
  | .bin _ l r k => k = none ∧ FreshE cv l ∧ FreshE cv r
  | .un _ a k => k = none ∧ FreshE cv a
  | .extra m x k => k = none ∧ FreshE cv m ∧ FreshE cv x
  | .const _ => True
  | .var _ _ => True
  | .constVar i c => c = cv i
  | .spot => True

/-- Fresh conditions. -/
def FreshC (cv : Nat → D) : Cond Nat D → Prop
  | .cmp _ e _ _ => FreshE cv e
  | .and l r _ => FreshC cv l ∧ FreshC cv r
  | .or l r _ => FreshC cv l ∧ FreshC cv r
  | .not c _ => FreshC cv c
  | .tt => True
  | .ff => True

mutual
/-- Fresh statements. -/
def FreshS (cv : Nat → D) : Stmt Nat D → Prop
  | .assign _ e => FreshE cv e
  | .pays _ e => FreshE cv e
  | .ite c t _ e _ _ => FreshC cv c ∧ FreshSs cv t ∧ FreshSs cv e
  | .collect b => FreshSs cv b
/-- Fresh statements in order. -/
def FreshSs (cv : Nat → D) : Stmts Nat D → Prop
  | .nil => True
  | .cons s ss => FreshS cv s ∧ FreshSs cv ss
end

/-- The marks agree with the state. -/
def SoundC (vc : ConstSt D) (σ : Nat → D) : Prop := ∀ i v, vc i = some v → σ i = v

/-- `vc'` marks no more than `vc`. -/
def LeC (vc' vc : ConstSt D) : Prop := ∀ i v, vc' i = some v → vc i = some v

theorem LeC.refl (vc : ConstSt D) : LeC vc vc := fun _ _ h => h
theorem LeC.trans {a b c : ConstSt D} (h : LeC a b) (g : LeC b c) : LeC a c := fun i v e => g i v (h i v e)
theorem SoundC.le {a b : ConstSt D} {σ : Nat → D} (h : SoundC b σ) (g : LeC a b) : SoundC a σ :=
  fun i v e => h i v (g i v e)

/-- Marks on an expression and all its subexpressions are right in state `σ`. -/
def MarksE (o : Ops D) (cv : Nat → D) (sp : Sample D) (σ : Nat → D) (e : Expr Nat D) : Prop :=
  ∀ x, SubE x e → ∀ v, x.kval = some v → evalE o cv sp σ x = v

theorem kval_bin (op : BinOp) (l r : Expr Nat D) (k : Option D) : (Expr.bin op l r k).kval = k := rfl
theorem kval_un (op : UnOp) (a : Expr Nat D) (k : Option D) : (Expr.un op a k).kval = k := rfl
theorem kval_extra (m x : Expr Nat D) (k : Option D) : (Expr.extra m x k).kval = k := rfl

theorem constE_marks (o : Ops D) (cv : Nat → D) (sp : Sample D) (σ : Nat → D) (vc : ConstSt D)
    (hs : SoundC vc σ) (e : Expr Nat D) (hf : FreshE cv e) : MarksE o cv sp σ (constE o vc e) := by
  induction e with
  | bin op l r k ihl ihr =>
    obtain ⟨rfl, hl, hr⟩ := hf
    intro x hx v hv
    simp only [constE] at hx
    cases hx with
    | self =>
      rw [kval_bin] at hv
      cases h1 : (constE o vc l).kval with
      | none => rw [h1] at hv; cases hv
      | some a =>
        cases h2 : (constE o vc r).kval with
        | none => rw [h1, h2] at hv; cases hv
        | some b =>
          rw [h1, h2] at hv; cases hv
          simp only [evalE]
          rw [ihl hl _ .self a h1, ihr hr _ .self b h2]
    | binL h => exact ihl hl x h v hv
    | binR h => exact ihr hr x h v hv
  | un op a k ih =>
    obtain ⟨rfl, ha⟩ := hf
    intro x hx v hv
    simp only [constE] at hx
    cases hx with
    | self =>
      rw [kval_un] at hv
      cases h1 : (constE o vc a).kval with
      | none => rw [h1] at hv; cases hv
      | some b =>
        rw [h1] at hv; cases hv
        simp only [evalE]
        rw [ih ha _ .self b h1]
    | un h => exact ih ha x h v hv
  | extra m y k ihm ihy =>
    obtain ⟨rfl, hm, hy⟩ := hf
    intro x hx v hv
    simp only [constE] at hx
    cases hx with
    | self =>
      rw [kval_extra] at hv
      cases h1 : (constE o vc m).kval with
      | none => rw [h1] at hv; cases hv
      | some a =>
        cases h2 : (constE o vc y).kval with
        | none => rw [h1, h2] at hv; cases hv
        | some b =>
          rw [h1, h2] at hv; cases hv
          simp only [evalE]
          exact ihm hm _ .self _ h1
    | extraL h => exact ihm hm x h v hv
    | extraR h => exact ihy hy x h v hv
  | const c =>
    intro x hx v hv
    simp only [constE] at hx
    cases hx; simpa [Expr.kval, evalE] using hv
  | var i k =>
    intro x hx v hv
    simp only [constE] at hx
    cases hx; exact hs i v hv
  | constVar i c =>
    intro x hx v hv
    simp only [constE] at hx
    cases hx
    simp only [Expr.kval, Option.some.injEq] at hv
    simp only [evalE]; rw [← hv]; exact (show c = cv i from hf).symm
  | spot =>
    intro x hx v hv
    simp only [constE] at hx
    cases hx; cases hv

theorem constC_marks (o : Ops D) (cv : Nat → D) (sp : Sample D) (σ : Nat → D) (vc : ConstSt D)
    (hs : SoundC vc σ) (c : Cond Nat D) (hf : FreshC cv c) :
    ∀ x, SubC x (constC o vc c) → ∀ v, x.kval = some v → evalE o cv sp σ x = v := by
  induction c with
  | cmp op e a f =>
    intro x hx v hv
    simp only [constC] at hx
    cases hx with
    | cmp h => exact constE_marks o cv sp σ vc hs e hf x h v hv
  | and l r f ihl ihr =>
    intro x hx v hv
    simp only [constC] at hx
    cases hx with
    | andL h => exact ihl hf.1 x h v hv
    | andR h => exact ihr hf.2 x h v hv
  | or l r f ihl ihr =>
    intro x hx v hv
    simp only [constC] at hx
    cases hx with
    | orL h => exact ihl hf.1 x h v hv
    | orR h => exact ihr hf.2 x h v hv
  | not c f ih =>
    intro x hx v hv
    simp only [constC] at hx
    cases hx with
    | not h => exact ih hf x h v hv
  | tt => intro x hx; simp only [constC] at hx; cases hx
  | ff => intro x hx; simp only [constC] at hx; cases hx

theorem setC_none_le (vc : ConstSt D) (i : Nat) : LeC (setC vc i none) vc := by
  intro j v h
  unfold setC at h
  split at h
  · cases h
  · exact h

mutual
theorem constS_le (o : Ops D) : (s : Stmt Nat D) → (vc : ConstSt D) → LeC (constS o true vc s).1 vc
  | .assign x e, vc => by simp only [constS, if_true]; exact setC_none_le vc x.v
  | .pays x e, vc => by simp only [constS]; exact setC_none_le vc x.v
  | .ite c t he e af f, vc => by
    simp only [constS]
    exact (constSs_le o e _).trans (constSs_le o t vc)
  | .collect b, vc => by simp only [constS]; exact constSs_le o b vc
theorem constSs_le (o : Ops D) : (ss : Stmts Nat D) → (vc : ConstSt D) → LeC (constSs o true vc ss).1 vc
  | .nil, vc => by simp only [constSs]; exact LeC.refl vc
  | .cons s ss, vc => by simp only [constSs]; exact (constSs_le o ss _).trans (constS_le o s vc)
end

theorem soundC_set_none {vc : ConstSt D} {σ : Nat → D} (hs : SoundC vc σ) (i : Nat) (w : D) :
    SoundC (setC vc i none) (upd σ i w) := by
  intro j v h
  unfold setC at h; unfold upd
  split at h
  · cases h
  · next hj => rw [if_neg hj]; exact hs j v h

mutual
theorem constS_sound (o : Ops D) (cv : Nat → D) (sp : Sample D) : (s : Stmt Nat D) → (b : Bool) →
    (vc : ConstSt D) → (σ : Nat → D) → SoundC vc σ → FreshS cv s →
    SoundC (constS o b vc s).1 (exec o cv sp (constS o b vc s).2 σ)
  | .assign x e, b, vc, σ, hs, hf => by
    simp only [constS, exec]
    cases b with
    | true => simp only [if_true]; exact soundC_set_none hs x.v _
    | false =>
      simp only [Bool.false_eq_true, if_false]
      intro j v h
      unfold setC at h; unfold upd
      split at h
      · next hj => rw [if_pos hj]; exact constE_marks o cv sp σ vc hs e hf _ .self v h
      · next hj => rw [if_neg hj]; exact hs j v h
  | .pays x e, b, vc, σ, hs, hf => by
    simp only [constS, exec]
    exact soundC_set_none hs x.v _
  | .ite c t he e af f, b, vc, σ, hs, hf => by
    simp only [constS, exec]
    have ht := constSs_sound o cv sp t true vc σ hs hf.2.1
    have hle := constSs_le o e (constSs o true vc t).1
    have hmid := hs.le (constSs_le o t vc)
    split
    · exact ht.le hle
    · split
      · exact constSs_sound o cv sp e true _ σ hmid hf.2.2
      · exact hmid.le hle
  | .collect bd, b, vc, σ, hs, hf => by
    simp only [constS, exec]
    exact constSs_sound o cv sp bd b vc σ hs hf
theorem constSs_sound (o : Ops D) (cv : Nat → D) (sp : Sample D) : (ss : Stmts Nat D) → (b : Bool) →
    (vc : ConstSt D) → (σ : Nat → D) → SoundC vc σ → FreshSs cv ss →
    SoundC (constSs o b vc ss).1 (execs o cv sp (constSs o b vc ss).2 σ)
  | .nil, b, vc, σ, hs, hf => by simp only [constSs, execs]; exact hs
  | .cons s ss, b, vc, σ, hs, hf => by
    simp only [constSs, execs]
    exact constSs_sound o cv sp ss b _ _ (constS_sound o cv sp s b vc σ hs hf.1) hf.2
end

mutual
theorem constS_past (o : Ops D) (cv : Nat → D) (sp : Sample D) : (s : Stmt Nat D) → (b : Bool) →
    (vc : ConstSt D) → (σ : Nat → D) → SoundC vc σ → FreshS cv s →
    SoundC (constS o b vc s).1 (pastExec o cv sp (constS o b vc s).2 σ)
  | .assign x e, b, vc, σ, hs, hf => by
    simp only [constS, pastExec]
    cases b with
    | true => simp only [if_true]; exact soundC_set_none hs x.v _
    | false =>
      simp only [Bool.false_eq_true, if_false]
      intro j v h
      unfold setC at h; unfold upd
      split at h
      · next hj => rw [if_pos hj]; exact constE_marks o cv sp σ vc hs e hf _ .self v h
      · next hj => rw [if_neg hj]; exact hs j v h
  | .pays x e, b, vc, σ, hs, hf => by
    simp only [constS, pastExec]
    exact hs.le (setC_none_le vc x.v)
  | .ite c t he e af f, b, vc, σ, hs, hf => by
    simp only [constS, pastExec]
    have ht := constSs_past o cv sp t true vc σ hs hf.2.1
    have hle := constSs_le o e (constSs o true vc t).1
    have hmid := hs.le (constSs_le o t vc)
    split
    · exact ht.le hle
    · split
      · exact constSs_past o cv sp e true _ σ hmid hf.2.2
      · exact hmid.le hle
  | .collect bd, b, vc, σ, hs, hf => by
    simp only [constS, pastExec]
    exact constSs_past o cv sp bd b vc σ hs hf
theorem constSs_past (o : Ops D) (cv : Nat → D) (sp : Sample D) : (ss : Stmts Nat D) → (b : Bool) →
    (vc : ConstSt D) → (σ : Nat → D) → SoundC vc σ → FreshSs cv ss →
    SoundC (constSs o b vc ss).1 (pastExecs o cv sp (constSs o b vc ss).2 σ)
  | .nil, b, vc, σ, hs, hf => by simp only [constSs, pastExecs]; exact hs
  | .cons s ss, b, vc, σ, hs, hf => by
    simp only [constSs, pastExecs]
    exact constSs_past o cv sp ss b _ _ (constS_past o cv sp s b vc σ hs hf.1) hf.2
end

mutual
theorem constS_reach (o : Ops D) (cv : Nat → D) (sp : Sample D) : (s : Stmt Nat D) → (b : Bool) →
    (vc : ConstSt D) → (σ : Nat → D) → SoundC vc σ → FreshS cv s → (x : Expr Nat D) → (σ' : Nat → D) →
    Reach o cv sp x (constS o b vc s).2 σ σ' → ∀ v, x.kval = some v → evalE o cv sp σ' x = v
  | .assign l e, b, vc, σ, hs, hf, x, σ', h, v, hv => by
    simp only [constS] at h
    cases h with
    | assign h => exact constE_marks o cv sp σ vc hs e hf x h v hv
  | .pays l e, b, vc, σ, hs, hf, x, σ', h, v, hv => by
    simp only [constS] at h
    cases h with
    | pays h => exact constE_marks o cv sp σ _ (hs.le (setC_none_le vc l.v)) e hf x h v hv
  | .ite c t he e af f, b, vc, σ, hs, hf, x, σ', h, v, hv => by
    simp only [constS] at h
    cases h with
    | cond h => exact constC_marks o cv sp σ vc hs c hf.1 x h v hv
    | then' _ h => exact constSs_reach o cv sp t true vc σ hs hf.2.1 x σ' h v hv
    | else' _ h =>
      exact constSs_reach o cv sp e true _ σ (hs.le (constSs_le o t vc)) hf.2.2 x σ' h v hv
  | .collect bd, b, vc, σ, hs, hf, x, σ', h, v, hv => by
    simp only [constS] at h
    cases h with
    | collect h => exact constSs_reach o cv sp bd b vc σ hs hf x σ' h v hv
theorem constSs_reach (o : Ops D) (cv : Nat → D) (sp : Sample D) : (ss : Stmts Nat D) → (b : Bool) →
    (vc : ConstSt D) → (σ : Nat → D) → SoundC vc σ → FreshSs cv ss → (x : Expr Nat D) → (σ' : Nat → D) →
    Reachs o cv sp x (constSs o b vc ss).2 σ σ' → ∀ v, x.kval = some v → evalE o cv sp σ' x = v
  | .nil, b, vc, σ, hs, hf, x, σ', h, v, hv => by simp only [constSs] at h; cases h
  | .cons s ss, b, vc, σ, hs, hf, x, σ', h, v, hv => by
    simp only [constSs] at h
    cases h with
    | head h => exact constS_reach o cv sp s b vc σ hs hf.1 x σ' h v hv
    | tail h =>
      exact constSs_reach o cv sp ss b _ _ (constS_sound o cv sp s b vc σ hs hf.1) hf.2 x σ' h v hv
end

/-! ### Marks do not change execution -/

theorem constE_eval (o : Ops D) (cv : Nat → D) (sp : Sample D) (σ : Nat → D) (vc : ConstSt D) (e : Expr Nat D) :
    evalE o cv sp σ (constE o vc e) = evalE o cv sp σ e := by
  induction e with
  | bin op l r k ihl ihr => simp only [constE, evalE, ihl, ihr]
  | un op a k ih => simp only [constE, evalE, ih]
  | extra m x k ihm ihx => simp only [constE, evalE, ihm]
  | _ => rfl

theorem constC_eval (o : Ops D) (cv : Nat → D) (sp : Sample D) (σ : Nat → D) (vc : ConstSt D) (c : Cond Nat D) :
    evalC o cv sp σ (constC o vc c) = evalC o cv sp σ c := by
  induction c with
  | cmp op e a f => simp only [constC, evalC, constE_eval]
  | and l r f ihl ihr => simp only [constC, evalC, ihl, ihr]
  | or l r f ihl ihr => simp only [constC, evalC, ihl, ihr]
  | not c f ih => simp only [constC, evalC, ih]
  | _ => rfl

mutual
theorem constS_exec (o : Ops D) (cv : Nat → D) (sp : Sample D) : (s : Stmt Nat D) → (b : Bool) →
    (vc : ConstSt D) → (σ : Nat → D) → exec o cv sp (constS o b vc s).2 σ = exec o cv sp s σ
  | .assign l e, b, vc, σ => by simp only [constS, exec, constE_eval]
  | .pays l e, b, vc, σ => by simp only [constS, exec, constE_eval]
  | .ite c t he e af f, b, vc, σ => by
    simp only [constS, exec, constC_eval]
    rw [constSs_exec o cv sp t true vc σ, constSs_exec o cv sp e true _ σ]
  | .collect bd, b, vc, σ => by simp only [constS, exec]; exact constSs_exec o cv sp bd b vc σ
theorem constSs_exec (o : Ops D) (cv : Nat → D) (sp : Sample D) : (ss : Stmts Nat D) → (b : Bool) →
    (vc : ConstSt D) → (σ : Nat → D) → execs o cv sp (constSs o b vc ss).2 σ = execs o cv sp ss σ
  | .nil, b, vc, σ => by simp only [constSs]
  | .cons s ss, b, vc, σ => by
    simp only [constSs, execs]
    rw [constS_exec o cv sp s b vc σ, constSs_exec o cv sp ss b _ _]
end

mutual
theorem constS_pastExec (o : Ops D) (cv : Nat → D) (sp : Sample D) : (s : Stmt Nat D) → (b : Bool) →
    (vc : ConstSt D) → (σ : Nat → D) → pastExec o cv sp (constS o b vc s).2 σ = pastExec o cv sp s σ
  | .assign l e, b, vc, σ => by simp only [constS, pastExec, constE_eval]
  | .pays l e, b, vc, σ => by simp only [constS, pastExec]
  | .ite c t he e af f, b, vc, σ => by
    simp only [constS, pastExec, constC_eval]
    rw [constSs_pastExec o cv sp t true vc σ, constSs_pastExec o cv sp e true _ σ]
  | .collect bd, b, vc, σ => by simp only [constS, pastExec]; exact constSs_pastExec o cv sp bd b vc σ
theorem constSs_pastExec (o : Ops D) (cv : Nat → D) (sp : Sample D) : (ss : Stmts Nat D) → (b : Bool) →
    (vc : ConstSt D) → (σ : Nat → D) → pastExecs o cv sp (constSs o b vc ss).2 σ = pastExecs o cv sp ss σ
  | .nil, b, vc, σ => by simp only [constSs]
  | .cons s ss, b, vc, σ => by
    simp only [constSs, pastExecs]
    rw [constS_pastExec o cv sp s b vc σ, constSs_pastExec o cv sp ss b _ _]
end

/-- Executing the events `evs` in order, one sample each, comes to the expression `x` with sample
`sp'` in state `σ'`. -/
inductive ReachEv (o : Ops D) (cv : Nat → D) (x : Expr Nat D) :
    List (Stmts Nat D × Sample D) → (Nat → D) → Sample D → (Nat → D) → Prop
  | here {ev sp es σ σ'} : Reachs o cv sp x ev σ σ' → ReachEv o cv x ((ev, sp) :: es) σ sp σ'
  | later {ev sp es σ sp' σ'} : ReachEv o cv x es (execs o cv sp ev σ) sp' σ' →
      ReachEv o cv x ((ev, sp) :: es) σ sp' σ'

theorem constEvents_past (o : Ops D) (cv : Nat → D) (sp : Sample D) (past : List (Stmts Nat D))
    (vc : ConstSt D) (σ : Nat → D) (hs : SoundC vc σ) (hf : ∀ ev ∈ past, FreshSs cv ev) :
    SoundC (constEvents o vc past).1 (past.foldl (fun σ ev => pastExecs o cv sp ev σ) σ) := by
  induction past generalizing vc σ with
  | nil => exact hs
  | cons ev es ih =>
    simp only [constEvents, List.foldl_cons]
    refine ih _ _ ?_ (fun e he => hf e (List.mem_cons_of_mem _ he))
    rw [← constSs_pastExec o cv sp ev false vc σ]
    exact constSs_past o cv sp ev false vc σ hs (hf ev List.mem_cons_self)

theorem constEvents_append (o : Ops D) (vc : ConstSt D) (a b : List (Stmts Nat D)) :
    (constEvents o vc (a ++ b)).2 = (constEvents o vc a).2 ++ (constEvents o (constEvents o vc a).1 b).2 := by
  induction a generalizing vc with
  | nil => rfl
  | cons x a ih => simp only [List.cons_append, constEvents, ih]

theorem constEvents_length (o : Ops D) (vc : ConstSt D) (a : List (Stmts Nat D)) :
    (constEvents o vc a).2.length = a.length := by
  induction a generalizing vc with
  | nil => rfl
  | cons x a ih => simp only [constEvents, List.length_cons, ih]

theorem constEvents_reach (o : Ops D) (cv : Nat → D) (evs : List (Stmts Nat D)) (sps : List (Sample D))
    (vc : ConstSt D) (σ : Nat → D) (hs : SoundC vc σ) (hf : ∀ ev ∈ evs, FreshSs cv ev) (x : Expr Nat D)
    (sp : Sample D) (σ' : Nat → D) (h : ReachEv o cv x ((constEvents o vc evs).2.zip sps) σ sp σ') (v : D)
    (hv : x.kval = some v) : evalE o cv sp σ' x = v := by
  induction evs generalizing sps vc σ with
  | nil => simp only [constEvents, List.zip_nil_left] at h; cases h
  | cons ev es ih =>
    cases sps with
    | nil => simp only [List.zip_nil_right] at h; cases h
    | cons sp sps =>
      simp only [constEvents, List.zip_cons_cons] at h
      cases h with
      | here h => exact constSs_reach o cv sp ev false vc σ hs (hf ev List.mem_cons_self) x σ' h v hv
      | later h =>
        exact ih sps _ _ (constSs_sound o cv sp ev false vc σ hs (hf ev List.mem_cons_self))
          (fun e he => hf e (List.mem_cons_of_mem _ he)) h

end Dal.Script
