import Verif.Script.RoomSpec
import Verif.Script.ConstLemmas
import Mathlib.Data.List.Basic
import Mathlib.Order.Nat

/-! # Lemmas on compiled streams -/

namespace Dal.Script
variable {D : Type}

/-- The stream `N` has the words of `s` from position `a` on. -/
def Has (N : List Word) (a : Nat) (s : Streams D) : Prop :=
  ∀ i, a ≤ i → i < s.ns.length → N[i]? = s.ns[i]?

theorem Has.weaken {N : List Word} {a b : Nat} {s : Streams D} (h : Has N a s) (hab : a ≤ b) : Has N b s :=
  fun i hi => h i (hab.trans hi)

theorem Has.pre {N : List Word} {a : Nat} {s s' : Streams D} (h : Has N a s') (hp : s.ns <+: s'.ns) : Has N a s := by
  intro i hi hl
  rw [h i hi (hl.trans_le hp.length_le)]
  obtain ⟨r, e⟩ := hp
  rw [← e, List.getElem?_append_left hl]

theorem has_op {N : List Word} {a : Nat} {s : Streams D} {o : Op} (h : Has N a (s.op o)) (ha : a ≤ s.ns.length) :
    Has N a s ∧ N[s.ns.length]? = some (.op o) := by
  refine ⟨h.pre (List.prefix_append _ _), ?_⟩
  rw [h _ ha (by simp [Streams.op])]
  simp [Streams.op]

theorem has_arg {N : List Word} {a : Nat} {s : Streams D} {n : Nat} (h : Has N a (s.arg n)) (ha : a ≤ s.ns.length) :
    Has N a s ∧ N[s.ns.length]? = some (.arg n) := by
  refine ⟨h.pre (List.prefix_append _ _), ?_⟩
  rw [h _ ha (by simp [Streams.arg])]
  simp [Streams.arg]

theorem has_opConst {N : List Word} {C : List D} {a : Nat} {s : Streams D} {o : Op} {c : D}
    (h : Has N a (s.opConst o c)) (hc : (s.opConst o c).cs <+: C) (ha : a ≤ s.ns.length) :
    Has N a s ∧ s.cs <+: C ∧ N[s.ns.length]? = some (.op o) ∧ constAt N C (s.ns.length + 1) = some c := by
  have h1 : N[s.ns.length + 1]? = some (.arg s.cs.length) := by
    rw [h _ (by omega) (by simp [Streams.opConst])]
    simp [Streams.opConst]
  refine ⟨h.pre (List.prefix_append _ _), (List.prefix_append _ _).trans hc, ?_, ?_⟩
  · rw [h _ ha (by simp [Streams.opConst])]
    simp [Streams.opConst]
  · rw [constAt, argAt, h1]
    obtain ⟨r, e⟩ := hc
    simp only
    rw [← e, List.getElem?_append_left (by simp [Streams.opConst])]
    simp [Streams.opConst]

theorem pre_op (s : Streams D) (o : Op) : s.ns <+: (s.op o).ns := List.prefix_append _ _
theorem pre_arg (s : Streams D) (n : Nat) : s.ns <+: (s.arg n).ns := List.prefix_append _ _
theorem pre_opConst (s : Streams D) (o : Op) (c : D) : s.ns <+: (s.opConst o c).ns := List.prefix_append _ _
theorem cpre_opConst (s : Streams D) (o : Op) (c : D) : s.cs <+: (s.opConst o c).cs := List.prefix_append _ _

theorem compE_pre (e : Expr Nat D) (f : Bool) (s : Streams D) :
    s.ns <+: (compE f s e).ns ∧ s.cs <+: (compE f s e).cs := by
  induction e generalizing f s with
  | bin op l r k ihl ihr =>
    simp only [compE]
    split
    · exact ⟨pre_opConst _ _ _, cpre_opConst _ _ _⟩
    · split
      · exact ⟨(ihr false s).1.trans (pre_opConst _ _ _), (ihr false s).2.trans (cpre_opConst _ _ _)⟩
      · split
        · exact ⟨(ihl false s).1.trans (pre_opConst _ _ _), (ihl false s).2.trans (cpre_opConst _ _ _)⟩
        · exact ⟨((ihl false s).1.trans (ihr false _).1).trans (pre_op _ _), (ihl false s).2.trans (ihr false _).2⟩
  | un op a k ih =>
    cases op <;> simp only [compE]
    · exact ih false s
    all_goals
      split
      · exact ⟨pre_opConst _ _ _, cpre_opConst _ _ _⟩
      · exact ⟨(ih false s).1.trans (pre_op _ _), (ih false s).2⟩
  | extra m x k ihm ihx =>
    simp only [compE]
    split
    · exact ⟨pre_opConst _ _ _, cpre_opConst _ _ _⟩
    · exact ihm true s
  | const c => exact ⟨pre_opConst _ _ _, cpre_opConst _ _ _⟩
  | constVar i c => exact ⟨pre_opConst _ _ _, cpre_opConst _ _ _⟩
  | var i k => exact ⟨(pre_op _ _).trans (pre_arg _ _), List.prefix_rfl⟩
  | spot => exact ⟨pre_op _ _, List.prefix_rfl⟩

theorem compC_pre (o : Ops D) (eps : D) (c : Cond Nat D) (s : Streams D) :
    s.ns <+: (compC o eps s c).ns ∧ s.cs <+: (compC o eps s c).cs := by
  induction c generalizing s with
  | cmp op e a f =>
    simp only [compC]
    split
    · exact ⟨pre_op _ _, List.prefix_rfl⟩
    · exact ⟨(compE_pre e false s).1.trans (pre_op _ _), (compE_pre e false s).2⟩
  | and l r f ihl ihr => exact ⟨((ihl s).1.trans (ihr _).1).trans (pre_op _ _), (ihl s).2.trans (ihr _).2⟩
  | or l r f ihl ihr => exact ⟨((ihl s).1.trans (ihr _).1).trans (pre_op _ _), (ihl s).2.trans (ihr _).2⟩
  | not c f ih => exact ⟨(ih s).1.trans (pre_op _ _), (ih s).2⟩
  | tt => exact ⟨pre_op _ _, List.prefix_rfl⟩
  | ff => exact ⟨pre_op _ _, List.prefix_rfl⟩

theorem prefix_set {α : Type} {l m : List α} (h : l <+: m) (i : Nat) (x : α) (hi : l.length ≤ i) : l <+: m.set i x := by
  obtain ⟨r, rfl⟩ := h
  rw [List.set_append_right _ _ hi]
  exact List.prefix_append _ _

mutual
theorem compS_pre (o : Ops D) (eps : D) : (st : Stmt Nat D) → (s : Streams D) →
    s.ns <+: (compS o eps s st).ns ∧ s.cs <+: (compS o eps s st).cs
  | .assign x e, s => by
    simp only [compS]
    split
    · exact ⟨(pre_opConst s _ _).trans (pre_arg _ _), (cpre_opConst s _ _ : s.cs <+: (s.opConst .assignConst _).cs)⟩
    · exact ⟨((compE_pre e false s).1.trans (pre_op _ _)).trans (pre_arg _ _), (compE_pre e false s).2⟩
  | .pays x e, s => by
    simp only [compS]
    split
    · exact ⟨(pre_opConst s _ _).trans (pre_arg _ _), (cpre_opConst s _ _ : s.cs <+: (s.opConst .paysConst _).cs)⟩
    · exact ⟨((compE_pre e false s).1.trans (pre_op _ _)).trans (pre_arg _ _), (compE_pre e false s).2⟩
  | .ite c t he e af f, s => by
    have h1 := compC_pre o eps c s
    have hl := h1.1.length_le
    simp only [compS]
    split
    · have h2 := compSs_pre o eps t ((((compC o eps s c).op .ifElse).arg 0).arg 0)
      have hp : (compC o eps s c).ns <+: ((((compC o eps s c).op .ifElse).arg 0).arg 0).ns :=
        ((pre_op _ _).trans (pre_arg _ _)).trans (pre_arg _ _)
      generalize hs3 : compSs o eps ((((compC o eps s c).op .ifElse).arg 0).arg 0) t = s3 at *
      have h3 := compSs_pre o eps e
        { s3 with ns := s3.ns.set ((compC o eps s c).ns.length + 1) (.arg s3.ns.length) }
      refine ⟨?_, (h1.2.trans h2.2).trans h3.2⟩
      refine prefix_set ?_ _ _ (by omega)
      refine List.IsPrefix.trans ?_ h3.1
      exact prefix_set ((h1.1.trans hp).trans h2.1) _ _ (by omega)
    · have h2 := compSs_pre o eps t (((compC o eps s c).op .iff).arg 0)
      have hp : (compC o eps s c).ns <+: (((compC o eps s c).op .iff).arg 0).ns :=
        (pre_op _ _).trans (pre_arg _ _)
      exact ⟨prefix_set ((h1.1.trans hp).trans h2.1) _ _ (by omega), h1.2.trans h2.2⟩
  | .collect b, s => by simp only [compS]; exact compSs_pre o eps b s
theorem compSs_pre (o : Ops D) (eps : D) : (ss : Stmts Nat D) → (s : Streams D) →
    s.ns <+: (compSs o eps s ss).ns ∧ s.cs <+: (compSs o eps s ss).cs
  | .nil, s => by simp only [compSs]; exact ⟨List.prefix_rfl, List.prefix_rfl⟩
  | .cons st ss, s => by
    simp only [compSs]
    exact ⟨(compS_pre o eps st s).1.trans (compSs_pre o eps ss _).1,
      (compS_pre o eps st s).2.trans (compSs_pre o eps ss _).2⟩
end

/-! ### Runs -/

theorem run_succ (o : Ops D) (ns : List Word) (cs : List D) (sp : Sample D) (fuel n i : Nat) (s r : RunSt D)
    (h : run o ns cs sp fuel n i s = some r) : run o ns cs sp (fuel + 1) n i s = some r := by
  induction fuel generalizing n i s r with
  | zero => cases h
  | succ fuel ih =>
    rw [run] at h ⊢
    by_cases hi : i < n
    · rw [if_pos hi] at h ⊢
      cases ha : act o ns cs sp i s with
      | none => rw [ha] at h; cases h
      | some a =>
        rw [ha] at h
        cases a with
        | goto j s' =>
          simp only at h ⊢
          by_cases hf : s'.fits
          · rw [if_pos hf] at h ⊢; exact ih _ _ _ _ h
          · rw [if_neg hf] at h; cases h
        | call m k =>
          simp only at h ⊢
          cases hc : run o ns cs sp fuel m (i + 3) ⟨[], {}, s.σ⟩ with
          | none => rw [hc] at h; cases h
          | some s' =>
            rw [hc] at h
            rw [ih _ _ _ _ hc]
            exact ih _ _ _ _ h
    · rw [if_neg hi] at h ⊢; exact h

theorem run_mono (o : Ops D) (ns : List Word) (cs : List D) (sp : Sample D) {fuel g n i : Nat} {s r : RunSt D}
    (h : run o ns cs sp fuel n i s = some r) (hg : fuel ≤ g) : run o ns cs sp g n i s = some r := by
  induction hg with
  | refl => exact h
  | step _ ih => exact run_succ o ns cs sp _ n i s r ih

section Steps
variable (o : Ops D) (N : List Word) (C : List D) (sp : Sample D) (n : Nat)

/-- From `(i, s)` the loop up to `n` comes to `(j, s')`. -/
def Steps (i : Nat) (s : RunSt D) (j : Nat) (s' : RunSt D) : Prop :=
  ∃ k, ∀ fuel r, run o N C sp fuel n j s' = some r → run o N C sp (fuel + k) n i s = some r

variable {o N C sp n}

theorem Steps.refl (i : Nat) (s : RunSt D) : Steps o N C sp n i s i s := ⟨0, fun _ _ h => h⟩

theorem Steps.trans {i j l : Nat} {s t u : RunSt D} (a : Steps o N C sp n i s j t) (b : Steps o N C sp n j t l u) :
    Steps o N C sp n i s l u := by
  obtain ⟨k1, h1⟩ := a
  obtain ⟨k2, h2⟩ := b
  refine ⟨k2 + k1, fun fuel r h => ?_⟩
  rw [← Nat.add_assoc]
  exact h1 _ _ (h2 _ _ h)

theorem Steps.goto {i j : Nat} {s s' : RunSt D} (hi : i < n) (h : act o N C sp i s = some (.goto j s'))
    (hf : s'.fits) : Steps o N C sp n i s j s' := by
  refine ⟨1, fun fuel r hr => ?_⟩
  rw [run, if_pos hi, h]
  simp only [if_pos hf]
  exact hr

theorem Steps.op {i j : Nat} {s s' : RunSt D} {op : Op} (hi : i < n) (hop : N[i]? = some (.op op)) (hne : op ≠ .ifElse)
    (h : step o N C sp i op s = some (j, s')) (hf : s'.fits) : Steps o N C sp n i s j s' := by
  refine Steps.goto hi ?_ hf
  rw [act, hop]
  cases op <;> first | exact absurd rfl hne | (simp only [h, Option.map_some])

theorem Steps.done {i : Nat} {s s' : RunSt D} (h : Steps o N C sp n i s n s') :
    ∃ k, ∀ g, k ≤ g → run o N C sp g n i s = some s' := by
  obtain ⟨k, hk⟩ := h
  have : run o N C sp 1 n n s' = some s' := by rw [run, if_neg (lt_irrefl n)]
  exact ⟨1 + k, fun g hg => run_mono o N C sp (hk _ _ this) hg⟩

theorem Steps.call {i m k : Nat} {s s' : RunSt D} (hi : i < n) (h : act o N C sp i s = some (.call m k))
    (hs : Steps o N C sp m (i + 3) ⟨[], {}, s.σ⟩ m s') :
    Steps o N C sp n i s k { s' with b := s'.b.pop } := by
  obtain ⟨c, hc⟩ := hs.done
  refine ⟨c + 1, fun fuel r hr => ?_⟩
  rw [← Nat.add_assoc, run, if_pos hi, h]
  simp only
  rw [hc (fuel + c) (by omega)]
  exact run_mono o N C sp hr (by omega)

/-- Commutativity of the operations for which the compiler swaps operands. -/
structure CommOps (o : Ops D) : Prop where
  add : ∀ x y, o.add x y = o.add y x
  mul : ∀ x y, o.mul x y = o.mul y x
  max : ∀ x y, evalBin o .max x y = evalBin o .max y x
  min : ∀ x y, evalBin o .min x y = evalBin o .min y x

theorem step_bin (op : BinOp) (i : Nat) (a b : D) (d : List D) (bs : BStack) (σ : Nat → D) :
    step o N C sp i (opBin op) ⟨b :: a :: d, bs, σ⟩ = some (i + 1, ⟨evalBin o op a b :: d, bs, σ⟩) := by
  cases op <;> rfl

theorem step_right (op : BinOp) (i : Nat) (t c : D) (d : List D) (bs : BStack) (σ : Nat → D)
    (hc : constAt N C (i + 1) = some c) :
    step o N C sp i (opConstRight op) ⟨t :: d, bs, σ⟩ = some (i + 2, ⟨evalBin o op t c :: d, bs, σ⟩) := by
  cases op <;> simp [step, semBin, semConst, opConstRight, hc, evalBin]

theorem step_left (hcm : CommOps o) (op : BinOp) (i : Nat) (t c : D) (d : List D) (bs : BStack) (σ : Nat → D)
    (hc : constAt N C (i + 1) = some c) :
    step o N C sp i (opConstLeft op) ⟨t :: d, bs, σ⟩ = some (i + 2, ⟨evalBin o op c t :: d, bs, σ⟩) := by
  cases op
  case max => rw [hcm.max]; simp [step, semBin, semConst, opConstLeft, hc, evalBin]
  case min => rw [hcm.min]; simp [step, semBin, semConst, opConstLeft, hc, evalBin]
  case add => simp [step, semBin, semConst, opConstLeft, hc, evalBin, hcm.add c t]
  case mul => simp [step, semBin, semConst, opConstLeft, hc, evalBin, hcm.mul c t]
  all_goals simp [step, semBin, semConst, opConstLeft, hc, evalBin]

theorem step_const (i : Nat) (c : D) (d : List D) (bs : BStack) (σ : Nat → D) (hc : constAt N C (i + 1) = some c) :
    step o N C sp i .const ⟨d, bs, σ⟩ = some (i + 2, ⟨c :: d, bs, σ⟩) := by
  simp [step, semBin, semConst, semUn, semCmp, hc]

theorem step_constVar (i : Nat) (c : D) (d : List D) (bs : BStack) (σ : Nat → D) (hc : constAt N C (i + 1) = some c) :
    step o N C sp i .constVar ⟨d, bs, σ⟩ = some (i + 2, ⟨c :: d, bs, σ⟩) := by
  simp [step, semBin, semConst, semUn, semCmp, hc]

/-- Pushing a constant. -/
theorem steps_const {s : Streams D} {v : D} {d : List D} {bs : BStack} {σ : Nat → D}
    (hN : Has N s.ns.length (s.opConst .const v)) (hC : (s.opConst .const v).cs <+: C)
    (hn : (s.opConst .const v).ns.length ≤ n) (hd : d.length + 1 ≤ 128) (hb : bs.items.length ≤ 128) :
    Steps o N C sp n s.ns.length ⟨d, bs, σ⟩ (s.opConst .const v).ns.length ⟨v :: d, bs, σ⟩ := by
  obtain ⟨-, -, h3, h4⟩ := has_opConst hN hC le_rfl
  have hl : (s.opConst .const v).ns.length = s.ns.length + 2 := by simp [Streams.opConst]
  rw [hl] at hn ⊢
  exact Steps.op (by omega) h3 (by decide) (step_const _ v d bs σ h4) ⟨by simpa using hd, hb⟩

theorem kval_eval {o : Ops D} {cv : Nat → D} {sp : Sample D} {σ : Nat → D} {e x : Expr Nat D}
    (h : MarksE o cv sp σ e) (hx : SubE x e) {v : D} (hv : x.kval = some v) : evalE o cv sp σ x = v := h x hx v hv

/-- An instruction with a constant operand after the code of its argument. -/
theorem steps_opConst {s s1 : Streams D} {op : Op} {v x y : D} {d : List D} {bs : BStack} {σ : Nat → D}
    (hp : s.ns <+: s1.ns) (hN : Has N s.ns.length (s1.opConst op v)) (hC : (s1.opConst op v).cs <+: C)
    (hn : (s1.opConst op v).ns.length ≤ n) (hne : op ≠ .ifElse)
    (hstep : ∀ i, constAt N C (i + 1) = some v → step o N C sp i op ⟨x :: d, bs, σ⟩ = some (i + 2, ⟨y :: d, bs, σ⟩))
    (hd : d.length + 1 ≤ 128) (hb : bs.items.length ≤ 128)
    (ih : Has N s.ns.length s1 → s1.cs <+: C → s1.ns.length ≤ n →
      Steps o N C sp n s.ns.length ⟨d, bs, σ⟩ s1.ns.length ⟨x :: d, bs, σ⟩) :
    Steps o N C sp n s.ns.length ⟨d, bs, σ⟩ (s1.opConst op v).ns.length ⟨y :: d, bs, σ⟩ := by
  obtain ⟨h1, h2, h3, h4⟩ := has_opConst hN hC hp.length_le
  have hl : (s1.opConst op v).ns.length = s1.ns.length + 2 := by simp [Streams.opConst]
  rw [hl] at hn ⊢
  exact (ih h1 h2 (by omega)).trans (Steps.op (by omega) h3 hne (hstep _ h4) ⟨by simpa using hd, hb⟩)

/-- An instruction without operand after the code of its argument. -/
theorem steps_un {s s1 : Streams D} {op : Op} {x : D} {d : List D} {bs : BStack} {σ : Nat → D} {t : RunSt D}
    (hp : s.ns <+: s1.ns) (hN : Has N s.ns.length (s1.op op)) (hn : (s1.op op).ns.length ≤ n) (hne : op ≠ .ifElse)
    (hstep : ∀ i, step o N C sp i op ⟨x :: d, bs, σ⟩ = some (i + 1, t)) (hf : t.fits)
    (ih : Has N s.ns.length s1 → s1.ns.length ≤ n →
      Steps o N C sp n s.ns.length ⟨d, bs, σ⟩ s1.ns.length ⟨x :: d, bs, σ⟩) :
    Steps o N C sp n s.ns.length ⟨d, bs, σ⟩ (s1.op op).ns.length t := by
  obtain ⟨h1, h2⟩ := has_op hN hp.length_le
  have hl : (s1.op op).ns.length = s1.ns.length + 1 := by simp [Streams.op]
  rw [hl] at hn ⊢
  exact (ih h1 (by omega)).trans (Steps.op (by omega) h2 hne (hstep _) hf)

theorem roomE_pos (e : Expr Nat D) : 1 ≤ roomE e := by
  induction e with
  | bin op l r k _ _ => simp only [roomE]; omega
  | un op a k ih => exact ih
  | extra m y k ih _ => exact ih
  | const c => exact le_rfl
  | constVar i c => exact le_rfl
  | var i k => exact le_rfl
  | spot => exact le_rfl

theorem room_one {e : Expr Nat D} {d : List D} (h : d.length + roomE e ≤ 128) : d.length + 1 ≤ 128 :=
  (Nat.add_le_add_left (roomE_pos e) _).trans h

theorem steps_E (hcm : CommOps o) (cv : Nat → D) (e : Expr Nat D) : ∀ (f : Bool) (s : Streams D) (d : List D)
    (bs : BStack) (σ : Nat → D), MarksE o cv sp σ e → Has N s.ns.length (compE f s e) →
    (compE f s e).cs <+: C → (compE f s e).ns.length ≤ n → d.length + roomE e ≤ 128 → bs.items.length ≤ 128 →
    Steps o N C sp n s.ns.length ⟨d, bs, σ⟩ (compE f s e).ns.length ⟨evalE o cv sp σ e :: d, bs, σ⟩ := by
  induction e with
  | bin op l r k ihl ihr =>
    intro f s d bs σ hm hN hC hn hd hb
    have hml : MarksE o cv sp σ l := fun x hx => hm x (.binL hx)
    have hmr : MarksE o cv sp σ r := fun x hx => hm x (.binR hx)
    simp only [compE] at hN hC hn ⊢
    cases hk : (if f = true then none else k) with
    | some v =>
      have hv : k = some v := by
        cases f with
        | true => simp at hk
        | false => simpa using hk
      rw [hk] at hN hC hn
      rw [show evalE o cv sp σ (.bin op l r k) = v from hm _ .self v hv]
      exact steps_const hN hC hn (room_one hd) hb
    | none =>
      rw [hk] at hN hC hn
      simp only at hN hC hn ⊢
      cases hl : l.kval with
      | some x =>
        rw [hl] at hN hC hn
        simp only at hN hC hn ⊢
        refine steps_opConst (compE_pre r false s).1 hN hC hn (by cases op <;> decide)
          (x := evalE o cv sp σ r) ?_ (room_one hd) hb (fun a b c => ihr false s d bs σ hmr a b c (by simp only [roomE] at hd; omega) hb)
        intro i hi
        simp only [evalE]
        rw [hml _ .self x hl]
        exact step_left hcm op i _ x d bs σ hi
      | none =>
        rw [hl] at hN hC hn
        simp only at hN hC hn ⊢
        cases hr : r.kval with
        | some y =>
          rw [hr] at hN hC hn
          simp only at hN hC hn ⊢
          refine steps_opConst (compE_pre l false s).1 hN hC hn (by cases op <;> decide)
            (x := evalE o cv sp σ l) ?_ (room_one hd) hb (fun a b c => ihl false s d bs σ hml a b c (by simp only [roomE] at hd; omega) hb)
          intro i hi
          simp only [evalE]
          rw [hmr _ .self y hr]
          exact step_right op i _ y d bs σ hi
        | none =>
          rw [hr] at hN hC hn
          simp only at hN hC hn ⊢
          have hp1 := compE_pre l false s
          have hp2 := compE_pre r false (compE false s l)
          obtain ⟨h1, h2⟩ := has_op hN (hp1.1.trans hp2.1).length_le
          have hlen : ((compE false (compE false s l) r).op (opBin op)).ns.length =
            (compE false (compE false s l) r).ns.length + 1 := by simp [Streams.op]
          rw [hlen] at hn ⊢
          have hC' : (compE false (compE false s l) r).cs <+: C := hC
          refine Steps.trans (ihl false s d bs σ hml (h1.pre hp2.1) (hp2.2.trans hC')
            (by have := hp2.1.length_le; omega) (by simp only [roomE] at hd; omega) hb) ?_
          refine Steps.trans (ihr false (compE false s l) _ bs σ hmr (h1.weaken hp1.1.length_le) hC' (by omega) (by simp only [roomE, List.length_cons] at hd ⊢; omega) hb) ?_
          exact Steps.op (by omega) h2 (by cases op <;> decide) (step_bin op _ _ _ d bs σ) ⟨(room_one hd), hb⟩
  | un op a k ih =>
    intro f s d bs σ hm hN hC hn hd hb
    have hma : MarksE o cv sp σ a := fun x hx => hm x (.un hx)
    cases op
    · simp only [compE] at hN hC hn ⊢
      exact ih false s d bs σ hma hN hC hn hd hb
    all_goals
      simp only [compE] at hN hC hn ⊢
      cases hk : k with
      | some v =>
        subst hk
        rw [hm _ .self v rfl]
        exact steps_const hN hC hn (room_one hd) hb
      | none =>
        subst hk
        simp only at hN hC hn ⊢
        refine steps_un (compE_pre a false s).1 hN hn (by decide) (x := evalE o cv sp σ a) ?_ ⟨(room_one hd), hb⟩
          (fun x y => ih false s d bs σ hma x hC y hd hb)
        intro i; rfl
  | extra m y k ihm ihy =>
    intro f s d bs σ hm hN hC hn hd hb
    have hmm : MarksE o cv sp σ m := fun x hx => hm x (.extraL hx)
    simp only [compE] at hN hC hn ⊢
    cases hk : (if f = true then none else k) with
    | some v =>
      have hv : k = some v := by
        cases f with
        | true => simp at hk
        | false => simpa using hk
      rw [hk] at hN hC hn
      rw [show evalE o cv sp σ (.extra m y k) = v from hm _ .self v hv]
      exact steps_const hN hC hn (room_one hd) hb
    | none =>
      rw [hk] at hN hC hn
      exact ihm true s d bs σ hmm hN hC hn hd hb
  | const c => intro f s d bs σ hm hN hC hn hd hb; exact steps_const hN hC hn (room_one hd) hb
  | constVar i c =>
    intro f s d bs σ hm hN hC hn hd hb
    simp only [compE] at hN hC hn ⊢
    rw [hm _ .self c rfl]
    obtain ⟨-, -, h3, h4⟩ := has_opConst hN hC le_rfl
    have hl : (s.opConst .constVar c).ns.length = s.ns.length + 2 := by simp [Streams.opConst]
    rw [hl] at hn ⊢
    exact Steps.op (by omega) h3 (by decide) (step_constVar _ c d bs σ h4) ⟨(room_one hd), hb⟩
  | var i k =>
    intro f s d bs σ hm hN hC hn hd hb
    simp only [compE] at hN hC hn ⊢
    obtain ⟨h1, h2⟩ := has_arg hN (by simp [Streams.op])
    obtain ⟨-, h3⟩ := has_op h1 le_rfl
    have hl : ((s.op .var).arg i).ns.length = s.ns.length + 2 := by simp [Streams.op, Streams.arg]
    have hl1 : (s.op .var).ns.length = s.ns.length + 1 := by simp [Streams.op]
    rw [hl] at hn ⊢
    rw [hl1] at h2
    refine Steps.op (by omega) h3 (by decide) ?_ ⟨(room_one hd), hb⟩
    simp [step, semBin, semConst, semUn, semCmp, argAt, h2, evalE]
  | spot =>
    intro f s d bs σ hm hN hC hn hd hb
    simp only [compE] at hN hC hn ⊢
    obtain ⟨-, h3⟩ := has_op hN le_rfl
    have hl1 : (s.op .spot).ns.length = s.ns.length + 1 := by simp [Streams.op]
    rw [hl1] at hn ⊢
    exact Steps.op (by omega) h3 (by decide) rfl ⟨(room_one hd), hb⟩

/-- A constant compared with `>=` at compile time is not a tiny negative number. -/
def FoldC (o : Ops D) (eps : D) : Cond Nat D → Prop
  | .cmp .supEq e _ _ => ∀ v, e.kval = some v → o.lt (o.neg eps) v = o.le o.zero v
  | .cmp _ _ _ _ => True
  | .and l r _ => FoldC o eps l ∧ FoldC o eps r
  | .or l r _ => FoldC o eps l ∧ FoldC o eps r
  | .not c _ => FoldC o eps c
  | .tt => True
  | .ff => True

theorem truthsC_pos (c : Cond Nat D) : 1 ≤ truthsC c := by
  induction c with
  | cmp op e a f => exact le_rfl
  | and l r f _ _ => simp only [truthsC]; omega
  | or l r f _ _ => simp only [truthsC]; omega
  | not c f ih => exact ih
  | tt => exact le_rfl
  | ff => exact le_rfl

theorem truths_one {c : Cond Nat D} {B : List Bool} (h : B.length + truthsC c ≤ 128) : B.length + 1 ≤ 128 :=
  (Nat.add_le_add_left (truthsC_pos c) _).trans h

theorem steps_C (hcm : CommOps o) (eps : D) (cv : Nat → D) (c : Cond Nat D) : ∀ (s : Streams D) (d : List D)
    (B : List Bool) (σ : Nat → D), (∀ x, SubC x c → ∀ v, x.kval = some v → evalE o cv sp σ x = v) →
    FoldC o eps c → Has N s.ns.length (compC o eps s c) →
    (compC o eps s c).cs <+: C → (compC o eps s c).ns.length ≤ n →
    d.length + roomC c ≤ 128 → B.length + truthsC c ≤ 128 →
    Steps o N C sp n s.ns.length ⟨d, ⟨B, 0⟩, σ⟩ (compC o eps s c).ns.length ⟨d, ⟨evalC o cv sp σ c :: B, 0⟩, σ⟩ := by
  induction c with
  | cmp op e a f =>
    intro s d B σ hm hfo hN hC hn hd hb
    have hme : MarksE o cv sp σ e := fun x hx => hm x (.cmp hx)
    simp only [compC] at hN hC hn ⊢
    cases hk : e.kval with
    | some v =>
      rw [hk] at hN hC hn
      simp only at hN hC hn ⊢
      have hv := hme _ .self v hk
      have hfold : foldCmp o eps op v = evalC o cv sp σ (.cmp op e a f) := by
        simp only [evalC]; rw [hv]
        cases op
        · rfl
        · rfl
        · exact hfo v hk
      rw [hfold] at hN hC hn ⊢
      obtain ⟨-, h3⟩ := has_op hN le_rfl
      have hl1 : (s.op (if evalC o cv sp σ (.cmp op e a f) = true then Op.true' else Op.false')).ns.length =
        s.ns.length + 1 := by simp [Streams.op]
      rw [hl1] at hn ⊢
      refine Steps.op (by omega) h3 (by split <;> decide) ?_ ⟨(Nat.le_add_right _ _).trans hd, truths_one hb⟩
      cases evalC o cv sp σ (.cmp op e a f) <;> rfl
    | none =>
      rw [hk] at hN hC hn
      simp only at hN hC hn ⊢
      refine steps_un (compE_pre e false s).1 hN hn (by cases op <;> decide) (x := evalE o cv sp σ e) ?_ ⟨(Nat.le_add_right _ _).trans hd, truths_one hb⟩
        (fun x y => steps_E hcm cv e false s d _ σ hme x hC y hd ((Nat.le_add_right _ _).trans hb))
      intro i
      cases op <;> rfl
  | and l r f ihl ihr =>
    intro s d B σ hm hfo hN hC hn hd hb
    simp only [compC] at hN hC hn ⊢
    have hp1 := compC_pre o eps l s
    have hp2 := compC_pre o eps r (compC o eps s l)
    obtain ⟨h1, h2⟩ := has_op hN (hp1.1.trans hp2.1).length_le
    have hlen : ((compC o eps (compC o eps s l) r).op .and).ns.length =
      (compC o eps (compC o eps s l) r).ns.length + 1 := by simp [Streams.op]
    rw [hlen] at hn ⊢
    have hC' : (compC o eps (compC o eps s l) r).cs <+: C := hC
    refine Steps.trans (ihl s d B σ (fun x hx => hm x (.andL hx)) hfo.1 (h1.pre hp2.1) (hp2.2.trans hC')
      (by have := hp2.1.length_le; omega) (by simp only [roomC] at hd; omega) (by simp only [truthsC] at hb; omega)) ?_
    refine Steps.trans (ihr (compC o eps s l) d _ σ (fun x hx => hm x (.andR hx)) hfo.2
      (h1.weaken hp1.1.length_le) hC' (by omega) (by simp only [roomC] at hd; omega)
      (by simp only [truthsC, List.length_cons] at hb ⊢; omega)) ?_
    refine Steps.op (by omega) h2 (by decide) ?_ ⟨(Nat.le_add_right _ _).trans hd, truths_one hb⟩
    simp only [step, semBin, semConst, semUn, semCmp, evalC]
    cases evalC o cv sp σ l <;> rfl
  | or l r f ihl ihr =>
    intro s d B σ hm hfo hN hC hn hd hb
    simp only [compC] at hN hC hn ⊢
    have hp1 := compC_pre o eps l s
    have hp2 := compC_pre o eps r (compC o eps s l)
    obtain ⟨h1, h2⟩ := has_op hN (hp1.1.trans hp2.1).length_le
    have hlen : ((compC o eps (compC o eps s l) r).op .or).ns.length =
      (compC o eps (compC o eps s l) r).ns.length + 1 := by simp [Streams.op]
    rw [hlen] at hn ⊢
    have hC' : (compC o eps (compC o eps s l) r).cs <+: C := hC
    refine Steps.trans (ihl s d B σ (fun x hx => hm x (.orL hx)) hfo.1 (h1.pre hp2.1) (hp2.2.trans hC')
      (by have := hp2.1.length_le; omega) (by simp only [roomC] at hd; omega) (by simp only [truthsC] at hb; omega)) ?_
    refine Steps.trans (ihr (compC o eps s l) d _ σ (fun x hx => hm x (.orR hx)) hfo.2
      (h1.weaken hp1.1.length_le) hC' (by omega) (by simp only [roomC] at hd; omega)
      (by simp only [truthsC, List.length_cons] at hb ⊢; omega)) ?_
    refine Steps.op (by omega) h2 (by decide) ?_ ⟨(Nat.le_add_right _ _).trans hd, truths_one hb⟩
    simp only [step, semBin, semConst, semUn, semCmp, evalC]
    cases evalC o cv sp σ l <;> rfl
  | not c f ih =>
    intro s d B σ hm hfo hN hC hn hd hb
    simp only [compC] at hN hC hn ⊢
    have hp1 := compC_pre o eps c s
    obtain ⟨h1, h2⟩ := has_op hN hp1.1.length_le
    have hlen : ((compC o eps s c).op .not).ns.length = (compC o eps s c).ns.length + 1 := by simp [Streams.op]
    rw [hlen] at hn ⊢
    refine Steps.trans (ih s d B σ (fun x hx => hm x (.not hx)) hfo h1 hC (by omega) hd hb) ?_
    exact Steps.op (by omega) h2 (by decide) rfl ⟨(Nat.le_add_right _ _).trans hd, truths_one hb⟩
  | tt =>
    intro s d B σ hm hfo hN hC hn hd hb
    simp only [compC] at hN hC hn ⊢
    obtain ⟨-, h3⟩ := has_op hN le_rfl
    have hl1 : (s.op .true').ns.length = s.ns.length + 1 := by simp [Streams.op]
    rw [hl1] at hn ⊢
    exact Steps.op (by omega) h3 (by decide) rfl ⟨(Nat.le_add_right _ _).trans hd, truths_one hb⟩
  | ff =>
    intro s d B σ hm hfo hN hC hn hd hb
    simp only [compC] at hN hC hn ⊢
    obtain ⟨-, h3⟩ := has_op hN le_rfl
    have hl1 : (s.op .false').ns.length = s.ns.length + 1 := by simp [Streams.op]
    rw [hl1] at hn ⊢
    exact Steps.op (by omega) h3 (by decide) rfl ⟨(Nat.le_add_right _ _).trans hd, truths_one hb⟩

mutual
/-- Folding conditions of the statements. -/
def FoldS (o : Ops D) (eps : D) : Stmt Nat D → Prop
  | .assign _ _ => True
  | .pays _ _ => True
  | .ite c t _ e _ _ => FoldC o eps c ∧ FoldSs o eps t ∧ FoldSs o eps e
  | .collect b => FoldSs o eps b
/-- Folding conditions of statements in order. -/
def FoldSs (o : Ops D) (eps : D) : Stmts Nat D → Prop
  | .nil => True
  | .cons s ss => FoldS o eps s ∧ FoldSs o eps ss
end

mutual
/-- Whether an `IF ... ELSE` whose condition held has been executed (the result), from a state where
that already happened or not (the Boolean argument); `none` when a condition is tested after that. -/
def elseS (o : Ops D) (cv : Nat → D) (sp : Sample D) : Stmt Nat D → (Nat → D) → Bool → Option Bool
  | .assign _ _, _, b => some b
  | .pays _ _, _, b => some b
  | .ite c t he e _ _, σ, b =>
    if b then none
    else if evalC o cv sp σ c then
      if he then (elseSs o cv sp t σ false).map (fun _ => true) else elseSs o cv sp t σ false
    else if he then elseSs o cv sp e σ false else some false
  | .collect bd, σ, b => elseSs o cv sp bd σ b
/-- The same for statements in order. -/
def elseSs (o : Ops D) (cv : Nat → D) (sp : Sample D) : Stmts Nat D → (Nat → D) → Bool → Option Bool
  | .nil, _, b => some b
  | .cons s ss, σ, b =>
    match elseS o cv sp s σ b with
    | some b' => elseSs o cv sp ss (exec o cv sp s σ) b'
    | none => none
end

theorem has_set {N : List Word} {a i : Nat} {w : Word} {s : Streams D}
    (h : Has N a { s with ns := s.ns.set i w }) : Has N (max a (i + 1)) s := by
  intro j hj hl
  have := h j (by omega) (by simpa using hl)
  rw [this]
  simp only
  rw [List.getElem?_set_ne (by omega)]

theorem has_set_at {N : List Word} {a i : Nat} {w : Word} {s : Streams D}
    (h : Has N a { s with ns := s.ns.set i w }) (ha : a ≤ i) (hi : i < s.ns.length) : N[i]? = some w := by
  rw [h i ha (by simpa using hi)]
  simp only
  rw [List.getElem?_set_self hi]

theorem has_set_ne {N : List Word} {a i j : Nat} {w : Word} {s : Streams D}
    (h : Has N a { s with ns := s.ns.set i w }) (ha : a ≤ j) (hj : j < s.ns.length) (hne : i ≠ j) :
    N[j]? = s.ns[j]? := by
  rw [h j ha (by simpa using hj)]
  simp only
  rw [List.getElem?_set_ne hne]

theorem has_set_below {N : List Word} {a i : Nat} {w : Word} {s : Streams D}
    (h : Has N a { s with ns := s.ns.set i w }) (ha : i < a) : Has N a s := by
  have := has_set h
  rwa [show max a (i + 1) = a by omega] at this

theorem get_of_prefix {α : Type} {l m : List α} (h : l <+: m) {i : Nat} (hi : i < l.length) : m[i]? = l[i]? := by
  obtain ⟨r, rfl⟩ := h
  exact List.getElem?_append_left hi

theorem fits_nil {u : Nat} {σ : Nat → D} : (⟨[], ⟨[], u⟩, σ⟩ : RunSt D).fits := by simp [RunSt.fits]

mutual
theorem steps_S (hcm : CommOps o) (eps : D) (cv : Nat → D) : (st : Stmt Nat D) → (n : Nat) → (s : Streams D) → (u : Nat) →
    (σ : Nat → D) → (b' : Bool) →
    (∀ x σ', Reach o cv sp x st σ σ' → ∀ v, x.kval = some v → evalE o cv sp σ' x = v) →
    FoldS o eps st → elseS o cv sp st σ (decide (u ≠ 0)) = some b' →
    Has N s.ns.length (compS o eps s st) → (compS o eps s st).cs <+: C → (compS o eps s st).ns.length ≤ n →
    roomS st ≤ 128 → truthsS st ≤ 128 →
    ∃ u', decide (u' ≠ 0) = b' ∧
    Steps o N C sp n s.ns.length ⟨[], ⟨[], u⟩, σ⟩ (compS o eps s st).ns.length ⟨[], ⟨[], u'⟩, exec o cv sp st σ⟩
  | .assign x e, n, s, u, σ, b', hm, hfo, hel, hN, hC, hn, hd, hb => by
    simp only [elseS, Option.some.injEq] at hel
    refine ⟨u, hel, ?_⟩
    have hme : MarksE o cv sp σ e := fun y hy => hm y σ (.assign hy)
    simp only [compS] at hN hC hn ⊢
    simp only [exec]
    cases hk : e.kval with
    | some v =>
      rw [hk] at hN hC hn
      simp only at hN hC hn ⊢
      obtain ⟨h1, h2⟩ := has_arg hN (pre_opConst _ _ _).length_le
      obtain ⟨-, -, h3, h4⟩ := has_opConst h1 hC le_rfl
      have hl : (s.opConst .assignConst v).ns.length = s.ns.length + 2 := by simp [Streams.opConst]
      have hl2 : ((s.opConst .assignConst v).arg x.v).ns.length = s.ns.length + 3 := by simp [Streams.opConst, Streams.arg]
      rw [hl2] at hn ⊢
      rw [hl] at h2
      refine Steps.op (by omega) h3 (by decide) ?_ fits_nil
      rw [hme _ .self v hk]
      simp [step, semBin, semConst, semUn, semCmp, h4, argAt, h2]
    | none =>
      rw [hk] at hN hC hn
      simp only at hN hC hn ⊢
      have hp := compE_pre e false s
      obtain ⟨h1, h2⟩ := has_arg hN (hp.1.trans (pre_op _ _)).length_le
      obtain ⟨h3, h4⟩ := has_op h1 hp.1.length_le
      have hl : ((compE false s e).op .assign).ns.length = (compE false s e).ns.length + 1 := by simp [Streams.op]
      have hl2 : (((compE false s e).op .assign).arg x.v).ns.length = (compE false s e).ns.length + 2 := by
        simp [Streams.op, Streams.arg]
      rw [hl2] at hn ⊢
      rw [hl] at h2
      refine (steps_E hcm cv e false s _ _ σ hme h3 hC (by omega)
        (by simpa only [roomS, List.length_nil, Nat.zero_add] using hd) (by simp)).trans ?_
      refine Steps.op (by omega) h4 (by decide) ?_ fits_nil
      simp [step, semBin, semConst, semUn, semCmp, argAt, h2]
  | .pays x e, n, s, u, σ, b', hm, hfo, hel, hN, hC, hn, hd, hb => by
    simp only [elseS, Option.some.injEq] at hel
    refine ⟨u, hel, ?_⟩
    have hme : MarksE o cv sp σ e := fun y hy => hm y σ (.pays hy)
    simp only [compS] at hN hC hn ⊢
    simp only [exec]
    cases hk : e.kval with
    | some v =>
      rw [hk] at hN hC hn
      simp only at hN hC hn ⊢
      obtain ⟨h1, h2⟩ := has_arg hN (pre_opConst _ _ _).length_le
      obtain ⟨-, -, h3, h4⟩ := has_opConst h1 hC le_rfl
      have hl : (s.opConst .paysConst v).ns.length = s.ns.length + 2 := by simp [Streams.opConst]
      have hl2 : ((s.opConst .paysConst v).arg x.v).ns.length = s.ns.length + 3 := by simp [Streams.opConst, Streams.arg]
      rw [hl2] at hn ⊢
      rw [hl] at h2
      refine Steps.op (by omega) h3 (by decide) ?_ fits_nil
      rw [hme _ .self v hk]
      simp [step, semBin, semConst, semUn, semCmp, h4, argAt, h2]
    | none =>
      rw [hk] at hN hC hn
      simp only at hN hC hn ⊢
      have hp := compE_pre e false s
      obtain ⟨h1, h2⟩ := has_arg hN (hp.1.trans (pre_op _ _)).length_le
      obtain ⟨h3, h4⟩ := has_op h1 hp.1.length_le
      have hl : ((compE false s e).op .pays).ns.length = (compE false s e).ns.length + 1 := by simp [Streams.op]
      have hl2 : (((compE false s e).op .pays).arg x.v).ns.length = (compE false s e).ns.length + 2 := by
        simp [Streams.op, Streams.arg]
      rw [hl2] at hn ⊢
      rw [hl] at h2
      refine (steps_E hcm cv e false s _ _ σ hme h3 hC (by omega)
        (by simpa only [roomS, List.length_nil, Nat.zero_add] using hd) (by simp)).trans ?_
      refine Steps.op (by omega) h4 (by decide) ?_ fits_nil
      simp [step, semBin, semConst, semUn, semCmp, argAt, h2]
  | .ite c t he e af f, n, s, u, σ, b', hm, hfo, hel, hN, hC, hn, hd, hb => by
    have hmc : ∀ x, SubC x c → ∀ v, x.kval = some v → evalE o cv sp σ x = v := fun x hx => hm x σ (.cond hx)
    simp only [elseS] at hel
    by_cases hu : u ≠ 0
    · simp [hu] at hel
    · have hu0 : u = 0 := by omega
      subst hu0
      simp only [ne_eq, not_true_eq_false, decide_false, Bool.false_eq_true, if_false] at hel
      simp only [exec]
      simp only [compS] at hN hC hn ⊢
      have hpc := compC_pre o eps c s
      cases he with
      | false =>
        simp only [Bool.false_eq_true, if_false] at hel hN hC hn ⊢
        generalize hs1 : compC o eps s c = s1 at *
        have hp2 : s1.ns <+: ((s1.op .iff).arg 0).ns := (pre_op _ _).trans (pre_arg _ _)
        have hl2 : ((s1.op .iff).arg 0).ns.length = s1.ns.length + 2 := by simp [Streams.op, Streams.arg]
        have hp3 := compSs_pre o eps t ((s1.op .iff).arg 0)
        generalize hs2 : (s1.op .iff).arg 0 = s2 at *
        generalize hs3 : compSs o eps s2 t = s3 at *
        have hlen3 : s1.ns.length + 2 ≤ s3.ns.length := by rw [← hl2]; exact hp3.1.length_le
        have hls := hpc.1.length_le
        simp only [List.length_set] at hn ⊢
        have hjump : N[s1.ns.length + 1]? = some (.arg s3.ns.length) := has_set_at hN (by omega) (by omega)
        have hif : N[s1.ns.length]? = some (.op .iff) := by
          rw [has_set_ne hN (by omega) (by omega) (by omega), get_of_prefix hp3.1 (by omega)]
          subst hs2; simp [Streams.op, Streams.arg]
        have hN1 : Has N s.ns.length s1 := by
          intro i hi hl
          rw [has_set_ne hN hi (by omega) (by omega), get_of_prefix (hp2.trans hp3.1) hl]
        have hN3 : Has N s2.ns.length s3 := has_set_below (hN.weaken (by omega)) (by omega)
        have hC2 : s2.cs = s1.cs := by subst hs2; rfl
        have hcond := steps_C (n := n) (N := N) (C := C) hcm eps cv c s [] [] σ hmc hfo.1 (by rw [hs1]; exact hN1)
          (by rw [hs1, ← hC2]; exact hp3.2.trans hC) (by rw [hs1]; omega) (by simp only [roomS] at hd; simp only [List.length_nil]; omega)
          (by simp only [truthsS] at hb; simp only [List.length_nil]; omega)
        rw [hs1] at hcond
        cases hev : evalC o cv sp σ c with
        | true =>
          rw [hev] at hel hcond
          simp only [if_true] at hel ⊢
          obtain ⟨u', hu', hst⟩ := steps_Ss hcm eps cv t n s2 0 σ b'
            (fun x σ' hr => hm x σ' (.then' hev hr)) hfo.2.1 (by simpa using hel)
            (by rw [hs3]; exact hN3) (by rw [hs3]; exact hC) (by rw [hs3]; omega)
              (by simp only [roomS] at hd; omega) (by simp only [truthsS] at hb; omega)
          rw [hs3] at hst
          refine ⟨u', hu', (hcond.trans ?_).trans hst⟩
          rw [hl2]
          exact Steps.op (by omega) hif (by decide) rfl fits_nil
        | false =>
          rw [hev] at hel hcond
          simp only [Bool.false_eq_true, if_false, Option.some.injEq] at hel ⊢
          refine ⟨0, by simpa using hel, hcond.trans ?_⟩
          refine Steps.op (by omega) hif (by decide) ?_ fits_nil
          simp [step, semBin, semConst, semUn, semCmp, argAt, hjump, BStack.pop]
      | true =>
        simp only [if_true] at hel hN hC hn ⊢
        generalize hs1 : compC o eps s c = s1 at *
        have hp2 : s1.ns <+: (((s1.op .ifElse).arg 0).arg 0).ns := ((pre_op _ _).trans (pre_arg _ _)).trans (pre_arg _ _)
        have hl2 : (((s1.op .ifElse).arg 0).arg 0).ns.length = s1.ns.length + 3 := by simp [Streams.op, Streams.arg]
        have hp3 := compSs_pre o eps t (((s1.op .ifElse).arg 0).arg 0)
        generalize hs2 : ((s1.op .ifElse).arg 0).arg 0 = s2 at *
        generalize hs3 : compSs o eps s2 t = s3 at *
        have hlen3 : s1.ns.length + 3 ≤ s3.ns.length := by rw [← hl2]; exact hp3.1.length_le
        have hls := hpc.1.length_le
        generalize hs4 : ({ s3 with ns := s3.ns.set (s1.ns.length + 1) (.arg s3.ns.length) } : Streams D) = s4 at *
        have hl4 : s4.ns.length = s3.ns.length := by subst hs4; simp
        have hc4 : s4.cs = s3.cs := by subst hs4; rfl
        have hp5 := compSs_pre o eps e s4
        generalize hs5 : compSs o eps s4 e = s5 at *
        have hlen5 : s4.ns.length ≤ s5.ns.length := hp5.1.length_le
        simp only [List.length_set] at hn ⊢
        have hN5 : ∀ j, s.ns.length ≤ j → j < s5.ns.length → j ≠ s1.ns.length + 2 → N[j]? = s5.ns[j]? :=
          fun j h1 h2 h3 => has_set_ne hN h1 h2 (fun e => h3 e.symm)
        have hN4 : ∀ j, s.ns.length ≤ j → j < s3.ns.length → j ≠ s1.ns.length + 2 → j ≠ s1.ns.length + 1 →
            N[j]? = s3.ns[j]? := by
          intro j h1 h2 h3 h4
          rw [hN5 j h1 (by omega) h3, get_of_prefix hp5.1 (by omega)]
          subst hs4
          simp only
          rw [List.getElem?_set_ne (by omega)]
        have hj2 : N[s1.ns.length + 2]? = some (.arg s5.ns.length) := has_set_at hN (by omega) (by omega)
        have hj1 : N[s1.ns.length + 1]? = some (.arg s3.ns.length) := by
          rw [hN5 _ (by omega) (by omega) (by omega), get_of_prefix hp5.1 (by omega)]
          subst hs4
          simp only
          rw [List.getElem?_set_self (by omega)]
        have hif : N[s1.ns.length]? = some (.op .ifElse) := by
          rw [hN4 _ (by omega) (by omega) (by omega) (by omega), get_of_prefix hp3.1 (by omega)]
          subst hs2; simp [Streams.op, Streams.arg]
        have hN1 : Has N s.ns.length s1 := by
          intro i hi hl
          rw [hN4 i hi (by omega) (by omega) (by omega), get_of_prefix (hp2.trans hp3.1) hl]
        have hN3 : Has N s2.ns.length s3 := by
          intro i hi hl
          exact hN4 i (by omega) hl (by omega) (by omega)
        have hN6 : Has N s4.ns.length s5 := by
          intro i hi hl
          exact hN5 i (by omega) hl (by omega)
        have hC2 : s2.cs = s1.cs := by subst hs2; rfl
        have hC3 : s3.cs <+: C := by rw [← hc4]; exact hp5.2.trans hC
        have hcond := steps_C (n := n) (N := N) (C := C) hcm eps cv c s [] [] σ hmc hfo.1 (by rw [hs1]; exact hN1)
          (by rw [hs1, ← hC2]; exact hp3.2.trans hC3) (by rw [hs1]; omega) (by simp only [roomS] at hd; simp only [List.length_nil]; omega)
          (by simp only [truthsS] at hb; simp only [List.length_nil]; omega)
        rw [hs1] at hcond
        cases hev : evalC o cv sp σ c with
        | true =>
          rw [hev] at hel hcond
          simp only [if_true] at hel ⊢
          cases hel' : elseSs o cv sp t σ false with
          | none => rw [hel'] at hel; cases hel
          | some b1 =>
            rw [hel'] at hel
            simp only [Option.map_some, Option.some.injEq] at hel
            obtain ⟨u', hu', hst⟩ := steps_Ss hcm eps cv t s3.ns.length s2 0 σ b1
              (fun x σ' hr => hm x σ' (.then' hev hr)) hfo.2.1 (by simpa using hel')
              (by rw [hs3]; exact hN3) (by rw [hs3]; exact hC3) (by rw [hs3])
              (by simp only [roomS] at hd; omega) (by simp only [truthsS] at hb; omega)
            rw [hs3, hl2] at hst
            refine ⟨u' + 1, by simpa using hel, hcond.trans ?_⟩
            refine Steps.call (n := n) (i := s1.ns.length) (m := s3.ns.length) (s := ⟨[], ⟨[true], 0⟩, σ⟩)
              (s' := ⟨[], ⟨[], u'⟩, execs o cv sp t σ⟩) (by omega) ?_ hst
            rw [act, hif]
            have hne : ¬ s3.ns.length = 0 := by omega
            simp only [argAt, hj1, hj2, if_neg hne]
        | false =>
          rw [hev] at hel hcond
          simp only [Bool.false_eq_true, if_false] at hel ⊢
          obtain ⟨u', hu', hst⟩ := steps_Ss hcm eps cv e n s4 0 σ b'
            (fun x σ' hr => hm x σ' (.else' hev hr)) hfo.2.2 (by simpa using hel)
            (by rw [hs5]; exact hN6) (by rw [hs5]; exact hC) (by rw [hs5]; omega)
              (by simp only [roomS] at hd; omega) (by simp only [truthsS] at hb; omega)
          rw [hs5] at hst
          refine ⟨u', hu', (hcond.trans ?_).trans hst⟩
          rw [hl4]
          refine Steps.goto (by omega) ?_ fits_nil
          rw [act, hif]
          simp [argAt, hj1, BStack.pop]
  | .collect bd, n, s, u, σ, b', hm, hfo, hel, hN, hC, hn, hd, hb => by
    simp only [elseS] at hel
    simp only [compS] at hN hC hn ⊢
    simp only [exec]
    exact steps_Ss hcm eps cv bd n s u σ b' (fun x σ' hr => hm x σ' (.collect hr)) hfo hel hN hC hn hd hb
theorem steps_Ss (hcm : CommOps o) (eps : D) (cv : Nat → D) : (ss : Stmts Nat D) → (n : Nat) → (s : Streams D) → (u : Nat) →
    (σ : Nat → D) → (b' : Bool) →
    (∀ x σ', Reachs o cv sp x ss σ σ' → ∀ v, x.kval = some v → evalE o cv sp σ' x = v) →
    FoldSs o eps ss → elseSs o cv sp ss σ (decide (u ≠ 0)) = some b' →
    Has N s.ns.length (compSs o eps s ss) → (compSs o eps s ss).cs <+: C → (compSs o eps s ss).ns.length ≤ n →
    roomSs ss ≤ 128 → truthsSs ss ≤ 128 →
    ∃ u', decide (u' ≠ 0) = b' ∧
    Steps o N C sp n s.ns.length ⟨[], ⟨[], u⟩, σ⟩ (compSs o eps s ss).ns.length ⟨[], ⟨[], u'⟩, execs o cv sp ss σ⟩
  | .nil, n, s, u, σ, b', hm, hfo, hel, hN, hC, hn, hd, hb => by
    simp only [elseSs, Option.some.injEq] at hel
    simp only [compSs, execs]
    exact ⟨u, hel, Steps.refl _ _⟩
  | .cons st ss, n, s, u, σ, b', hm, hfo, hel, hN, hC, hn, hd, hb => by
    simp only [elseSs] at hel
    simp only [compSs] at hN hC hn ⊢
    simp only [execs]
    cases h1 : elseS o cv sp st σ (decide (u ≠ 0)) with
    | none => rw [h1] at hel; cases hel
    | some b1 =>
      rw [h1] at hel
      simp only at hel
      have hp1 := compS_pre o eps st s
      have hp2 := compSs_pre o eps ss (compS o eps s st)
      obtain ⟨u1, hu1, hs1⟩ := steps_S hcm eps cv st n s u σ b1 (fun x σ' hr => hm x σ' (.head hr)) hfo.1 h1
        (hN.pre hp2.1) (hp2.2.trans hC) (hp2.1.length_le.trans hn)
        (by simp only [roomSs] at hd; omega) (by simp only [truthsSs] at hb; omega)
      obtain ⟨u2, hu2, hs2⟩ := steps_Ss hcm eps cv ss n _ u1 _ b' (fun x σ' hr => hm x σ' (.tail hr)) hfo.2
        (by rw [hu1]; exact hel) (hN.weaken hp1.1.length_le) hC hn
        (by simp only [roomSs] at hd; omega) (by simp only [truthsSs] at hb; omega)
      exact ⟨u2, hu2, hs1.trans hs2⟩
end

end Steps

mutual
theorem elseS_const (o : Ops D) (cv : Nat → D) (sp : Sample D) : (st : Stmt Nat D) → (cb : Bool) → (vc : ConstSt D) →
    (σ : Nat → D) → (b : Bool) → elseS o cv sp (constS o cb vc st).2 σ b = elseS o cv sp st σ b
  | .assign x e, cb, vc, σ, b => by simp only [constS, elseS]
  | .pays x e, cb, vc, σ, b => by simp only [constS, elseS]
  | .ite c t he e af f, cb, vc, σ, b => by
    simp only [constS, elseS, constC_eval]
    rw [elseSs_const o cv sp t, elseSs_const o cv sp e]
  | .collect bd, cb, vc, σ, b => by simp only [constS, elseS]; exact elseSs_const o cv sp bd cb vc σ b
theorem elseSs_const (o : Ops D) (cv : Nat → D) (sp : Sample D) : (ss : Stmts Nat D) → (cb : Bool) → (vc : ConstSt D) →
    (σ : Nat → D) → (b : Bool) → elseSs o cv sp (constSs o cb vc ss).2 σ b = elseSs o cv sp ss σ b
  | .nil, cb, vc, σ, b => by simp only [constSs]
  | .cons s ss, cb, vc, σ, b => by
    simp only [constSs, elseSs]
    rw [elseS_const o cv sp s, constS_exec]
    cases elseS o cv sp s σ b with
    | none => rfl
    | some b' => exact elseSs_const o cv sp ss cb _ _ b'
end

theorem roomE_const (o : Ops D) (vc : ConstSt D) (e : Expr Nat D) : roomE (constE o vc e) = roomE e := by
  induction e with
  | bin op l r k ihl ihr => simp only [constE, roomE, ihl, ihr]
  | un op a k ih => simp only [constE, roomE, ih]
  | extra m y k ih _ => simp only [constE, roomE, ih]
  | const c => rfl
  | constVar i c => rfl
  | var i k => rfl
  | spot => rfl

theorem roomC_const (o : Ops D) (vc : ConstSt D) (c : Cond Nat D) : roomC (constC o vc c) = roomC c := by
  induction c with
  | cmp op e a f => simp only [constC, roomC, roomE_const]
  | and l r f ihl ihr => simp only [constC, roomC, ihl, ihr]
  | or l r f ihl ihr => simp only [constC, roomC, ihl, ihr]
  | not c f ih => simp only [constC, roomC, ih]
  | tt => rfl
  | ff => rfl

theorem truthsC_const (o : Ops D) (vc : ConstSt D) (c : Cond Nat D) : truthsC (constC o vc c) = truthsC c := by
  induction c with
  | cmp op e a f => rfl
  | and l r f ihl ihr => simp only [constC, truthsC, ihl, ihr]
  | or l r f ihl ihr => simp only [constC, truthsC, ihl, ihr]
  | not c f ih => simp only [constC, truthsC, ih]
  | tt => rfl
  | ff => rfl

mutual
theorem roomS_const (o : Ops D) : (st : Stmt Nat D) → (cb : Bool) → (vc : ConstSt D) →
    roomS (constS o cb vc st).2 = roomS st
  | .assign x e, cb, vc => by simp only [constS, roomS, roomE_const]
  | .pays x e, cb, vc => by simp only [constS, roomS, roomE_const]
  | .ite c t he e af f, cb, vc => by
    simp only [constS, roomS, roomC_const]
    rw [roomSs_const o t, roomSs_const o e]
  | .collect bd, cb, vc => by simp only [constS, roomS]; exact roomSs_const o bd cb vc
theorem roomSs_const (o : Ops D) : (ss : Stmts Nat D) → (cb : Bool) → (vc : ConstSt D) →
    roomSs (constSs o cb vc ss).2 = roomSs ss
  | .nil, cb, vc => by simp only [constSs]
  | .cons s ss, cb, vc => by
    simp only [constSs, roomSs]
    rw [roomS_const o s, roomSs_const o ss]
end

mutual
theorem truthsS_const (o : Ops D) : (st : Stmt Nat D) → (cb : Bool) → (vc : ConstSt D) →
    truthsS (constS o cb vc st).2 = truthsS st
  | .assign x e, cb, vc => by simp only [constS, truthsS]
  | .pays x e, cb, vc => by simp only [constS, truthsS]
  | .ite c t he e af f, cb, vc => by
    simp only [constS, truthsS, truthsC_const]
    rw [truthsSs_const o t, truthsSs_const o e]
  | .collect bd, cb, vc => by simp only [constS, truthsS]; exact truthsSs_const o bd cb vc
theorem truthsSs_const (o : Ops D) : (ss : Stmts Nat D) → (cb : Bool) → (vc : ConstSt D) →
    truthsSs (constSs o cb vc ss).2 = truthsSs ss
  | .nil, cb, vc => by simp only [constSs]
  | .cons s ss, cb, vc => by
    simp only [constSs, truthsSs]
    rw [truthsS_const o s, truthsSs_const o ss]
end

end Dal.Script
