import Verif.Script.IndexModel
import Mathlib.Data.List.Basic
import Mathlib.Data.List.Nodup

/-! # Specification notions and lemmas for indexing and branch effects -/

namespace Dal.Script
variable {ν D : Type}

/-! ### Renaming -/

/-- Replace variables by `f` and constants by `g`. -/
def Expr.map (f g : ν → Nat) : Expr ν D → Expr Nat D
  | .bin op l r k => .bin op (l.map f g) (r.map f g) k
  | .un op a k => .un op (a.map f g) k
  | .extra m x k => .extra (m.map f g) (x.map f g) k
  | .const c => .const c
  | .var n k => .var (f n) k
  | .constVar n c => .constVar (g n) c
  | .spot => .spot

/-- Replace variables by `f` and constants by `g` in a condition. -/
def Cond.map (f g : ν → Nat) : Cond ν D → Cond Nat D
  | .cmp op e a fl => .cmp op (e.map f g) a fl
  | .and l r fl => .and (l.map f g) (r.map f g) fl
  | .or l r fl => .or (l.map f g) (r.map f g) fl
  | .not c fl => .not (c.map f g) fl
  | .tt => .tt
  | .ff => .ff

/-- Replace the name on a left-hand side. -/
def Lhs.map (f g : ν → Nat) (x : Lhs ν) : Lhs Nat := ⟨if x.isConst then g x.v else f x.v, x.isConst⟩

mutual
/-- Replace the names in a statement. -/
def Stmt.map (f g : ν → Nat) : Stmt ν D → Stmt Nat D
  | .assign x e => .assign (x.map f g) (e.map f g)
  | .pays x e => .pays (x.map f g) (e.map f g)
  | .ite c t he e af fl => .ite (c.map f g) (t.map f g) he (e.map f g) af fl
  | .collect b => .collect (b.map f g)
/-- Replace the names in statements. -/
def Stmts.map (f g : ν → Nat) : Stmts ν D → Stmts Nat D
  | .nil => .nil
  | .cons s ss => .cons (s.map f g) (ss.map f g)
end

/-- The variable names (`false`) and constant names (`true`) occurring in an expression, with the
value carried by constants. -/
def Expr.names : Expr ν D → List (ν × Option D)
  | .bin _ l r _ => l.names ++ r.names
  | .un _ a _ => a.names
  | .extra m x _ => m.names ++ x.names
  | .const _ => []
  | .var n _ => [(n, none)]
  | .constVar n c => [(n, some c)]
  | .spot => []

/-- The names in a condition. -/
def Cond.names : Cond ν D → List (ν × Option D)
  | .cmp _ e _ _ => e.names
  | .and l r _ => l.names ++ r.names
  | .or l r _ => l.names ++ r.names
  | .not c _ => c.names
  | .tt => []
  | .ff => []

/-- The name on a left-hand side. -/
def Lhs.names (cval : ν → D) (x : Lhs ν) : List (ν × Option D) :=
  [(x.v, if x.isConst then some (cval x.v) else none)]

mutual
/-- The names in a statement. -/
def Stmt.names (cval : ν → D) : Stmt ν D → List (ν × Option D)
  | .assign x e => x.names cval ++ e.names
  | .pays x e => x.names cval ++ e.names
  | .ite c t _ e _ _ => c.names ++ (t.names cval ++ e.names cval)
  | .collect b => b.names cval
/-- The names in statements. -/
def Stmts.names (cval : ν → D) : Stmts ν D → List (ν × Option D)
  | .nil => []
  | .cons s ss => s.names cval ++ ss.names cval
end

/-! ### The maps -/

variable [DecidableEq ν]

/-- `m'` extends `m`. -/
def Ext (s t : Indexer ν D) : Prop := s.vars <+: t.vars ∧ s.consts <+: t.consts

theorem Ext.refl (s : Indexer ν D) : Ext s s := ⟨List.prefix_rfl, List.prefix_rfl⟩
theorem Ext.trans {s t u : Indexer ν D} (a : Ext s t) (b : Ext t u) : Ext s u :=
  ⟨a.1.trans b.1, a.2.trans b.2⟩

theorem find_append {β : Type} (n : ν) (m r : List (ν × β)) (b : β) (h : find n m = some b) :
    find n (m ++ r) = some b := by
  induction m with
  | nil => cases h
  | cons x m ih =>
    obtain ⟨k, c⟩ := x
    simp only [List.cons_append, find] at h ⊢
    split at h
    · next hk => rw [if_pos hk]; exact h
    · next hk => rw [if_neg hk]; exact ih h

theorem find_append_none {β : Type} (n : ν) (m : List (ν × β)) (b : β) (h : find n m = none) :
    find n (m ++ [(n, b)]) = some b := by
  induction m with
  | nil => simp [find]
  | cons x m ih =>
    obtain ⟨k, c⟩ := x
    simp only [List.cons_append, find] at h ⊢
    split at h
    · cases h
    · next hk => rw [if_neg hk]; exact ih h

theorem find_prefix {β : Type} {n : ν} {m t : List (ν × β)} {b : β} (h : find n m = some b) (e : m <+: t) :
    find n t = some b := by
  obtain ⟨r, rfl⟩ := e; exact find_append n m r b h

theorem find_none_not_mem {β : Type} {n : ν} {m : List (ν × β)} (h : find n m = none) : n ∉ m.map (·.1) := by
  induction m with
  | nil => simp
  | cons x m ih =>
    obtain ⟨k, c⟩ := x
    simp only [find] at h
    split at h
    · cases h
    · next hk => simp only [List.map_cons, List.mem_cons, not_or]; exact ⟨fun e => hk e.symm, ih h⟩

theorem find_mem {β : Type} {n : ν} {m : List (ν × β)} {b : β} (h : find n m = some b) : (n, b) ∈ m := by
  induction m with
  | nil => cases h
  | cons x m ih =>
    obtain ⟨k, c⟩ := x
    simp only [find] at h
    split at h
    · next hk => subst hk; cases h; exact List.mem_cons_self
    · exact List.mem_cons_of_mem _ (ih h)

/-- The slot of a variable in a final state. -/
def Indexer.slot (t : Indexer ν D) (n : ν) : Nat := (find n t.vars).getD 0
/-- The slot of a constant in a final state. -/
def Indexer.cslot (t : Indexer ν D) (n : ν) : Nat := ((find n t.consts).map (·.1)).getD 0

/-- Slots are positions, names are distinct. -/
structure Good (s : Indexer ν D) : Prop where
  idx : s.vars.map (·.2) = List.range s.vars.length
  nd : (s.vars.map (·.1)).Nodup
  cidx : s.consts.map (fun e => e.2.1) = List.range s.consts.length
  cnd : (s.consts.map (·.1)).Nodup

/-- An occurring name has an entry. -/
def Known (t : Indexer ν D) (o : ν × Option D) : Prop :=
  match o.2 with
  | none => ∃ i, find o.1 t.vars = some i
  | some _ => ∃ i, find o.1 t.consts = some i

theorem Known.ext {s t : Indexer ν D} {o : ν × Option D} (h : Known s o) (e : Ext s t) : Known t o := by
  obtain ⟨n, c⟩ := o
  cases c with
  | none => obtain ⟨i, hi⟩ := h; exact ⟨i, find_prefix hi e.1⟩
  | some c => obtain ⟨i, hi⟩ := h; exact ⟨i, find_prefix hi e.2⟩

theorem visitVar_spec (s : Indexer ν D) (hs : Good s) (n : ν) :
    Good (s.visitVar n).1 ∧ Ext s (s.visitVar n).1 ∧ find n (s.visitVar n).1.vars = some (s.visitVar n).2 := by
  unfold Indexer.visitVar
  cases h : find n s.vars with
  | some i => exact ⟨hs, Ext.refl s, h⟩
  | none =>
    refine ⟨⟨?_, ?_, hs.cidx, hs.cnd⟩, ⟨List.prefix_append _ _, List.prefix_rfl⟩, find_append_none n _ _ h⟩
    · simp [hs.idx, List.range_succ]
    · simp only [List.map_append, List.map_cons, List.map_nil]
      refine hs.nd.append (List.nodup_singleton n) ?_
      intro x hx hx'
      rw [List.mem_singleton] at hx'; subst hx'
      exact find_none_not_mem h hx

theorem visitConst_spec (s : Indexer ν D) (hs : Good s) (n : ν) (c : D) :
    Good (s.visitConst n c).1 ∧ Ext s (s.visitConst n c).1 ∧
      ∃ v, find n (s.visitConst n c).1.consts = some ((s.visitConst n c).2, v) := by
  unfold Indexer.visitConst
  cases h : find n s.consts with
  | some i => exact ⟨hs, Ext.refl s, i.2, h⟩
  | none =>
    refine ⟨⟨hs.idx, hs.nd, ?_, ?_⟩, ⟨List.prefix_rfl, List.prefix_append _ _⟩, c, find_append_none n _ _ h⟩
    · simp [hs.cidx, List.range_succ]
    · simp only [List.map_append, List.map_cons, List.map_nil]
      refine hs.cnd.append (List.nodup_singleton n) ?_
      intro x hx hx'
      rw [List.mem_singleton] at hx'; subst hx'
      exact find_none_not_mem h hx

/-- What visiting a piece of script must do. -/
def Spec {α β : Type} (s : Indexer ν D) (r : Indexer ν D × β) (x : α) (map : (ν → Nat) → (ν → Nat) → α → β)
    (names : α → List (ν × Option D)) : Prop :=
  Good r.1 ∧ Ext s r.1 ∧ (∀ o ∈ names x, Known r.1 o) ∧ ∀ t, Ext r.1 t → r.2 = map t.slot t.cslot x

theorem expr_spec (e : Expr ν D) (s : Indexer ν D) (hs : Good s) :
    Spec s (s.expr e) e Expr.map Expr.names := by
  induction e generalizing s with
  | bin op l r k ihl ihr =>
    obtain ⟨a1, a2, a3, a4⟩ := ihl s hs
    obtain ⟨b1, b2, b3, b4⟩ := ihr _ a1
    refine ⟨b1, a2.trans b2, ?_, ?_⟩
    · intro o ho
      simp only [Expr.names, List.mem_append] at ho
      exact ho.elim (fun h => (a3 o h).ext b2) (fun h => b3 o h)
    · intro t ht
      simp only [Indexer.expr, Expr.map]
      rw [a4 t (b2.trans ht), b4 t ht]
  | un op a k ih =>
    obtain ⟨a1, a2, a3, a4⟩ := ih s hs
    refine ⟨a1, a2, a3, fun t ht => ?_⟩
    simp only [Indexer.expr, Expr.map]; rw [a4 t ht]
  | extra m x k ihl ihr =>
    obtain ⟨a1, a2, a3, a4⟩ := ihl s hs
    obtain ⟨b1, b2, b3, b4⟩ := ihr _ a1
    refine ⟨b1, a2.trans b2, ?_, ?_⟩
    · intro o ho
      simp only [Expr.names, List.mem_append] at ho
      exact ho.elim (fun h => (a3 o h).ext b2) (fun h => b3 o h)
    · intro t ht
      simp only [Indexer.expr, Expr.map]
      rw [a4 t (b2.trans ht), b4 t ht]
  | const c => exact ⟨hs, Ext.refl s, by simp [Expr.names], fun t ht => rfl⟩
  | spot => exact ⟨hs, Ext.refl s, by simp [Expr.names], fun t ht => rfl⟩
  | var n k =>
    obtain ⟨h1, h2, h3⟩ := visitVar_spec s hs n
    refine ⟨h1, h2, ?_, fun t ht => ?_⟩
    · intro o ho
      simp only [Expr.names, List.mem_singleton] at ho
      subst ho; exact ⟨_, h3⟩
    · simp only [Indexer.expr, Expr.map, Indexer.slot]
      rw [find_prefix h3 ht.1]; rfl
  | constVar n c =>
    obtain ⟨h1, h2, v, h3⟩ := visitConst_spec s hs n c
    refine ⟨h1, h2, ?_, fun t ht => ?_⟩
    · intro o ho
      simp only [Expr.names, List.mem_singleton] at ho
      subst ho; exact ⟨_, h3⟩
    · simp only [Indexer.expr, Expr.map, Indexer.cslot]
      rw [find_prefix h3 ht.2]; rfl

theorem cond_spec (e : Cond ν D) (s : Indexer ν D) (hs : Good s) :
    Spec s (s.cond e) e Cond.map Cond.names := by
  induction e generalizing s with
  | cmp op e a f =>
    obtain ⟨a1, a2, a3, a4⟩ := expr_spec e s hs
    refine ⟨a1, a2, a3, fun t ht => ?_⟩
    simp only [Indexer.cond, Cond.map]; rw [a4 t ht]
  | and l r k ihl ihr =>
    obtain ⟨a1, a2, a3, a4⟩ := ihl s hs
    obtain ⟨b1, b2, b3, b4⟩ := ihr _ a1
    refine ⟨b1, a2.trans b2, ?_, ?_⟩
    · intro o ho
      simp only [Cond.names, List.mem_append] at ho
      exact ho.elim (fun h => (a3 o h).ext b2) (fun h => b3 o h)
    · intro t ht
      simp only [Indexer.cond, Cond.map]
      rw [a4 t (b2.trans ht), b4 t ht]
  | or l r k ihl ihr =>
    obtain ⟨a1, a2, a3, a4⟩ := ihl s hs
    obtain ⟨b1, b2, b3, b4⟩ := ihr _ a1
    refine ⟨b1, a2.trans b2, ?_, ?_⟩
    · intro o ho
      simp only [Cond.names, List.mem_append] at ho
      exact ho.elim (fun h => (a3 o h).ext b2) (fun h => b3 o h)
    · intro t ht
      simp only [Indexer.cond, Cond.map]
      rw [a4 t (b2.trans ht), b4 t ht]
  | not c f ih =>
    obtain ⟨a1, a2, a3, a4⟩ := ih s hs
    refine ⟨a1, a2, a3, fun t ht => ?_⟩
    simp only [Indexer.cond, Cond.map]; rw [a4 t ht]
  | tt => exact ⟨hs, Ext.refl s, by simp [Cond.names], fun t ht => rfl⟩
  | ff => exact ⟨hs, Ext.refl s, by simp [Cond.names], fun t ht => rfl⟩

theorem lhs_spec (cval : ν → D) (x : Lhs ν) (s : Indexer ν D) (hs : Good s) :
    Spec s (s.lhs cval x) x Lhs.map (Lhs.names cval) := by
  obtain ⟨n, b⟩ := x
  cases b with
  | false =>
    obtain ⟨h1, h2, h3⟩ := visitVar_spec s hs n
    refine ⟨h1, h2, ?_, fun t ht => ?_⟩
    · intro o ho
      simp only [Lhs.names, List.mem_singleton] at ho
      subst ho; exact ⟨_, h3⟩
    · simp only [Indexer.lhs, Lhs.map, Indexer.slot, Bool.false_eq_true, if_false]
      rw [find_prefix h3 ht.1]; rfl
  | true =>
    obtain ⟨h1, h2, v, h3⟩ := visitConst_spec s hs n (cval n)
    refine ⟨h1, h2, ?_, fun t ht => ?_⟩
    · intro o ho
      simp only [Lhs.names, List.mem_singleton] at ho
      subst ho; exact ⟨_, h3⟩
    · simp only [Indexer.lhs, Lhs.map, Indexer.cslot, if_true]
      rw [find_prefix h3 ht.2]; rfl

mutual
theorem stmt_spec (cval : ν → D) : (st : Stmt ν D) → (s : Indexer ν D) → Good s →
    Spec s (s.stmt cval st) st Stmt.map (Stmt.names cval)
  | .assign x e, s, hs => by
    obtain ⟨a1, a2, a3, a4⟩ := lhs_spec cval x s hs
    obtain ⟨b1, b2, b3, b4⟩ := expr_spec e _ a1
    refine ⟨b1, a2.trans b2, ?_, ?_⟩
    · intro o ho
      simp only [Stmt.names, List.mem_append] at ho
      exact ho.elim (fun h => (a3 o h).ext b2) (fun h => b3 o h)
    · intro t ht
      simp only [Indexer.stmt, Stmt.map]
      rw [a4 t (b2.trans ht), b4 t ht]
  | .pays x e, s, hs => by
    obtain ⟨a1, a2, a3, a4⟩ := lhs_spec cval x s hs
    obtain ⟨b1, b2, b3, b4⟩ := expr_spec e _ a1
    refine ⟨b1, a2.trans b2, ?_, ?_⟩
    · intro o ho
      simp only [Stmt.names, List.mem_append] at ho
      exact ho.elim (fun h => (a3 o h).ext b2) (fun h => b3 o h)
    · intro t ht
      simp only [Indexer.stmt, Stmt.map]
      rw [a4 t (b2.trans ht), b4 t ht]
  | .ite c t he e af f, s, hs => by
    obtain ⟨a1, a2, a3, a4⟩ := cond_spec c s hs
    obtain ⟨b1, b2, b3, b4⟩ := stmts_spec cval t _ a1
    obtain ⟨d1, d2, d3, d4⟩ := stmts_spec cval e _ b1
    refine ⟨d1, (a2.trans b2).trans d2, ?_, ?_⟩
    · intro o ho
      simp only [Stmt.names, List.mem_append] at ho
      rcases ho with h | h | h
      · exact (a3 o h).ext (b2.trans d2)
      · exact (b3 o h).ext d2
      · exact d3 o h
    · intro u hu
      simp only [Indexer.stmt, Stmt.map]
      rw [a4 u ((b2.trans d2).trans hu), b4 u (d2.trans hu), d4 u hu]
  | .collect b, s, hs => by
    obtain ⟨a1, a2, a3, a4⟩ := stmts_spec cval b s hs
    refine ⟨a1, a2, a3, fun t ht => ?_⟩
    simp only [Indexer.stmt, Stmt.map]; rw [a4 t ht]
theorem stmts_spec (cval : ν → D) : (ss : Stmts ν D) → (s : Indexer ν D) → Good s →
    Spec s (s.stmts cval ss) ss Stmts.map (Stmts.names cval)
  | .nil, s, hs => ⟨hs, Ext.refl s, by intro o ho; simp [Stmts.names] at ho, fun t ht => rfl⟩
  | .cons st ss, s, hs => by
    obtain ⟨a1, a2, a3, a4⟩ := stmt_spec cval st s hs
    obtain ⟨b1, b2, b3, b4⟩ := stmts_spec cval ss _ a1
    refine ⟨b1, a2.trans b2, ?_, ?_⟩
    · intro o ho
      simp only [Stmts.names, List.mem_append] at ho
      exact ho.elim (fun h => (a3 o h).ext b2) (fun h => b3 o h)
    · intro t ht
      simp only [Indexer.stmts, Stmts.map]
      rw [a4 t (b2.trans ht), b4 t ht]
end

theorem events_spec (cval : ν → D) (evs : List (Stmts ν D)) (s : Indexer ν D) (hs : Good s) :
    Spec s (s.events cval evs) evs (fun f g => List.map (Stmts.map f g)) (List.flatMap (Stmts.names cval)) := by
  induction evs generalizing s with
  | nil => exact ⟨hs, Ext.refl s, by simp, fun t ht => rfl⟩
  | cons e es ih =>
    obtain ⟨a1, a2, a3, a4⟩ := stmts_spec cval e s hs
    obtain ⟨b1, b2, b3, b4⟩ := ih _ a1
    refine ⟨b1, a2.trans b2, ?_, ?_⟩
    · intro o ho
      simp only [List.flatMap_cons, List.mem_append] at ho
      exact ho.elim (fun h => (a3 o h).ext b2) (fun h => b3 o h)
    · intro t ht
      simp only [Indexer.events, List.map_cons]
      rw [a4 t (b2.trans ht), b4 t ht]

/-- The values kept are those the constants carry. -/
def ValsOf (cval : ν → D) (s : Indexer ν D) : Prop := ∀ e ∈ s.consts, e.2.2 = cval e.1

theorem visitConst_vals (cval : ν → D) (s : Indexer ν D) (h : ValsOf cval s) (n : ν) (c : D) (hc : c = cval n) :
    ValsOf cval (s.visitConst n c).1 := by
  unfold Indexer.visitConst
  cases find n s.consts with
  | some i => exact h
  | none =>
    intro e he
    rcases List.mem_append.mp he with he | he
    · exact h e he
    · rw [List.mem_singleton] at he; subst he; exact hc

theorem visitVar_vals (cval : ν → D) (s : Indexer ν D) (h : ValsOf cval s) (n : ν) :
    ValsOf cval (s.visitVar n).1 := by
  unfold Indexer.visitVar
  cases find n s.vars <;> exact h

/-- Constants carry their declared value. -/
def Agree (cval : ν → D) (l : List (ν × Option D)) : Prop := ∀ n c, (n, some c) ∈ l → c = cval n

omit [DecidableEq ν] in
theorem Agree.left {cval : ν → D} {l r : List (ν × Option D)} (h : Agree cval (l ++ r)) : Agree cval l :=
  fun n c hm => h n c (List.mem_append_left _ hm)
omit [DecidableEq ν] in
theorem Agree.right {cval : ν → D} {l r : List (ν × Option D)} (h : Agree cval (l ++ r)) : Agree cval r :=
  fun n c hm => h n c (List.mem_append_right _ hm)

theorem expr_vals (cval : ν → D) (e : Expr ν D) (s : Indexer ν D) (h : ValsOf cval s) (ha : Agree cval e.names) :
    ValsOf cval (s.expr e).1 := by
  induction e generalizing s with
  | bin op l r k ihl ihr => exact ihr _ (ihl s h ha.left) ha.right
  | extra l r k ihl ihr => exact ihr _ (ihl s h ha.left) ha.right
  | un op a k ih => exact ih s h ha
  | const c => exact h
  | spot => exact h
  | var n k => exact visitVar_vals cval s h n
  | constVar n c => exact visitConst_vals cval s h n c (ha n c (by simp [Expr.names]))

theorem cond_vals (cval : ν → D) (e : Cond ν D) (s : Indexer ν D) (h : ValsOf cval s) (ha : Agree cval e.names) :
    ValsOf cval (s.cond e).1 := by
  induction e generalizing s with
  | cmp op e a f => exact expr_vals cval e s h ha
  | and l r k ihl ihr => exact ihr _ (ihl s h ha.left) ha.right
  | or l r k ihl ihr => exact ihr _ (ihl s h ha.left) ha.right
  | not a k ih => exact ih s h ha
  | tt => exact h
  | ff => exact h

theorem lhs_vals (cval : ν → D) (x : Lhs ν) (s : Indexer ν D) (h : ValsOf cval s) :
    ValsOf cval (s.lhs cval x).1 := by
  unfold Indexer.lhs
  split
  · exact visitConst_vals cval s h _ _ rfl
  · exact visitVar_vals cval s h _

mutual
theorem stmt_vals (cval : ν → D) : (st : Stmt ν D) → (s : Indexer ν D) → ValsOf cval s →
    Agree cval (st.names cval) → ValsOf cval (s.stmt cval st).1
  | .assign x e, s, h, ha => expr_vals cval e _ (lhs_vals cval x s h) (Agree.right ha)
  | .pays x e, s, h, ha => expr_vals cval e _ (lhs_vals cval x s h) (Agree.right ha)
  | .ite c t he e af f, s, h, ha => by
    have ha' : Agree cval (c.names ++ (t.names cval ++ e.names cval)) := ha
    exact stmts_vals cval e _ (stmts_vals cval t _ (cond_vals cval c s h ha'.left) ha'.right.left) ha'.right.right
  | .collect b, s, h, ha => stmts_vals cval b s h ha
theorem stmts_vals (cval : ν → D) : (ss : Stmts ν D) → (s : Indexer ν D) → ValsOf cval s →
    Agree cval (ss.names cval) → ValsOf cval (s.stmts cval ss).1
  | .nil, s, h, ha => h
  | .cons st ss, s, h, ha => by
    have ha' : Agree cval (st.names cval ++ ss.names cval) := ha
    exact stmts_vals cval ss _ (stmt_vals cval st s h ha'.left) ha'.right
end

theorem events_vals (cval : ν → D) (evs : List (Stmts ν D)) (s : Indexer ν D) (h : ValsOf cval s)
    (ha : Agree cval (evs.flatMap (Stmts.names cval))) : ValsOf cval (s.events cval evs).1 := by
  induction evs generalizing s with
  | nil => exact h
  | cons e es ih =>
    rw [List.flatMap_cons] at ha
    exact ih _ (stmts_vals cval e s h ha.left) ha.right

/-- Filling a table at distinct positions. -/
theorem fill_get {α β : Type} (pos : α → Nat) (val : α → β) (l : List α) (v : List (Option β))
    (hnd : (l.map pos).Nodup) :
    (l.foldl (fun v e => v.set (pos e) (some (val e))) v).length = v.length ∧
    (∀ e ∈ l, pos e < v.length → (l.foldl (fun v e => v.set (pos e) (some (val e))) v)[pos e]? = some (some (val e))) ∧
    (∀ j, j ∉ l.map pos → (l.foldl (fun v e => v.set (pos e) (some (val e))) v)[j]? = v[j]?) := by
  induction l generalizing v with
  | nil => exact ⟨rfl, by simp, fun j _ => rfl⟩
  | cons x l ih =>
    simp only [List.map_cons, List.nodup_cons] at hnd
    obtain ⟨h1, h2, h3⟩ := ih (v.set (pos x) (some (val x))) hnd.2
    rw [List.foldl_cons]
    refine ⟨by rw [h1, List.length_set], ?_, ?_⟩
    · intro e he hlt
      rcases List.mem_cons.mp he with rfl | he
      · rw [h3 _ hnd.1, List.getElem?_set_self hlt]
      · exact h2 e he (by rwa [List.length_set])
    · intro j hj
      simp only [List.map_cons, List.mem_cons, not_or] at hj
      rw [h3 j hj.2, List.getElem?_set_ne (fun e => hj.1 e.symm)]

theorem varNames_get (s : Indexer ν D) (hs : Good s) (n : ν) (i : Nat) (h : find n s.vars = some i) :
    s.varNames[i]? = some (some n) := by
  have hnd : (s.vars.map (·.2)).Nodup := by rw [hs.idx]; exact List.nodup_range
  have hm := find_mem h
  have hi : i < s.vars.length := by
    have : i ∈ s.vars.map (·.2) := List.mem_map.mpr ⟨_, hm, rfl⟩
    rw [hs.idx] at this; exact List.mem_range.mp this
  exact (fill_get (·.2) (·.1) s.vars (List.replicate s.vars.length none) hnd).2.1 (n, i) hm (by simpa using hi)

theorem varNames_length (s : Indexer ν D) (hs : Good s) : s.varNames.length = s.vars.length := by
  have hnd : (s.vars.map (·.2)).Nodup := by rw [hs.idx]; exact List.nodup_range
  rw [Indexer.varNames, (fill_get (·.2) (·.1) s.vars _ hnd).1, List.length_replicate]

theorem constNames_get (s : Indexer ν D) (hs : Good s) (n : ν) (i : Nat) (c : D) (h : find n s.consts = some (i, c)) :
    s.constNames[i]? = some (some n) ∧ s.constValues[i]? = some (some c) := by
  have hnd : (s.consts.map (fun e => e.2.1)).Nodup := by rw [hs.cidx]; exact List.nodup_range
  have hm := find_mem h
  have hi : i < s.consts.length := by
    have : i ∈ s.consts.map (fun e => e.2.1) := List.mem_map.mpr ⟨_, hm, rfl⟩
    rw [hs.cidx] at this; exact List.mem_range.mp this
  exact ⟨(fill_get (fun e => e.2.1) (·.1) s.consts (List.replicate s.consts.length none) hnd).2.1 (n, (i, c)) hm (by simpa using hi),
    (fill_get (fun e => e.2.1) (fun e => e.2.2) s.consts (List.replicate s.consts.length none) hnd).2.1 (n, (i, c)) hm (by simpa using hi)⟩

theorem findName_some {payoff : ν} {names : List (Option ν)} {k i : Nat} (h : names[i]? = some (some payoff))
    (hfirst : ∀ j, j < i → names[j]? ≠ some (some payoff)) : findName payoff k names = some (k + i) := by
  induction names generalizing k i with
  | nil => simp at h
  | cons x xs ih =>
    cases i with
    | zero => simp only [List.getElem?_cons_zero, Option.some.injEq] at h; subst h; simp [findName]
    | succ i =>
      have hx : x ≠ some payoff := by
        intro e; exact hfirst 0 (Nat.succ_pos i) (by simp [e])
      rw [findName, if_neg hx, ih (k := k + 1) (i := i) (by simpa using h)]
      · congr 1; omega
      · intro j hj; simpa using hfirst (j + 1) (by omega)

end Dal.Script
