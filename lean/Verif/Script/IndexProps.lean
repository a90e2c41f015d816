import Verif.Script.IndexLemmas

/-! # Properties C28 (variable indexing) and C31 (branch effects) -/

namespace Dal
open Dal.Script
variable {ν D : Type}

/-! ### C28 -/

section C28
variable [DecidableEq ν]

/-- The result of indexing a product from the empty maps. -/
abbrev indexed (cval : ν → D) (evs : List (Stmts ν D)) : Indexer ν D × List (Stmts Nat D) :=
  Indexer.events cval ({} : Indexer ν D) evs

theorem good_empty : Good ({} : Indexer ν D) := ⟨rfl, List.nodup_nil, rfl, List.nodup_nil⟩

/-- C28: indexing replaces every occurrence of a variable name `n` by one slot `f n` and every
occurrence of a constant name by one slot `g n`; the reported names list the names in slot order
(so slots of different names differ), and the names are exactly as many as there are slots. -/
theorem C28_slots (cval : ν → D) (evs : List (Stmts ν D)) :
    ∃ f g : ν → Nat,
      (indexed cval evs).2 = evs.map (Stmts.map f g) ∧
      (∀ n, (n, none) ∈ evs.flatMap (Stmts.names cval) → (indexed cval evs).1.varNames[f n]? = some (some n)) ∧
      (∀ n c, (n, some c) ∈ evs.flatMap (Stmts.names cval) →
        (indexed cval evs).1.constNames[g n]? = some (some n)) := by
  obtain ⟨h1, -, h3, h4⟩ := events_spec cval evs ({} : Indexer ν D) good_empty
  refine ⟨_, _, h4 _ (Ext.refl _), ?_, ?_⟩
  · intro n hn
    obtain ⟨i, hi⟩ := h3 _ hn
    have : (indexed cval evs).1.slot n = i := by
      unfold Indexer.slot indexed; rw [hi]; rfl
    rw [this]
    exact varNames_get _ h1 n i hi
  · intro n c hn
    obtain ⟨⟨i, v⟩, hi⟩ := h3 _ hn
    have : (indexed cval evs).1.cslot n = i := by
      unfold Indexer.cslot indexed; rw [hi]; rfl
    rw [this]
    exact (constNames_get _ h1 n i v hi).1

/-- C28: different names receive different slots, and every slot is below the number of variables. -/
theorem C28_slots_distinct (cval : ν → D) (evs : List (Stmts ν D)) :
    ∃ f g : ν → Nat,
      (indexed cval evs).2 = evs.map (Stmts.map f g) ∧
      (∀ n, (n, none) ∈ evs.flatMap (Stmts.names cval) → f n < (indexed cval evs).1.varNames.length) ∧
      (∀ n m, (n, none) ∈ evs.flatMap (Stmts.names cval) → (m, none) ∈ evs.flatMap (Stmts.names cval) →
        f n = f m → n = m) := by
  obtain ⟨f, g, h1, h2, -⟩ := C28_slots cval evs
  refine ⟨f, g, h1, ?_, ?_⟩
  · intro n hn
    by_contra hlt
    have := h2 n hn
    rw [List.getElem?_eq_none (by omega)] at this
    cases this
  · intro n m hn hm e
    have a := h2 n hn
    rw [e, h2 m hm] at a
    simpa using a.symm

/-- C28: no name is reported twice, and no slot is left without a name. -/
theorem C28_names_nodup (cval : ν → D) (evs : List (Stmts ν D)) :
    (indexed cval evs).1.varNames.Nodup ∧ none ∉ (indexed cval evs).1.varNames := by
  obtain ⟨h1, -, -, -⟩ := events_spec cval evs ({} : Indexer ν D) good_empty
  have key : (indexed cval evs).1.varNames = (indexed cval evs).1.vars.map (fun e => some e.1) := by
    apply List.ext_getElem?
    intro i
    by_cases hi : i < (indexed cval evs).1.vars.length
    · rw [List.getElem?_map, List.getElem?_eq_getElem hi, Option.map_some]
      have hnd : ((indexed cval evs).1.vars.map (·.2)).Nodup := by rw [h1.idx]; exact List.nodup_range
      have hpos : ((indexed cval evs).1.vars[i]).2 = i := by
        have : ((indexed cval evs).1.vars.map (·.2))[i]? = some i := by
          rw [h1.idx, List.getElem?_range hi]
        rw [List.getElem?_map, List.getElem?_eq_getElem hi] at this
        simpa using this
      have := (fill_get (·.2) (·.1) (indexed cval evs).1.vars
        (List.replicate (indexed cval evs).1.vars.length none) hnd).2.1
        ((indexed cval evs).1.vars[i]) (List.getElem_mem hi) (by rw [hpos]; simpa using hi)
      rw [hpos] at this
      exact this
    · rw [List.getElem?_eq_none (by rw [varNames_length _ h1]; exact Nat.le_of_not_lt hi),
        List.getElem?_eq_none (by rw [List.length_map]; omega)]
  rw [key]
  constructor
  · have := h1.nd
    have h2 : ((indexed cval evs).1.vars.map (fun e => some e.1)) =
        ((indexed cval evs).1.vars.map (·.1)).map some := by rw [List.map_map]; rfl
    rw [h2]
    exact this.map (fun a b h => by simpa using h)
  · intro h
    obtain ⟨e, -, he⟩ := List.mem_map.mp h
    cases he

/-- C28: every constant slot holds the declared value of its constant, when all occurrences of a
constant carry that value (the parser takes them from one table, parser.cpp:136-139). -/
theorem C28_constant_values (cval : ν → D) (evs : List (Stmts ν D))
    (ha : Agree cval (evs.flatMap (Stmts.names cval))) :
    ∃ f g : ν → Nat, (indexed cval evs).2 = evs.map (Stmts.map f g) ∧
      ∀ n c, (n, some c) ∈ evs.flatMap (Stmts.names cval) →
        (indexed cval evs).1.constValues[g n]? = some (some c) := by
  obtain ⟨h1, -, h3, h4⟩ := events_spec cval evs ({} : Indexer ν D) good_empty
  refine ⟨_, _, h4 _ (Ext.refl _), ?_⟩
  intro n c hn
  obtain ⟨⟨i, v⟩, hi⟩ := h3 _ hn
  have : (indexed cval evs).1.cslot n = i := by
    unfold Indexer.cslot indexed; rw [hi]; rfl
  rw [this, (constNames_get _ h1 n i v hi).2]
  have hv := events_vals cval evs ({} : Indexer ν D) (by intro e he; cases he) ha _ (find_mem hi)
  rw [ha n c hn]
  exact congrArg some (congrArg some hv)

/-- C28: when the named payoff occurs as a variable, the payoff slot is its slot. -/
theorem C28_payoff (cval : ν → D) (evs : List (Stmts ν D)) (payoff : ν)
    (hp : (payoff, none) ∈ evs.flatMap (Stmts.names cval)) :
    ∃ f g : ν → Nat, (indexed cval evs).2 = evs.map (Stmts.map f g) ∧
      payoffIdx payoff (indexed cval evs).1.varNames = some (f payoff) := by
  obtain ⟨f, g, h1, h2, -⟩ := C28_slots cval evs
  refine ⟨f, g, h1, ?_⟩
  have hnd := (C28_names_nodup cval evs).1
  have hget := h2 payoff hp
  have hfn : findName payoff 0 (indexed cval evs).1.varNames = some (0 + f payoff) := by
    refine findName_some hget ?_
    intro j hj e
    obtain ⟨hj', e'⟩ := List.getElem?_eq_some_iff.mp e
    obtain ⟨hf', e''⟩ := List.getElem?_eq_some_iff.mp hget
    have := (List.Nodup.getElem_inj_iff hnd).mp (e'.trans e''.symm)
    omega
  rw [payoffIdx, hfn]
  simp

/-- A script `x = y; IF x > 0 THEN y PAYS K`, used as example. -/
def sampleScript : Stmts String Rat :=
  .cons (.assign ⟨"x", false⟩ (.var "y" (some 0)))
    (.cons (.ite (.cmp .sup (.var "x" (some 0)) ⟨0, false, 0, 0⟩ {})
      (.cons (.pays ⟨"y", false⟩ (.constVar "K" 100)) .nil) false .nil [] {}) .nil)

example : (indexed (fun _ => (100 : Rat)) [sampleScript]).1.varNames = [some "x", some "y"] := by decide

example : Agree (fun _ => (100 : Rat)) ([sampleScript].flatMap (Stmts.names (fun _ => 100))) := by
  intro n c h
  simp [sampleScript, Stmts.names, Stmt.names, Lhs.names, Expr.names, Cond.names] at h
  exact h.2

example : (("y" : String), (none : Option Rat)) ∈ [sampleScript].flatMap (Stmts.names (fun _ => 100)) := by
  simp [sampleScript, Stmts.names, Stmt.names, Lhs.names, Expr.names, Cond.names]

end C28

/-! ### C31 -/

mutual
/-- `x` occurs in a statement, at any depth. -/
inductive InStmt (x : Stmt Nat D) : Stmt Nat D → Prop
  | self : InStmt x x
  | then' {c t he e af f} : InStmts x t → InStmt x (.ite c t he e af f)
  | else' {c t he e af f} : InStmts x e → InStmt x (.ite c t he e af f)
  | collect {b} : InStmts x b → InStmt x (.collect b)
/-- `x` occurs in statements, at any depth. -/
inductive InStmts (x : Stmt Nat D) : Stmts Nat D → Prop
  | head {s ss} : InStmt x s → InStmts x (.cons s ss)
  | tail {s ss} : InStmts x ss → InStmts x (.cons s ss)
end

mutual
/-- The left-hand sides occurring in a statement. -/
def targets : Stmt Nat D → List (Lhs Nat)
  | .assign x _ => [x]
  | .pays x _ => [x]
  | .ite _ t _ e _ _ => targetss t ++ targetss e
  | .collect b => targetss b
/-- The left-hand sides occurring in statements. -/
def targetss : Stmts Nat D → List (Lhs Nat)
  | .nil => []
  | .cons s ss => targets s ++ targetss ss
end

mutual
/-- The deepest nesting of `IF`s in a statement. -/
def nesting : Stmt Nat D → Nat
  | .assign _ _ => 0
  | .pays _ _ => 0
  | .ite _ t _ e _ _ => max (nestings t) (nestings e) + 1
  | .collect b => nestings b
/-- The deepest nesting of `IF`s in statements. -/
def nestings : Stmts Nat D → Nat
  | .nil => 0
  | .cons s ss => max (nesting s) (nestings ss)
end

mutual
/-- A statement writes only its targets. -/
theorem exec_frame (o : Ops D) (cv : Nat → D) (sp : Sample D) : (s : Stmt Nat D) → (σ : Nat → D) → (i : Nat) →
    (∀ x ∈ targets s, x.v ≠ i) → exec o cv sp s σ i = σ i
  | .assign x e, σ, i, h => by
    have hx : x.v ≠ i := h x (by simp [targets])
    simp only [exec, upd]
    rw [if_neg (fun he => hx he.symm)]
  | .pays x e, σ, i, h => by
    have hx : x.v ≠ i := h x (by simp [targets])
    simp only [exec, upd]
    rw [if_neg (fun he => hx he.symm)]
  | .ite c t he e af f, σ, i, h => by
    have ht : ∀ x ∈ targetss t, x.v ≠ i := fun x hx => h x (by simp [targets, hx])
    have hee : ∀ x ∈ targetss e, x.v ≠ i := fun x hx => h x (by simp [targets, hx])
    simp only [exec]
    split
    · exact execs_frame o cv sp t σ i ht
    · split
      · exact execs_frame o cv sp e σ i hee
      · rfl
  | .collect b, σ, i, h => by
    simp only [exec]
    exact execs_frame o cv sp b σ i h
/-- Statements write only their targets. -/
theorem execs_frame (o : Ops D) (cv : Nat → D) (sp : Sample D) : (ss : Stmts Nat D) → (σ : Nat → D) → (i : Nat) →
    (∀ x ∈ targetss ss, x.v ≠ i) → execs o cv sp ss σ i = σ i
  | .nil, σ, i, h => by simp only [execs]
  | .cons s ss, σ, i, h => by
    simp only [execs]
    rw [execs_frame o cv sp ss _ i (fun x hx => h x (by simp [targetss, hx])),
      exec_frame o cv sp s σ i (fun x hx => h x (by simp [targetss, hx]))]
end

theorem mem_ins (i j : Nat) (s : List Nat) : j ∈ ins i s ↔ j = i ∨ j ∈ s := by
  unfold ins
  split
  · next h => constructor
              · exact Or.inr
              · rintro (rfl | h')
                · exact h
                · exact h'
  · exact List.mem_cons

/-- The state keeps level and depth equal. -/
def Depth (s : IfState) : Prop := s.lvl = s.stack.length

/-- `r` adds the members of `w` to the top of the stack of `s`, leaving the rest. -/
def Adds (s r : IfState) (w : Nat → Prop) (n : Nat) : Prop :=
  r.lvl = s.lvl ∧ r.maxLvl = max s.maxLvl (if n = 0 then 0 else s.lvl + n) ∧
  match s.stack with
  | [] => r.stack = []
  | t :: rest => ∃ t', r.stack = t' :: rest ∧ ∀ j, j ∈ t' ↔ j ∈ t ∨ w j

theorem Adds.trans {s r q : IfState} {w u : Nat → Prop} {n m : Nat} (h1 : Adds s r w n) (h2 : Adds r q u m) :
    Adds s q (fun j => w j ∨ u j) (max n m) := by
  obtain ⟨a1, a2, a3⟩ := h1
  obtain ⟨b1, b2, b3⟩ := h2
  refine ⟨b1.trans a1, ?_, ?_⟩
  · rw [b2, a2, a1]
    by_cases hn : n = 0 <;> by_cases hm : m = 0 <;> simp [hn, hm] <;> omega
  · cases hs : s.stack with
    | nil => rw [hs] at a3; rw [show r.stack = [] from a3] at b3; exact b3
    | cons t rest =>
      rw [hs] at a3
      obtain ⟨t', e, ht⟩ := a3
      rw [e] at b3
      obtain ⟨t'', e', ht'⟩ := b3
      exact ⟨t'', e', fun j => by rw [ht' j, ht j]; exact or_assoc⟩

theorem insert_adds (s : IfState) (i : Nat) : Adds s (s.insert i) (fun j => j = i) 0 := by
  unfold IfState.insert
  cases h : s.stack with
  | nil => exact ⟨rfl, by simp, by rw [h]⟩
  | cons t rest =>
    refine ⟨rfl, by simp, ?_⟩
    rw [h]
    exact ⟨_, rfl, fun j => by rw [mem_ins]; exact or_comm⟩

theorem inserts_adds (l : List Nat) (s : IfState) : Adds s (l.foldl IfState.insert s) (fun j => j ∈ l) 0 := by
  induction l generalizing s with
  | nil =>
    refine ⟨rfl, by simp, ?_⟩
    cases h : s.stack with
    | nil => exact h
    | cons t rest => exact ⟨t, h, by simp⟩
  | cons i l ih =>
    have := (insert_adds s i).trans (ih (s.insert i))
    simpa [Adds] using this

/-- The variables written: targets that are variables. -/
def WritesL (l : List (Lhs Nat)) (j : Nat) : Prop := ∃ x ∈ l, x.isConst = false ∧ x.v = j

theorem lhs_adds (s : IfState) (x : Lhs Nat) (hd : Depth s) : Adds s (s.lhs x) (WritesL [x]) 0 := by
  unfold IfState.lhs
  by_cases hl : s.lvl ≠ 0
  · rw [if_pos hl]
    cases hx : x.isConst with
    | true =>
      refine ⟨rfl, by simp, ?_⟩
      simp only [if_true]
      cases h : s.stack with
      | nil => rfl
      | cons t rest => exact ⟨t, rfl, fun j => by simp [WritesL, hx]⟩
    | false =>
      have := insert_adds s x.v
      simp only [Bool.false_eq_true, if_false]
      refine ⟨this.1, this.2.1, ?_⟩
      have h3 := this.2.2
      cases h : s.stack with
      | nil => rw [h] at h3; exact h3
      | cons t rest =>
        rw [h] at h3
        obtain ⟨t', e, ht⟩ := h3
        refine ⟨t', e, fun j => ?_⟩
        rw [ht j]
        refine or_congr Iff.rfl ⟨fun h => ⟨x, List.mem_singleton.mpr rfl, hx, h.symm⟩, ?_⟩
        rintro ⟨y, hy, -, e2⟩
        rw [List.mem_singleton] at hy; subst hy; exact e2.symm
  · rw [if_neg hl]
    refine ⟨rfl, by simp, ?_⟩
    have : s.stack = [] := by
      have hd' : s.lvl = s.stack.length := hd
      exact List.length_eq_zero_iff.mp (by omega)
    rw [this]

theorem Adds.depth {s r : IfState} {w : Nat → Prop} {n : Nat} (h : Adds s r w n) (hd : Depth s) : Depth r := by
  obtain ⟨a1, -, a3⟩ := h
  unfold Depth at *
  rw [a1, hd]
  cases hs : s.stack with
  | nil => rw [hs] at a3; rw [show r.stack = [] from a3]
  | cons t rest => rw [hs] at a3; obtain ⟨t', e, -⟩ := a3; rw [e]; rfl

theorem Adds.congr {s r : IfState} {w u : Nat → Prop} {n : Nat} (h : Adds s r w n) (e : ∀ j, w j ↔ u j) :
    Adds s r u n := by
  obtain ⟨a1, a2, a3⟩ := h
  refine ⟨a1, a2, ?_⟩
  cases hs : s.stack with
  | nil => rw [hs] at a3; exact a3
  | cons t rest =>
    rw [hs] at a3
    obtain ⟨t', e', ht⟩ := a3
    exact ⟨t', e', fun j => by rw [ht j, e j]⟩

mutual
theorem ifStmt_adds : (st : Stmt Nat D) → (s : IfState) → Depth s →
    Adds s (ifStmt s st).1 (WritesL (targets st)) (nesting st)
  | .assign x e, s, hd => by simp only [ifStmt, targets, nesting]; exact lhs_adds s x hd
  | .pays x e, s, hd => by simp only [ifStmt, targets, nesting]; exact lhs_adds s x hd
  | .ite c t he e af f, s, hd => by
    simp only [ifStmt, targets, nesting]
    generalize hs1 : (({ stack := [] :: s.stack, lvl := s.lvl + 1, maxLvl := max s.maxLvl (s.lvl + 1) } : IfState)) = s1
    have hd1 : Depth s1 := by subst hs1; unfold Depth at *; simp [hd]
    have ha := ifStmts_adds t s1 hd1
    have hb := ifStmts_adds e _ (ha.depth hd1)
    have hab := ha.trans hb
    obtain ⟨b1, b2, b3⟩ := hab
    have hstk : s1.stack = [] :: s.stack := by subst hs1; rfl
    rw [hstk] at b3
    obtain ⟨t', e', ht⟩ := b3
    have hlvl : (ifStmts (ifStmts s1 t).1 e).1.lvl = s.lvl + 1 := by rw [b1]; subst hs1; rfl
    have hmax : (ifStmts (ifStmts s1 t).1 e).1.maxLvl =
        max s.maxLvl (s.lvl + (max (nestings t) (nestings e) + 1)) := by
      rw [b2]; subst hs1; simp only; split <;> omega
    rw [e']
    simp only [List.headD_cons, List.tail_cons]
    have hw : ∀ j, j ∈ t' ↔ WritesL (targetss t ++ targetss e) j := by
      intro j
      rw [ht j]
      simp only [WritesL, List.mem_append, List.not_mem_nil, false_or]
      constructor
      · rintro (⟨x, h, h'⟩ | ⟨x, h, h'⟩)
        · exact ⟨x, Or.inl h, h'⟩
        · exact ⟨x, Or.inr h, h'⟩
      · rintro ⟨x, h | h, h'⟩
        · exact Or.inl ⟨x, h, h'⟩
        · exact Or.inr ⟨x, h, h'⟩
    have hn : ¬ (max (nestings t) (nestings e) + 1 = 0) := by omega
    by_cases hl : s.lvl ≠ 0
    · rw [if_pos (by rw [hlvl]; simpa using hl)]
      have := inserts_adds t' ({ (ifStmts (ifStmts s1 t).1 e).1 with
        stack := s.stack, lvl := (ifStmts (ifStmts s1 t).1 e).1.lvl - 1 } : IfState)
      obtain ⟨c1, c2, c3⟩ := this
      refine ⟨by rw [c1]; simp [hlvl], ?_, ?_⟩
      · rw [c2, if_neg hn]; simp [hmax]
      · simp only at c3
        cases hss : s.stack with
        | nil => rw [hss] at c3; exact c3
        | cons q rest =>
          rw [hss] at c3
          obtain ⟨q', e'', hq⟩ := c3
          exact ⟨q', e'', fun j => by rw [hq j, hw j]⟩
    · rw [if_neg (by rw [hlvl]; simpa using hl)]
      have hnil : s.stack = [] := by
        have hd' : s.lvl = s.stack.length := hd
        exact List.length_eq_zero_iff.mp (by omega)
      refine ⟨by simp [hlvl], by rw [if_neg hn]; exact hmax, ?_⟩
      rw [hnil]
  | .collect b, s, hd => by
    simp only [ifStmt, targets, nesting]
    exact ifStmts_adds b s hd
theorem ifStmts_adds : (ss : Stmts Nat D) → (s : IfState) → Depth s →
    Adds s (ifStmts s ss).1 (WritesL (targetss ss)) (nestings ss)
  | .nil, s, hd => by
    simp only [ifStmts, targetss, nestings]
    refine ⟨rfl, by simp, ?_⟩
    cases h : s.stack with
    | nil => exact rfl
    | cons t rest => exact ⟨t, rfl, fun j => by simp [WritesL]⟩
  | .cons st ss, s, hd => by
    simp only [ifStmts, targetss, nestings]
    have ha := ifStmt_adds st s hd
    refine (ha.trans (ifStmts_adds ss _ (ha.depth hd))).congr ?_
    intro j
    simp only [WritesL, List.mem_append]
    constructor
    · rintro (⟨x, h, h'⟩ | ⟨x, h, h'⟩)
      · exact ⟨x, Or.inl h, h'⟩
      · exact ⟨x, Or.inr h, h'⟩
    · rintro ⟨x, h | h, h'⟩
      · exact Or.inl ⟨x, h, h'⟩
      · exact Or.inr ⟨x, h, h'⟩
end

mutual
theorem ifStmt_targets : (st : Stmt Nat D) → (s : IfState) → targets (ifStmt s st).2 = targets st
  | .assign x e, s => by simp only [ifStmt]
  | .pays x e, s => by simp only [ifStmt]
  | .ite c t he e af f, s => by simp only [ifStmt, targets, ifStmts_targets]
  | .collect b, s => by simp only [ifStmt, targets, ifStmts_targets]
theorem ifStmts_targets : (ss : Stmts Nat D) → (s : IfState) → targetss (ifStmts s ss).2 = targetss ss
  | .nil, s => by simp only [ifStmts]
  | .cons st ss, s => by simp only [ifStmts, targetss, ifStmt_targets, ifStmts_targets]
end

mutual
theorem ifStmt_all : (st : Stmt Nat D) → (s : IfState) → Depth s → ∀ {c t he e af f},
    InStmt (.ite c t he e af f) (ifStmt s st).2 → ∀ j, j ∈ af ↔ WritesL (targetss t ++ targetss e) j
  | .assign x e, s, hd, c, t, he, e', af, f, h => by simp only [ifStmt] at h; cases h
  | .pays x e, s, hd, c, t, he, e', af, f, h => by simp only [ifStmt] at h; cases h
  | .ite c0 t0 he0 e0 af0 f0, s, hd, c, t, he, e', af, f, h => by
    have hd1 : Depth ({ stack := [] :: s.stack, lvl := s.lvl + 1, maxLvl := max s.maxLvl (s.lvl + 1) } : IfState) := by
      unfold Depth at *; simp [hd]
    have ha := ifStmts_adds t0 _ hd1
    have hb := ifStmts_adds e0 _ (ha.depth hd1)
    simp only [ifStmt] at h
    cases h with
    | self =>
      obtain ⟨b1, b2, b3⟩ := ha.trans hb
      obtain ⟨t', e', ht⟩ := b3
      intro j
      rw [e', ifStmts_targets, ifStmts_targets]
      simp only [List.headD_cons]
      rw [ht j]
      simp only [WritesL, List.mem_append, List.not_mem_nil, false_or]
      constructor
      · rintro (⟨x, h, h'⟩ | ⟨x, h, h'⟩)
        · exact ⟨x, Or.inl h, h'⟩
        · exact ⟨x, Or.inr h, h'⟩
      · rintro ⟨x, h | h, h'⟩
        · exact Or.inl ⟨x, h, h'⟩
        · exact Or.inr ⟨x, h, h'⟩
    | then' h => exact ifStmts_all t0 _ hd1 h
    | else' h => exact ifStmts_all e0 _ (ha.depth hd1) h
  | .collect b, s, hd, c, t, he, e', af, f, h => by
    simp only [ifStmt] at h
    cases h with
    | collect h => exact ifStmts_all b s hd h
theorem ifStmts_all : (ss : Stmts Nat D) → (s : IfState) → Depth s → ∀ {c t he e af f},
    InStmts (.ite c t he e af f) (ifStmts s ss).2 → ∀ j, j ∈ af ↔ WritesL (targetss t ++ targetss e) j
  | .nil, s, hd, c, t, he, e', af, f, h => by simp only [ifStmts] at h; cases h
  | .cons st ss, s, hd, c, t, he, e', af, f, h => by
    simp only [ifStmts] at h
    cases h with
    | head h => exact ifStmt_all st s hd h
    | tail h => exact ifStmts_all ss _ ((ifStmt_adds st s hd).depth hd) h
end

theorem ifEvents_all (evs : List (Stmts Nat D)) (s : IfState) (hd : Depth s) {c t he e af f} {ev : Stmts Nat D}
    (hev : ev ∈ (ifEvents s evs).2) (h : InStmts (.ite c t he e af f) ev) :
    ∀ j, j ∈ af ↔ WritesL (targetss t ++ targetss e) j := by
  induction evs generalizing s with
  | nil => simp [ifEvents] at hev
  | cons x xs ih =>
    simp only [ifEvents, List.mem_cons] at hev
    rcases hev with rfl | hev
    · exact ifStmts_all x s hd h
    · exact ih _ ((ifStmts_adds x s hd).depth hd) hev

/-- C31: after `IFProcess`, every `IF` of the product, at any depth, records exactly the variables that
appear on the left of an assignment or payment in one of its branches, nested `IF`s included. -/
theorem C31_recorded_iff_written (evs : List (Stmts Nat D)) {c t he e af f} {ev : Stmts Nat D}
    (hev : ev ∈ (ifEvents {} evs).2) (h : InStmts (.ite c t he e af f) ev) (j : Nat) :
    j ∈ af ↔ ∃ x ∈ targetss t ++ targetss e, x.isConst = false ∧ x.v = j :=
  ifEvents_all evs {} rfl hev h j

/-- C31 (full claim restricted to scripts that never assign to a name declared constant; the code
accepts such assignments, see `C31_constant_target_violated`): the recorded set contains every variable whose value an
execution of the `IF` can change, whatever the scenario and the state before. -/
theorem C31_complete_partial (evs : List (Stmts Nat D)) {c t he e af f} {ev : Stmts Nat D}
    (hev : ev ∈ (ifEvents {} evs).2) (h : InStmts (.ite c t he e af f) ev)
    (hvar : ∀ x ∈ targetss t ++ targetss e, x.isConst = false)
    (o : Ops D) (cv : Nat → D) (sp : Sample D) (σ : Nat → D) (j : Nat)
    (hch : exec o cv sp (.ite c t he e af f) σ j ≠ σ j) : j ∈ af := by
  by_contra hj
  apply hch
  apply exec_frame
  intro x hx e'
  apply hj
  rw [C31_recorded_iff_written evs hev h j]
  exact ⟨x, hx, hvar x hx, e'⟩

/-- C31: the reported maximum is the deepest nesting of `IF`s in the product. -/
theorem C31_max_nesting (evs : List (Stmts Nat D)) :
    (ifEvents {} evs).1.maxLvl = evs.foldr (fun ev n => max (nestings ev) n) 0 := by
  have key : ∀ (evs : List (Stmts Nat D)) (s : IfState), Depth s → s.lvl = 0 →
      (ifEvents s evs).1.maxLvl = max s.maxLvl (evs.foldr (fun ev n => max (nestings ev) n) 0) := by
    intro evs
    induction evs with
    | nil => intro s _ _; simp [ifEvents]
    | cons x xs ih =>
      intro s hd hl
      have ha := ifStmts_adds x s hd
      simp only [ifEvents, List.foldr_cons]
      rw [ih _ (ha.depth hd) (ha.1.trans hl), ha.2.1, hl]
      by_cases hn : nestings x = 0 <;> simp [hn] <;> omega
  have := key evs {} rfl rfl
  simpa using this

/-- C31 violated: when a branch assigns to a name declared constant, the variable the interpreter
then overwrites (the one with the same slot number) is not recorded. -/
theorem C31_constant_target_violated :
    ∃ (p : Stmts Nat Rat) (c : Cond Nat Rat) (t e : Stmts Nat Rat) (he : Bool) (af : List Nat) (f : Flags)
      (sp : Sample Rat) (σ : Nat → Rat),
      InStmts (.ite c t he e af f) (ifStmts {} p).2 ∧
      exec ratOps (fun _ => 0) sp (.ite c t he e af f) σ 0 ≠ σ 0 ∧ 0 ∉ af := by
  refine ⟨.cons (.ite .tt (.cons (.assign ⟨0, true⟩ (.const 5)) .nil) false .nil [] {}) .nil, .tt,
    .cons (.assign ⟨0, true⟩ (.const 5)) .nil, .nil, false, [], {}, ⟨1, 1⟩, fun _ => 0, ?_, ?_, ?_⟩
  · simp only [ifStmts, ifStmt, IfState.lhs]
    exact .head .self
  · simp only [exec, execs, evalC, evalE, upd, if_true]
    decide
  · simp

/-- A nested script: `IF x > 0 THEN y = 1 IF y > 0 THEN z PAYS 2 ENDIF ENDIF`. -/
def nestedScript : Stmts Nat Rat :=
  .cons (.ite (.cmp .sup (.var 0 (some 0)) ⟨0, false, 0, 0⟩ {})
    (.cons (.assign ⟨1, false⟩ (.const 1))
      (.cons (.ite (.cmp .sup (.var 1 (some 0)) ⟨0, false, 0, 0⟩ {})
        (.cons (.pays ⟨2, false⟩ (.const 2)) .nil) false .nil [] {}) .nil)) false .nil [] {}) .nil

example : ∃ c t he e f, InStmts (.ite c t he e [2, 1] f) (ifStmts {} nestedScript).2 ∧
    exec ratOps (fun _ => 0) ⟨1, 1⟩ (.ite c t he e [2, 1] f) (fun _ => 1) 2 ≠ 1 :=
  ⟨_, _, _, _, _, .head .self, by decide +kernel⟩

example : (ifEvents {} [nestedScript]).1.maxLvl = 2 := by decide

end Dal
