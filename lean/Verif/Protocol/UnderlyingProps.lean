import Verif.Protocol.UnderlyingModel
import Mathlib.Order.Lattice
import Mathlib.Tactic.Cases

/-!
# C56: merging the requirements of trades

Specification: for each key the latest date at which any of the trades asks for it.
-/

namespace Dal

open Dal.Protocol (put stdMax include1 mergeMax Underlying)

section
variable {κ V : Type} [LinearOrder κ] [LinearOrder V]

/-- The keys of a map are in strictly increasing order. -/
def KeysSorted (m : List (κ × V)) : Prop := m.Pairwise fun a b => a.1 < b.1

/-- The later of two dates, where one may be missing. -/
def laterOf : Option V → Option V → Option V
  | none, b => b
  | a, none => a
  | some a, some b => some (max a b)

private theorem put_keys (m : List (κ × V)) (k : κ) (v : V) : ∀ e ∈ put m k v, e = (k, v) ∨ e ∈ m := by
  induction m with
  | nil => intro e he; rw [put, List.mem_singleton] at he; exact Or.inl he
  | cons a m ih =>
    intro e he
    rw [put] at he
    split at he
    · rcases List.mem_cons.1 he with h | h
      · exact Or.inl h
      · exact Or.inr h
    · split at he
      · rcases List.mem_cons.1 he with h | h
        · exact Or.inl h
        · exact Or.inr (List.mem_cons_of_mem _ h)
      · rcases List.mem_cons.1 he with h | h
        · exact Or.inr (by rw [h]; exact List.mem_cons_self)
        · rcases ih e h with h | h
          · exact Or.inl h
          · exact Or.inr (List.mem_cons_of_mem _ h)

private theorem put_sorted {m : List (κ × V)} (h : KeysSorted m) (k : κ) (v : V) : KeysSorted (put m k v) := by
  induction m with
  | nil => exact List.pairwise_singleton _ _
  | cons a m ih =>
    obtain ⟨h1, h2⟩ := List.pairwise_cons.1 h
    rw [put]
    split
    · rename_i hlt
      refine List.pairwise_cons.2 ⟨fun e he => ?_, h⟩
      rcases List.mem_cons.1 he with rfl | he
      · exact hlt
      · exact lt_trans hlt (h1 e he)
    · rename_i hnlt
      split
      · rename_i heq
        refine List.pairwise_cons.2 ⟨fun e he => ?_, h2⟩
        rw [heq]
        exact h1 e he
      · rename_i hne
        refine List.pairwise_cons.2 ⟨fun e he => ?_, ih h2⟩
        rcases put_keys m k v e he with rfl | he
        · exact lt_of_le_of_ne (not_lt.1 hnlt) (fun hc => hne hc.symm)
        · exact h1 e he

private theorem get_none {m : List (κ × V)} {k : κ} (h : ∀ e ∈ m, k < e.1) : Protocol.get m k = none := by
  induction m with
  | nil => rfl
  | cons a m ih =>
    rw [Protocol.get, if_neg (ne_of_lt (h a List.mem_cons_self)), ih fun e he => h e (List.mem_cons_of_mem _ he)]

private theorem get_put {m : List (κ × V)} (h : KeysSorted m) (k k' : κ) (v : V) : Protocol.get (put m k v) k' = if k' = k then some v else Protocol.get m k' := by
  induction m with
  | nil => rfl
  | cons a m ih =>
    obtain ⟨h1, h2⟩ := List.pairwise_cons.1 h
    rw [put]
    split
    · rw [Protocol.get]
    · split
      · rename_i heq
        rw [Protocol.get]
        by_cases he : k' = k
        · rw [if_pos he, if_pos he]
        · rw [if_neg he, if_neg he, Protocol.get, if_neg (by rw [← heq]; exact he)]
      · rename_i hne
        rw [Protocol.get, ih h2, Protocol.get]
        by_cases he : k' = a.1
        · rw [if_pos he, if_pos he, if_neg (fun hc => hne (by rw [← hc, he]))]
        · rw [if_neg he, if_neg he]

private theorem sorted_ext {m m' : List (κ × V)} (h : KeysSorted m) (h' : KeysSorted m') (he : ∀ k, Protocol.get m k = Protocol.get m' k) : m = m' := by
  induction m generalizing m' with
  | nil =>
    cases m' with
    | nil => rfl
    | cons b m' =>
      have := he b.1
      rw [Protocol.get, Protocol.get, if_pos rfl] at this
      cases this
  | cons a m ih =>
    obtain ⟨h1, h2⟩ := List.pairwise_cons.1 h
    cases m' with
    | nil =>
      have := he a.1
      rw [Protocol.get, Protocol.get, if_pos rfl] at this
      cases this
    | cons b m' =>
      obtain ⟨h1', h2'⟩ := List.pairwise_cons.1 h'
      have hab : a.1 = b.1 := by
        rcases lt_trichotomy a.1 b.1 with hlt | heq | hgt
        · have := he a.1
          rw [get_none (m := b :: m') (fun e hm => by
            rcases List.mem_cons.1 hm with rfl | hm
            · exact hlt
            · exact lt_trans hlt (h1' e hm)), Protocol.get, if_pos rfl] at this
          cases this
        · exact heq
        · have := he b.1
          rw [get_none (m := a :: m) (fun e hm => by
            rcases List.mem_cons.1 hm with rfl | hm
            · exact hgt
            · exact lt_trans hgt (h1 e hm)), Protocol.get, if_pos rfl] at this
          cases this
      have hv : a.2 = b.2 := by
        have := he a.1
        rw [Protocol.get, if_pos rfl, Protocol.get, if_pos hab] at this
        exact Option.some.inj this
      have hm : m = m' := by
        apply ih h2 h2'
        intro k
        have := he k
        rw [Protocol.get, Protocol.get, ← hab] at this
        by_cases hk : k = a.1
        · rw [get_none (fun e hm => by rw [hk]; exact h1 e hm), get_none (fun e hm => by rw [hk, hab]; exact h1' e hm)]
        · rwa [if_neg hk, if_neg hk] at this
      rw [hm, Prod.ext hab hv]

private theorem stdMax_eq (a b : V) : stdMax a b = max a b := by
  unfold stdMax
  split
  · rename_i h; exact (max_eq_right h.le).symm
  · rename_i h; exact (max_eq_left (not_lt.1 h)).symm

private theorem include_ok {m : List (κ × V)} (h : KeysSorted m) (k : κ) (v : V) : KeysSorted (include1 m k v) ∧
    ∀ k', Protocol.get (include1 m k v) k' = if k' = k then laterOf (Protocol.get m k') (some v) else Protocol.get m k' := by
  unfold include1
  cases hg : Protocol.get m k with
  | none =>
    refine ⟨put_sorted h k v, fun k' => ?_⟩
    dsimp only
    rw [get_put h]
    by_cases hk : k' = k
    · rw [if_pos hk, if_pos hk, hk, hg]; rfl
    · rw [if_neg hk, if_neg hk]
  | some w =>
    refine ⟨put_sorted h k _, fun k' => ?_⟩
    dsimp only
    rw [get_put h, stdMax_eq]
    by_cases hk : k' = k
    · rw [if_pos hk, if_pos hk, hk, hg]; rfl
    · rw [if_neg hk, if_neg hk]

private theorem merge_ok {m m' : List (κ × V)} (h : KeysSorted m) (h' : KeysSorted m') : KeysSorted (mergeMax m m') ∧
    ∀ k, Protocol.get (mergeMax m m') k = laterOf (Protocol.get m k) (Protocol.get m' k) := by
  unfold mergeMax
  induction m' generalizing m with
  | nil => exact ⟨h, fun k => by rw [List.foldl_nil, Protocol.get.eq_def ([] : List (κ × V))]; cases Protocol.get m k <;> rfl⟩
  | cons b m' ih =>
    obtain ⟨h1', h2'⟩ := List.pairwise_cons.1 h'
    obtain ⟨hs, hg⟩ := include_ok h b.1 b.2
    obtain ⟨hs', hg'⟩ := ih hs h2'
    refine ⟨hs', fun k => ?_⟩
    rw [List.foldl_cons, hg', hg, Protocol.get]
    by_cases hk : k = b.1
    · rw [if_pos hk, if_pos hk, get_none (m := m') (fun e he => by rw [hk]; exact h1' e he)]
      cases Protocol.get m k <;> rfl
    · rw [if_neg hk, if_neg hk]

private theorem later_comm (a b : Option V) : laterOf a b = laterOf b a := by
  cases a <;> cases b <;> try rfl
  exact congrArg some (max_comm _ _)

private theorem later_assoc (a b c : Option V) : laterOf (laterOf a b) c = laterOf a (laterOf b c) := by
  cases a <;> cases b <;> cases c <;> try rfl
  exact congrArg some (max_assoc _ _ _)

private theorem later_self (a : Option V) : laterOf a a = a := by
  cases a
  · rfl
  · exact congrArg some (max_self _)

end

variable {C I N D T : Type} [LinearOrder C] [LinearOrder I] [LinearOrder N] [LinearOrder D] [LinearOrder T]

/-- The three maps are in the order of their keys, as `std::map` keeps them. -/
structure Ordered (u : Underlying C I N D T) : Prop where
  ccys : KeysSorted u.payCcys
  indices : KeysSorted u.indices
  credits : KeysSorted u.credits

/-- C56: whatever is included or merged, the maps remain in order; they start empty. -/
theorem C56_ordered (u v : Underlying C I N D T) (hu : Ordered u) (hv : Ordered v) (c : C) (i : I) (n : N) (d : D) (t : T) :
    Ordered (⟨[], [], []⟩ : Underlying C I N D T) ∧ Ordered (u.add v) ∧ Ordered (u.includeCcy c d) ∧ Ordered (u.includeIndex i t) ∧
    Ordered (u.includeName n d) :=
  ⟨⟨List.Pairwise.nil, List.Pairwise.nil, List.Pairwise.nil⟩, ⟨(merge_ok hu.1 hv.1).1, (merge_ok hu.2 hv.2).1, (merge_ok hu.3 hv.3).1⟩,
    ⟨(include_ok hu.1 c d).1, hu.2, hu.3⟩, ⟨hu.1, (include_ok hu.2 i t).1, hu.3⟩, ⟨hu.1, hu.2, (include_ok hu.3 n d).1⟩⟩

/-- C56: merging keeps for each key the later date of the two. -/
theorem C56_latest {u v : Underlying C I N D T} (hu : Ordered u) (hv : Ordered v) :
    (∀ c, Protocol.get (u.add v).payCcys c = laterOf (Protocol.get u.payCcys c) (Protocol.get v.payCcys c)) ∧
    (∀ i, Protocol.get (u.add v).indices i = laterOf (Protocol.get u.indices i) (Protocol.get v.indices i)) ∧
    ∀ n, Protocol.get (u.add v).credits n = laterOf (Protocol.get u.credits n) (Protocol.get v.credits n) :=
  ⟨(merge_ok hu.1 hv.1).2, (merge_ok hu.2 hv.2).2, (merge_ok hu.3 hv.3).2⟩

/-- C56: including keeps the later date for its key and leaves all else alone. -/
theorem C56_include {u : Underlying C I N D T} (hu : Ordered u) (c : C) (i : I) (n : N) (d : D) (t : T) :
    ((∀ c', Protocol.get (u.includeCcy c d).payCcys c' = if c' = c then laterOf (Protocol.get u.payCcys c') (some d) else Protocol.get u.payCcys c') ∧
      (u.includeCcy c d).indices = u.indices ∧ (u.includeCcy c d).credits = u.credits) ∧
    ((∀ i', Protocol.get (u.includeIndex i t).indices i' = if i' = i then laterOf (Protocol.get u.indices i') (some t) else Protocol.get u.indices i') ∧
      (u.includeIndex i t).payCcys = u.payCcys ∧ (u.includeIndex i t).credits = u.credits) ∧
    ((∀ n', Protocol.get (u.includeName n d).credits n' = if n' = n then laterOf (Protocol.get u.credits n') (some d) else Protocol.get u.credits n') ∧
      (u.includeName n d).payCcys = u.payCcys ∧ (u.includeName n d).indices = u.indices) :=
  ⟨⟨(include_ok hu.1 c d).2, rfl, rfl⟩, ⟨(include_ok hu.2 i t).2, rfl, rfl⟩, ⟨(include_ok hu.3 n d).2, rfl, rfl⟩⟩

private theorem ext_under {u v : Underlying C I N D T} (h1 : u.payCcys = v.payCcys) (h2 : u.indices = v.indices) (h3 : u.credits = v.credits) : u = v := by
  cases u; cases v; cases h1; cases h2; cases h3; rfl

private theorem merge_comm {κ V : Type} [LinearOrder κ] [LinearOrder V] {a b : List (κ × V)} (ha : KeysSorted a) (hb : KeysSorted b) :
    mergeMax a b = mergeMax b a :=
  sorted_ext (merge_ok ha hb).1 (merge_ok hb ha).1 fun k => by rw [(merge_ok ha hb).2, (merge_ok hb ha).2, later_comm]

private theorem merge_assoc {κ V : Type} [LinearOrder κ] [LinearOrder V] {a b c : List (κ × V)} (ha : KeysSorted a) (hb : KeysSorted b)
    (hc : KeysSorted c) : mergeMax (mergeMax a b) c = mergeMax a (mergeMax b c) :=
  sorted_ext (merge_ok (merge_ok ha hb).1 hc).1 (merge_ok ha (merge_ok hb hc).1).1 fun k => by
    rw [(merge_ok (merge_ok ha hb).1 hc).2, (merge_ok ha hb).2, (merge_ok ha (merge_ok hb hc).1).2, (merge_ok hb hc).2, later_assoc]

private theorem merge_self {κ V : Type} [LinearOrder κ] [LinearOrder V] {a : List (κ × V)} (ha : KeysSorted a) : mergeMax a a = a :=
  sorted_ext (merge_ok ha ha).1 ha fun k => by rw [(merge_ok ha ha).2, later_self]

/-- C56: merging is commutative. -/
theorem C56_comm {u v : Underlying C I N D T} (hu : Ordered u) (hv : Ordered v) : u.add v = v.add u :=
  ext_under (merge_comm hu.1 hv.1) (merge_comm hu.2 hv.2) (merge_comm hu.3 hv.3)

/-- C56: merging is associative. -/
theorem C56_assoc {u v w : Underlying C I N D T} (hu : Ordered u) (hv : Ordered v) (hw : Ordered w) : (u.add v).add w = u.add (v.add w) :=
  ext_under (merge_assoc hu.1 hv.1 hw.1) (merge_assoc hu.2 hv.2 hw.2) (merge_assoc hu.3 hv.3 hw.3)

/-- C56: merging is idempotent. -/
theorem C56_idem {u : Underlying C I N D T} (hu : Ordered u) : u.add u = u := ext_under (merge_self hu.1) (merge_self hu.2) (merge_self hu.3)

/-- C56: the order in which any number of trades is merged does not matter. -/
theorem C56_permutation {us vs : List (Underlying C I N D T)} (hp : us.Perm vs) {u : Underlying C I N D T} (hu : Ordered u) (hus : ∀ v ∈ us, Ordered v) :
    us.foldl Underlying.add u = vs.foldl Underlying.add u := by
  induction hp generalizing u with
  | nil => rfl
  | cons x _ ih =>
    rw [List.foldl_cons, List.foldl_cons]
    have hx := hus x List.mem_cons_self
    exact ih ⟨(merge_ok hu.1 hx.1).1, (merge_ok hu.2 hx.2).1, (merge_ok hu.3 hx.3).1⟩ fun v hv => hus v (List.mem_cons_of_mem _ hv)
  | swap x y l =>
    have hx := hus x (List.mem_cons_of_mem _ List.mem_cons_self)
    have hy := hus y List.mem_cons_self
    rw [List.foldl_cons, List.foldl_cons, List.foldl_cons, List.foldl_cons, C56_assoc hu hy hx, C56_assoc hu hx hy, C56_comm hy hx]
  | trans h1 _ ih1 ih2 =>
    rw [ih1 hu hus, ih2 hu fun v hv => hus v (h1.mem_iff.2 hv)]

/-! ### The hypotheses hold -/

example : ∃ u v : Underlying Nat Nat Nat Nat Nat, Ordered u ∧ Ordered v ∧ u ≠ v ∧ (u.add v).payCcys = [(1, 5), (2, 9), (4, 3)] :=
  ⟨⟨[(1, 5), (2, 7)], [], []⟩, ⟨[(2, 9), (4, 3)], [], []⟩, ⟨by simp [KeysSorted], List.Pairwise.nil, List.Pairwise.nil⟩,
    ⟨by simp [KeysSorted], List.Pairwise.nil, List.Pairwise.nil⟩, by simp, by decide⟩

end Dal
