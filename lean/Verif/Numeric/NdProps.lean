import Verif.Numeric.MixedRadix
import Mathlib.Tactic.Ring
import Mathlib.Tactic.Linarith

/-!
# C52: N-dimensional arrays

Specification: an index is valid when it has as many entries as there are sizes, each below the size.
-/

namespace Dal

open Dal.Nd

private theorem strides_cons (s : Nat) (rest : List Nat) : strides (s :: rest) = boxTotal rest :: strides rest := by
  induction rest generalizing s with
  | nil => rfl
  | cons n rest ih =>
    have := ih n
    rw [strides, this]
    show boxTotal rest * n :: boxTotal rest :: strides rest = n * boxTotal rest :: _
    rw [Nat.mul_comm]
    exact this

private theorem inner_eq : ∀ (sizes idx : List Nat), idx.length = sizes.length → inner idx (strides sizes) = some (boxOffset sizes idx) := by
  intro sizes
  induction sizes with
  | nil => intro idx h; rw [List.length_eq_zero_iff.1 h]; rfl
  | cons s sizes ih =>
    intro idx h
    cases idx with
    | nil => cases h
    | cons i idx =>
      rw [strides_cons, inner, ih idx (by simpa using h)]
      rfl

/-- An array as the constructor leaves it: strides that belong to the sizes, and a storage of their product. -/
structure WellFormed {α : Type} (a : Arr α) : Prop where
  strides : a.strides = Nd.strides a.sizes
  vals : a.vals.length = boxTotal a.sizes

/-- C52: the constructor makes a well-formed array with the fill everywhere, of every rank but zero. -/
theorem C52_new {α : Type} (s : Nat) (sizes : List Nat) (fill : α) : ∃ a, newArr (s :: sizes) fill = some a ∧ WellFormed a ∧ a.sizes = s :: sizes ∧
    ∀ idx, validIndex (s :: sizes) idx → a.get idx = some fill := by
  unfold newArr
  rw [strides_cons]
  refine ⟨_, rfl, ⟨(strides_cons s sizes).symm, ?_⟩, rfl, fun idx h => ?_⟩
  · dsimp only; rw [List.length_replicate, Nat.mul_comm]; rfl
  · have h1 := boxOffset_lt h
    have h2 : boxOffset (s :: sizes) idx < boxTotal sizes * s := by rw [Nat.mul_comm]; exact h1
    unfold Arr.get
    dsimp only
    rw [← strides_cons s sizes, inner_eq _ _ (validIndex_length h), Option.bind_some, List.getElem?_replicate, if_pos h2]

/-- C52, not so: for rank zero the constructor reads the first of no strides. -/
theorem C52_rank_zero_violated {α : Type} (fill : α) : newArr [] fill = none := rfl

/-- C52: every valid index is inside the storage: it can be read, and written to, and the result is well formed. -/
theorem C52_inside {α : Type} {a : Arr α} (ha : WellFormed a) {idx : List Nat} (h : validIndex a.sizes idx) (x : α) :
    (∃ y, a.get idx = some y) ∧ ∃ b, a.put idx x = some b ∧ WellFormed b ∧ b.sizes = a.sizes := by
  have h1 := boxOffset_lt h
  rw [← ha.vals] at h1
  unfold Arr.get Arr.put
  rw [ha.strides, inner_eq _ _ (validIndex_length h), Option.bind_some, Option.bind_some, if_pos h1]
  exact ⟨⟨_, List.getElem?_eq_getElem h1⟩, _, rfl, ⟨rfl, by dsimp only; rw [List.length_set]; exact ha.vals⟩, rfl⟩

/-- C52: distinct valid indices address distinct elements: a write is seen at its index and at no other. -/
theorem C52_distinct {α : Type} {a b : Arr α} (ha : WellFormed a) {idx : List Nat} (h : validIndex a.sizes idx) {x : α} (hb : a.put idx x = some b)
    {jdx : List Nat} (hj : validIndex a.sizes jdx) : b.get jdx = if jdx = idx then some x else a.get jdx := by
  have h1 := boxOffset_lt h
  rw [← ha.vals] at h1
  unfold Arr.put at hb
  rw [ha.strides, inner_eq _ _ (validIndex_length h), Option.bind_some, if_pos h1] at hb
  cases hb
  unfold Arr.get
  dsimp only
  rw [ha.strides, inner_eq _ _ (validIndex_length hj), Option.bind_some, Option.bind_some]
  by_cases he : jdx = idx
  · rw [if_pos he, he, List.getElem?_set_self h1]
  · rw [if_neg he, List.getElem?_set_ne (fun hc => he (boxOffset_inj h hj hc).symm)]

/-! ### Access without a vector -/

private theorem goto_eq (pre ts : List Nat) : ∀ (idx : List Nat) (k s : Nat), k = pre.length → gotoOffset (pre ++ ts) idx k s =
    if idx.length = ts.length then (inner idx ts).map (s + ·) else none := by
  intro idx
  induction idx generalizing pre ts with
  | nil =>
    intro k s hk
    rw [gotoOffset, List.length_append, hk]
    cases ts with
    | nil => rw [if_pos (by simp), if_pos rfl]; rfl
    | cons t ts => rw [if_neg (by simp), if_neg (by simp)]
  | cons i idx ih =>
    intro k s hk
    rw [gotoOffset]
    cases ts with
    | nil => rw [List.getElem?_eq_none (by simp [hk]), if_neg (by simp)]; rfl
    | cons t ts =>
      have hg : (pre ++ t :: ts)[k]? = some t := by rw [hk, List.getElem?_append_right (Nat.le_refl _), Nat.sub_self]; rfl
      rw [hg, Option.bind_some]
      have := ih (pre ++ [t]) ts (k + 1) (s + i * t) (by simp [hk])
      rw [List.append_assoc, List.singleton_append] at this
      rw [this]
      by_cases hl : idx.length = ts.length
      · rw [if_pos hl, if_pos (by simp [hl]), inner, Option.map_map]
        congr 1
        funext z
        simp [Nat.add_assoc]
      · rw [if_neg hl, if_neg (by simp [hl])]

/-- C52: looking an element of a cube up by three numbers is the same as by a vector; with any other number of indices than the rank, an
exception is thrown. -/
theorem C52_goto {α : Type} (a : Arr α) (i j k : Nat) (hr : a.strides.length = 3) : a.cubeGet i j k = a.get [i, j, k] ∧
    ∀ idx, idx.length ≠ a.strides.length → gotoOffset a.strides idx 0 0 = none := by
  have h := goto_eq [] a.strides
  rw [List.nil_append] at h
  constructor
  · unfold Arr.cubeGet Arr.get
    rw [h _ 0 0 rfl, if_pos (by rw [hr]; rfl)]
    cases inner [i, j, k] a.strides with
    | none => rfl
    | some o => rw [Option.map_some, Nat.zero_add]
  · intro idx hl
    rw [h _ 0 0 rfl, if_neg hl]

/-- C52: a slice of a cube begins at its first element and ends as many elements later as the last size. -/
theorem C52_slice {α : Type} (a : Arr α) (ha : WellFormed a) (si sj sk i j : Nat) (hs : a.sizes = [si, sj, sk]) :
    ∃ b, a.sliceBegin i j = some b ∧ a.sliceEnd i j = some (b + sk) ∧ ∀ k, a.cubeGet i j k = a.vals[b + k]? := by
  have h := goto_eq [] a.strides
  rw [List.nil_append] at h
  have hst : a.strides = strides [si, sj, sk] := by rw [ha.strides, hs]
  have hl : ∀ idx : List Nat, idx.length = 3 → gotoOffset a.strides idx 0 0 = some (boxOffset [si, sj, sk] idx) := by
    intro idx hi
    rw [h _ 0 0 rfl, hst, if_pos (by rw [hi]; rfl), inner_eq _ _ hi, Option.map_some, Nat.zero_add]
  refine ⟨boxOffset [si, sj, sk] [i, j, 0], hl _ rfl, ?_, fun k => ?_⟩
  · unfold Arr.sliceEnd Arr.sliceBegin
    rw [hl _ rfl, Option.bind_some, hl _ rfl, Option.map_some]
    simp [boxOffset, boxTotal]
  · unfold Arr.cubeGet
    rw [hl _ rfl, Option.bind_some]
    simp [boxOffset, boxTotal, Nat.add_assoc]

/-! ### Resizing -/

private def place : List Nat → List Nat → Nat
  | m :: mins, l :: loc => l + m * place mins loc
  | _, _ => 0

private theorem place_inj : ∀ {mins l l' : List Nat}, validIndex mins l → validIndex mins l' → place mins l = place mins l' → l = l' := by
  intro mins
  induction mins with
  | nil =>
    intro l l' h h' _
    rw [List.length_eq_zero_iff.1 (validIndex_length h), List.length_eq_zero_iff.1 (validIndex_length h')]
  | cons m mins ih =>
    intro l l' h h' he
    cases l with
    | nil => exact absurd h (by simp [validIndex])
    | cons i l =>
      cases l' with
      | nil => exact absurd h' (by simp [validIndex])
      | cons j l' =>
        have he' : i + m * place mins l = j + m * place mins l' := he
        have h1 : i < m := h.1
        have h2 : j < m := h'.1
        have e1 : (i + m * place mins l) % m = i := by rw [Nat.add_mul_mod_self_left, Nat.mod_eq_of_lt h1]
        have e2 : (j + m * place mins l') % m = j := by rw [Nat.add_mul_mod_self_left, Nat.mod_eq_of_lt h2]
        have hij : i = j := by rw [← e1, ← e2, he']
        subst hij
        have : place mins l = place mins l' := Nat.eq_of_mul_eq_mul_left (show 0 < m by omega) (by omega)
        rw [ih h.2 h'.2 this]

private theorem place_lt : ∀ {mins l : List Nat}, validIndex mins l → place mins l < boxTotal mins := by
  intro mins
  induction mins with
  | nil => intro l h; cases l with
    | nil => exact Nat.one_pos
    | cons => exact absurd h (by simp [validIndex])
  | cons m mins ih => intro l h; cases l with
    | nil => exact absurd h (by simp [validIndex])
    | cons i l =>
      have h1 := ih h.2
      have h2 : i < m := h.1
      show i + m * place mins l < m * boxTotal mins
      calc i + m * place mins l < m + m * place mins l := by omega
        _ = m * (place mins l + 1) := by ring
        _ ≤ m * boxTotal mins := Nat.mul_le_mul_left _ h1

private theorem next_ok : ∀ {mins l : List Nat}, validIndex mins l →
    (∀ l', next mins l = some l' → validIndex mins l' ∧ place mins l' = place mins l + 1) ∧ (next mins l = none → place mins l + 1 = boxTotal mins) := by
  intro mins
  induction mins with
  | nil =>
    intro l h
    rw [List.length_eq_zero_iff.1 (validIndex_length h)]
    exact ⟨fun l' h => (by cases h), fun _ => rfl⟩
  | cons m mins ih =>
    intro l h
    cases l with
    | nil => exact absurd h (by simp [validIndex])
    | cons i l =>
      obtain ⟨h1, h2⟩ := ih h.2
      have hi : i < m := h.1
      rw [next]
      by_cases hlt : i + 1 < m
      · rw [if_pos hlt]
        refine ⟨fun l' he => ?_, fun he => (by cases he)⟩
        cases he
        exact ⟨⟨hlt, h.2⟩, by show i + 1 + m * place mins l = i + m * place mins l + 1; omega⟩
      · rw [if_neg hlt]
        refine ⟨fun l' he => ?_, fun he => ?_⟩
        · obtain ⟨l'', hl'', rfl⟩ := Option.map_eq_some_iff.1 he
          obtain ⟨g1, g2⟩ := h1 l'' hl''
          refine ⟨⟨by omega, g1⟩, ?_⟩
          show 0 + m * place mins l'' = i + m * place mins l + 1
          rw [g2, Nat.mul_add]
          omega
        · rw [Option.map_eq_none_iff] at he
          have := h2 he
          show i + m * place mins l + 1 = m * boxTotal mins
          rw [← this, Nat.mul_add]
          omega

private theorem loop_ok (old new mins : List Nat) (ho : mins.length = old.length) (hn : mins.length = new.length) : ∀ (fuel : Nat) (loc : List Nat),
    validIndex mins loc → boxTotal mins < place mins loc + 1 + fuel → ∃ ps : List (List Nat),
      movesLoop (strides old) (strides new) mins fuel loc = some (ps.map fun p => (boxOffset old p, boxOffset new p)) ∧
      ∀ p, p ∈ ps ↔ validIndex mins p ∧ place mins loc < place mins p := by
  intro fuel
  induction fuel with
  | zero =>
    intro loc h hf
    have := place_lt h
    omega
  | succ fuel ih =>
    intro loc h hf
    obtain ⟨h1, h2⟩ := next_ok h
    rw [movesLoop]
    cases hnx : next mins loc with
    | none =>
      have := h2 hnx
      refine ⟨[], rfl, fun p => ⟨fun hp => (by cases hp), fun hp => ?_⟩⟩
      have := place_lt hp.1
      omega
    | some loc' =>
      obtain ⟨g1, g2⟩ := h1 loc' hnx
      obtain ⟨ps, hps, hmem⟩ := ih loc' g1 (by omega)
      dsimp only
      have hlen := validIndex_length g1
      rw [inner_eq old loc' (by omega), inner_eq new loc' (by omega), Option.bind_some, Option.bind_some, hps]
      refine ⟨loc' :: ps, rfl, fun p => ?_⟩
      rw [List.mem_cons, hmem]
      constructor
      · rintro (rfl | ⟨hp, hlt⟩)
        · exact ⟨g1, by omega⟩
        · exact ⟨hp, by omega⟩
      · rintro ⟨hp, hlt⟩
        by_cases he : place mins p = place mins loc'
        · exact Or.inl (place_inj hp g1 he)
        · exact Or.inr ⟨hp, by omega⟩

private theorem valid_min : ∀ {old new p : List Nat}, old.length = new.length → (validIndex (List.zipWith min old new) p ↔ validIndex old p ∧ validIndex new p) := by
  intro old
  induction old with
  | nil =>
    intro new p h
    cases new with
    | nil => cases p <;> simp [validIndex]
    | cons => cases h
  | cons o old ih =>
    intro new p h
    cases new with
    | nil => cases h
    | cons n new =>
      cases p with
      | nil => simp [validIndex]
      | cons i p =>
        rw [List.zipWith_cons_cons]
        simp only [validIndex]
        rw [ih (by simpa using h), Nat.lt_min]
        constructor
        · rintro ⟨⟨a, b⟩, c, d⟩
          exact ⟨⟨a, c⟩, b, d⟩
        · rintro ⟨⟨a, c⟩, b, d⟩
          exact ⟨⟨a, b⟩, c, d⟩

private theorem enough_eq : ∀ {mins : List Nat}, (∀ m ∈ mins, 0 < m) → enough mins = boxTotal mins := by
  intro mins
  induction mins with
  | nil => intro _; rfl
  | cons m mins ih =>
    intro h
    have h0 := h m List.mem_cons_self
    rw [enough, ih (fun m hm => h m (List.mem_cons_of_mem _ hm)), show max m 1 = m by omega]
    rfl

private theorem origin_valid : ∀ {mins : List Nat}, (∀ m ∈ mins, 0 < m) → validIndex mins (List.replicate mins.length 0) ∧ place mins (List.replicate mins.length 0) = 0 ∧
    boxOffset mins (List.replicate mins.length 0) = 0 := by
  intro mins
  induction mins with
  | nil => intro _; exact ⟨trivial, rfl, rfl⟩
  | cons m mins ih =>
    intro h
    obtain ⟨h1, h2, h3⟩ := ih (fun m hm => h m (List.mem_cons_of_mem _ hm))
    refine ⟨⟨h m List.mem_cons_self, h1⟩, ?_, ?_⟩
    · show 0 + m * place mins (List.replicate mins.length 0) = 0
      rw [h2]; rfl
    · show 0 * boxTotal mins + boxOffset mins (List.replicate mins.length 0) = 0
      rw [h3]; omega

private theorem moveAll_ok {α : Type} (vals : List α) (old new : List Nat) : ∀ (ps : List (List Nat)) (dst : List α),
    (∀ p ∈ ps, boxOffset old p < vals.length ∧ boxOffset new p < dst.length) → ∃ dst',
      moveAll vals (ps.map fun p => (boxOffset old p, boxOffset new p)) dst = some dst' ∧ dst'.length = dst.length ∧
      ∀ n, (∃ p ∈ ps, boxOffset new p = n ∧ dst'[n]? = vals[boxOffset old p]?) ∨ ((∀ p ∈ ps, boxOffset new p ≠ n) ∧ dst'[n]? = dst[n]?) := by
  intro ps
  induction ps with
  | nil => intro dst _; exact ⟨dst, rfl, rfl, fun n => Or.inr ⟨fun p hp => (by cases hp), rfl⟩⟩
  | cons p ps ih =>
    intro dst h
    obtain ⟨h1, h2⟩ := h p List.mem_cons_self
    obtain ⟨dst', g1, g2, g3⟩ := ih (dst.set (boxOffset new p) vals[boxOffset old p]) (fun q hq => by
      rw [List.length_set]; exact h q (List.mem_cons_of_mem _ hq))
    refine ⟨dst', ?_, by rw [g2, List.length_set], fun n => ?_⟩
    · rw [List.map_cons, moveAll, List.getElem?_eq_getElem h1, Option.bind_some, if_pos h2]
      exact g1
    · rcases g3 n with ⟨q, hq, hn, hv⟩ | ⟨hne, hv⟩
      · exact Or.inl ⟨q, List.mem_cons_of_mem _ hq, hn, hv⟩
      · by_cases he : boxOffset new p = n
        · refine Or.inl ⟨p, List.mem_cons_self, he, ?_⟩
          rw [hv, he, List.getElem?_set_self (by omega), List.getElem?_eq_getElem h1]
        · refine Or.inr ⟨fun q hq => ?_, by rw [hv, List.getElem?_set_ne he]⟩
          rcases List.mem_cons.1 hq with rfl | hq
          · exact he
          · exact hne q hq

private theorem zip_pos : ∀ {old new : List Nat}, (∀ s ∈ old, 0 < s) → (∀ s ∈ new, 0 < s) → ∀ m ∈ List.zipWith min old new, 0 < m := by
  intro old
  induction old with
  | nil => intro new _ _ m hm; cases hm
  | cons o old ih =>
    intro new h h' m hm
    cases new with
    | nil => cases hm
    | cons n new =>
      rcases List.mem_cons.1 hm with rfl | hm
      · have h1 := h o List.mem_cons_self
        have h2 := h' n List.mem_cons_self
        omega
      · exact ih (fun s hs => h s (List.mem_cons_of_mem _ hs)) (fun s hs => h' s (List.mem_cons_of_mem _ hs)) m hm

private theorem resize_ok {α : Type} (dflt : α) {a : Arr α} (ha : WellFormed a) {new : List Nat} (hne : a.sizes ≠ []) (hl : a.sizes.length = new.length)
    (h1 : ∀ s ∈ a.sizes, 0 < s) (h2 : ∀ s ∈ new, 0 < s) (hroom : ∀ p, validIndex a.sizes p → validIndex new p → boxOffset new p < boxTotal a.sizes) :
    ∃ b, a.resize dflt new = some b ∧ b.sizes = new ∧ b.strides = strides new ∧ b.vals.length = boxTotal a.sizes ∧
      ∀ p, validIndex a.sizes p → validIndex new p → b.get p = if (∃ i ∈ p, i ≠ 0) then a.get p else some dflt := by
  have hlm : (List.zipWith min a.sizes new).length = a.sizes.length := by rw [List.length_zipWith]; omega
  have hpos := zip_pos h1 h2
  obtain ⟨o1, o2, _⟩ := origin_valid hpos
  rw [hlm] at o1 o2
  obtain ⟨ps, hps, hmem⟩ := loop_ok a.sizes new (List.zipWith min a.sizes new) hlm (by omega) (boxTotal (List.zipWith min a.sizes new)) _ o1 (by omega)
  obtain ⟨v, hv, hvl, hval⟩ := moveAll_ok a.vals a.sizes new ps (List.replicate (boxTotal a.sizes) dflt) (fun p hp => by
    have hp' := ((hmem p).1 hp).1
    rw [valid_min hl] at hp'
    rw [List.length_replicate, ha.vals]
    exact ⟨boxOffset_lt hp'.1, hroom p hp'.1 hp'.2⟩)
  refine ⟨⟨new, strides new, v⟩, ?_, rfl, rfl, by dsimp only; rw [hvl, List.length_replicate], fun p hp hp' => ?_⟩
  · unfold Arr.resize moves
    rw [if_pos hl.symm]
    dsimp only
    rw [enough_eq hpos, hps, Option.bind_some]
    cases hs : a.sizes with
    | nil => exact absurd hs hne
    | cons s rest =>
      have hst : a.strides = boxTotal rest :: strides rest := by rw [ha.strides, hs, strides_cons]
      rw [hst]
      dsimp only
      rw [hs] at hv
      have e : boxTotal (s :: rest) = s * boxTotal rest := rfl
      rw [e] at hv
      rw [hv]
      rfl
  · have hvm : validIndex (List.zipWith min a.sizes new) p := (valid_min hl).2 ⟨hp, hp'⟩
    have hlen := validIndex_length hp
    have horig : (∃ i ∈ p, i ≠ 0) ↔ p ≠ List.replicate a.sizes.length 0 := by
      constructor
      · rintro ⟨i, hi, hne⟩ rfl
        exact hne (List.mem_replicate.1 hi).2
      · intro hne
        by_contra hc
        apply hne
        rw [← hlen]
        exact List.eq_replicate_of_mem fun i hi => by
          by_contra h0
          exact hc ⟨i, hi, h0⟩
    unfold Arr.get
    dsimp only
    rw [ha.strides, inner_eq _ _ (validIndex_length hp'), inner_eq _ _ hlen, Option.bind_some, Option.bind_some]
    rcases hval (boxOffset new p) with ⟨q, hq, hqn, hqv⟩ | ⟨hnot, hdef⟩
    · have hq' := (hmem q).1 hq
      have hqv' := (valid_min hl).1 hq'.1
      have : q = p := boxOffset_inj hqv'.2 hp' hqn
      subst this
      rw [if_pos, hqv]
      rw [horig]
      rintro rfl
      omega
    · have hno : ¬ (place (List.zipWith min a.sizes new) (List.replicate a.sizes.length 0) < place (List.zipWith min a.sizes new) p) := fun h =>
        hnot p ((hmem p).2 ⟨hvm, h⟩) rfl
      have hp0 : p = List.replicate a.sizes.length 0 := place_inj hvm o1 (by omega)
      rw [if_neg (fun h => (horig.1 h) hp0), hdef, List.getElem?_replicate, if_pos (hroom p hp hp')]

/-- C52, in part: as long as the new shape needs no more storage than the old, resizing keeps every element that is valid in both shapes,
except the one at the origin. Missing are the origin, see `C52_origin_violated`, and growing, see `C52_grow_violated`. -/
theorem C52_resize_partial {α : Type} (dflt : α) {a : Arr α} (ha : WellFormed a) {new : List Nat} (hne : a.sizes ≠ []) (hl : a.sizes.length = new.length)
    (h1 : ∀ s ∈ a.sizes, 0 < s) (h2 : ∀ s ∈ new, 0 < s) (hroom : new.prod ≤ a.sizes.prod) :
    ∃ b, a.resize dflt new = some b ∧ b.sizes = new ∧ ∀ p, validIndex a.sizes p → validIndex new p → (∃ i ∈ p, i ≠ 0) → b.get p = a.get p := by
  have htot : ∀ l : List Nat, boxTotal l = l.prod := by
    intro l
    induction l with
    | nil => rfl
    | cons s l ih => rw [List.prod_cons, ← ih]; rfl
  obtain ⟨b, hb, hs, _, _, hg⟩ := resize_ok dflt ha hne hl h1 h2 (fun p _ hp' => by
    have := boxOffset_lt hp'
    rw [htot] at this ⊢
    omega)
  exact ⟨b, hb, hs, fun p hp hp' hi => by rw [hg p hp hp', if_pos hi]⟩

/-- C52, not so: whatever array is resized, to no larger storage and even to its own shape, the element at the origin is lost. -/
theorem C52_origin_violated {α : Type} (dflt : α) {a : Arr α} (ha : WellFormed a) {new : List Nat} (hne : a.sizes ≠ []) (hl : a.sizes.length = new.length)
    (h1 : ∀ s ∈ a.sizes, 0 < s) (h2 : ∀ s ∈ new, 0 < s) (hroom : new.prod ≤ a.sizes.prod) :
    ∃ b, a.resize dflt new = some b ∧ b.get (List.replicate a.sizes.length 0) = some dflt := by
  have htot : ∀ l : List Nat, boxTotal l = l.prod := by
    intro l
    induction l with
    | nil => rfl
    | cons s l ih => rw [List.prod_cons, ← ih]; rfl
  obtain ⟨b, hb, hs, _, _, hg⟩ := resize_ok dflt ha hne hl h1 h2 (fun p _ hp' => by
    have := boxOffset_lt hp'
    rw [htot] at this ⊢
    omega)
  have o1 := (origin_valid h1).1
  have o2 := (origin_valid h2).1
  rw [← hl] at o2
  refine ⟨b, hb, ?_⟩
  rw [hg _ o1 o2, if_neg]
  rintro ⟨i, hi, h0⟩
  exact h0 (List.mem_replicate.1 hi).2

/-- C52, not so: a vector of two elements resized to three has a third element outside its storage. -/
theorem C52_grow_violated : ∃ a b : Arr Nat, newArr [2] 7 = some a ∧ a.resize 0 [3] = some b ∧ validIndex b.sizes [2] ∧ b.get [2] = none :=
  ⟨⟨[2], [1], [7, 7]⟩, ⟨[3], [1], [0, 7]⟩, rfl, rfl, by show validIndex [3] [2]; simp [validIndex], rfl⟩

/-- C52, not so: an empty cube, as made by default, has no storage after any resizing. -/
theorem C52_empty_cube_violated (i j k : Nat) : ∃ a b : Arr Nat, newArr [0, 0, 0] 0 = some a ∧ a.resize 0 [i, j, k] = some b ∧ b.vals = [] := by
  refine ⟨⟨[0, 0, 0], [0, 0, 1], []⟩, ⟨[i, j, k], strides [i, j, k], []⟩, rfl, ?_, rfl⟩
  have : List.zipWith min [0, 0, 0] [i, j, k] = [0, 0, 0] := by simp
  unfold Arr.resize moves
  dsimp only
  rw [this]
  rfl

/-- C52, not so: with a size of zero the elements to keep are looked for outside the storage. -/
theorem C52_zero_size_violated : ∃ a : Arr Nat, newArr [0, 2] 0 = some a ∧ a.resize 0 [0, 2] = none := ⟨⟨[0, 2], [2, 1], []⟩, rfl, rfl⟩

/-- C52: the number of dimensions cannot be changed. -/
theorem C52_rank {α : Type} (dflt : α) (a : Arr α) (new : List Nat) (h : new.length ≠ a.sizes.length) : a.resize dflt new = none := by
  unfold Arr.resize moves
  rw [if_neg h]
  rfl

/-! ### The hypotheses hold -/

example : ∃ a : Arr Nat, newArr [2, 3] 5 = some a ∧ WellFormed a ∧ validIndex a.sizes [1, 2] := by
  obtain ⟨a, h1, h2, h3, _⟩ := C52_new 2 [3] 5
  exact ⟨a, h1, h2, by rw [h3]; simp [validIndex]⟩

example : (∀ s ∈ [2, 3], 0 < s) ∧ (∀ s ∈ [3, 1], 0 < s) ∧ [3, 1].prod ≤ [2, 3].prod := by decide

end Dal
