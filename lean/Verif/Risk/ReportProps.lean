import Verif.Risk.ReportModel
import Verif.Numeric.MixedRadix

/-!
# C54: risk reports

Specification: a cell is addressed by a location for each axis, below the size of the axis for every axis but the first.
-/

namespace Dal

open Dal.Risk (Report newReport addAxes addAxis assign find resize locate write readCell size setAll setLoc makeAddress writtenAxes build)
open Dal.Nd (inner)

variable {N K : Type} [DecidableEq N]

/-- An address is valid when the axes other than the first are within their sizes. -/
def validAddress : List Nat → List Nat → Prop
  | _ :: sizes, _ :: loc => validIndex sizes loc
  | _, _ => False

private def weights : List Nat → List Nat
  | [] => []
  | _ :: sizes => boxTotal sizes :: weights sizes

private theorem weights_length : ∀ sizes : List Nat, (weights sizes).length = sizes.length := by
  intro sizes
  induction sizes with
  | nil => rfl
  | cons s sizes ih => rw [weights, List.length_cons, List.length_cons, ih]

private theorem inner_weights : ∀ (sizes idx : List Nat), idx.length = sizes.length → inner idx (weights sizes) = some (boxOffset sizes idx) := by
  intro sizes
  induction sizes with
  | nil => intro idx h; rw [List.length_eq_zero_iff.1 h]; rfl
  | cons s sizes ih =>
    intro idx h
    cases idx with
    | nil => cases h
    | cons i idx =>
      rw [weights, inner, ih idx (by simpa using h)]
      rfl

/-- A report with the given names and sizes of its axes, and the given number of rows along the first. -/
structure ReportOk (axes : List (N × Nat)) (rows : Nat) (r : Report N K) : Prop where
  nonempty : axes ≠ []
  distinct : (axes.map (·.1)).Nodup
  positive : ∀ a ∈ axes.tail, 0 < a.2
  lookup : r.axes = (axes.map (·.1)).zipIdx
  strides : r.strides = weights (axes.map (·.2))
  vals : r.vals.length = rows * boxTotal (axes.tail.map (·.2))

private theorem total_pos : ∀ {sizes : List Nat}, (∀ s ∈ sizes, 0 < s) → 0 < boxTotal sizes := by
  intro sizes
  induction sizes with
  | nil => intro _; exact Nat.one_pos
  | cons s sizes ih => intro h; exact Nat.mul_pos (h s List.mem_cons_self) (ih fun t ht => h t (List.mem_cons_of_mem _ ht))

private theorem addAxes_ok : ∀ (rest : List (N × Nat)) (names : List N) (st : List Nat), (names ++ rest.map (·.1)).Nodup → (∀ a ∈ rest, 0 < a.2) →
    addAxes rest (names.zipIdx, st) = some ((names ++ rest.map (·.1)).zipIdx, st.map (· * boxTotal (rest.map (·.2))) ++ weights (rest.map (·.2))) := by
  intro rest
  induction rest with
  | nil =>
    intro names st _ _
    rw [addAxes]
    simp [boxTotal, weights]
  | cons a rest ih =>
    intro names st hnd hpos
    have ha := hpos a List.mem_cons_self
    rw [addAxes, addAxis]
    dsimp only
    rw [if_pos (Or.inl ha), Option.bind_some]
    have hfresh : a.1 ∉ names := by
      intro hm
      rw [List.map_cons, List.nodup_append] at hnd
      exact hnd.2.2 a.1 hm a.1 List.mem_cons_self rfl
    have has : assign names.zipIdx a.1 names.zipIdx.length = (names ++ [a.1]).zipIdx := by
      unfold assign
      rw [if_neg, List.zipIdx_append, List.length_zipIdx, Nat.zero_add]
      · rfl
      · rw [List.any_eq_true]
        rintro ⟨e, he, hea⟩
        have := List.fst_mem_of_mem_zipIdx he
        rw [of_decide_eq_true hea] at this
        exact hfresh this
    rw [has, ih (names ++ [a.1]) _ (by rw [List.append_assoc]; exact hnd) (fun b hb => hpos b (List.mem_cons_of_mem _ hb))]
    rw [List.append_assoc, List.map_append, List.map_map, List.append_assoc]
    simp only [List.map_cons, List.map_nil, weights, boxTotal, List.singleton_append, Nat.one_mul]
    congr 3
    apply List.map_congr_left
    intro x _
    simp [Nat.mul_assoc]

/-- C54: a report is made for any axes with distinct names of which all but the first have positive sizes; every cell is zero. -/
theorem C54_new (zero : K) (a : N × Nat) (rest : List (N × Nat)) (hnd : ((a :: rest).map (·.1)).Nodup) (hpos : ∀ b ∈ rest, 0 < b.2) :
    ∃ r, newReport zero (a :: rest) = some r ∧ ReportOk (a :: rest) a.2 r ∧ ∀ x ∈ r.vals, x = zero := by
  have h1 : addAxes (a :: rest) ([], []) = some (((a :: rest).map (·.1)).zipIdx, weights ((a :: rest).map (·.2))) := by
    rw [addAxes, addAxis]
    dsimp only
    rw [if_pos (Or.inr List.length_nil), Option.bind_some]
    have := addAxes_ok rest [a.1] [1] (by simpa using hnd) hpos
    have e : assign ([] : List (N × Nat)) a.1 ([] : List (N × Nat)).length = [a.1].zipIdx := rfl
    rw [e]
    show addAxes rest ([a.1].zipIdx, [1]) = _
    rw [this]
    simp [weights]
  unfold newReport
  dsimp only
  rw [h1, Option.bind_some]
  have hw : weights ((a :: rest).map (·.2)) = boxTotal (rest.map (·.2)) :: weights (rest.map (·.2)) := rfl
  dsimp only
  rw [hw]
  refine ⟨_, rfl, ⟨by simp, hnd, hpos, rfl, rfl, ?_⟩, fun x hx => (List.mem_replicate.1 hx).2⟩
  dsimp only
  rw [List.length_replicate]
  rfl

/-- C54: without axes, or with an axis of size zero after the first, there is no report. -/
theorem C54_refused (zero : K) : newReport (N := N) zero [] = none ∧ ∀ (a b : N × Nat), a.1 ≠ b.1 → b.2 = 0 → newReport zero [a, b] = none := by
  refine ⟨rfl, fun a b _ hb => ?_⟩
  have : addAxes [a, b] ([], []) = none := by
    rw [addAxes, addAxis]
    dsimp only
    rw [if_pos (Or.inr List.length_nil), Option.bind_some, addAxes, addAxis]
    dsimp only
    rw [if_neg]
    · rfl
    · rw [hb]
      simp [assign]
  unfold newReport
  dsimp only
  rw [this]
  rfl

private theorem find_zipIdx : ∀ (names : List N) (k i : Nat) (name : N), names.Nodup → names[i]? = some name → find (names.zipIdx k) name = some (k + i) := by
  intro names
  induction names with
  | nil => intro k i name _ h; cases h
  | cons m names ih =>
    intro k i name hnd h
    rw [List.nodup_cons] at hnd
    unfold find
    rw [List.zipIdx_cons, List.find?_cons]
    cases i with
    | zero =>
      rw [List.getElem?_cons_zero, Option.some.injEq] at h
      rw [decide_eq_true h]
      rfl
    | succ i =>
      rw [List.getElem?_cons_succ] at h
      have hne : ¬ m = name := fun he => hnd.1 (by rw [he]; exact List.mem_of_getElem? h)
      rw [decide_eq_false hne]
      have := ih (k + 1) i name hnd.2 h
      unfold find at this
      dsimp only
      rw [this]
      congr 1
      omega

private theorem weights_ratio : ∀ (sizes : List Nat) (i : Nat) (s : Nat), sizes[i + 1]? = some s → ∃ u t, (weights sizes)[i]? = some u ∧
    (weights sizes)[i + 1]? = some t ∧ u = s * t := by
  intro sizes
  induction sizes with
  | nil => intro i s h; cases h
  | cons s0 sizes ih =>
    intro i s h
    rw [List.getElem?_cons_succ] at h
    cases i with
    | zero =>
      cases sizes with
      | nil => cases h
      | cons s1 sizes =>
        rw [List.getElem?_cons_zero, Option.some.injEq] at h
        exact ⟨_, _, rfl, rfl, by rw [← h]; rfl⟩
    | succ i =>
      obtain ⟨u, t, h1, h2, h3⟩ := ih i s h
      exact ⟨u, t, h1, h2, h3⟩

private theorem weights_pos : ∀ (sizes : List Nat), (∀ s ∈ sizes.tail, 0 < s) → ∀ t ∈ weights sizes, 0 < t := by
  intro sizes
  induction sizes with
  | nil => intro _ t ht; cases ht
  | cons s sizes ih =>
    intro h t ht
    rcases List.mem_cons.1 ht with rfl | ht
    · exact total_pos h
    · exact ih (fun x hx => h x (List.mem_of_mem_tail hx)) t ht

private theorem weights_positive {axes : List (N × Nat)} {rows : Nat} {r : Report N K} (h : ReportOk axes rows r) : ∀ t ∈ r.strides, 0 < t := by
  rw [h.strides]
  apply weights_pos
  intro s hs
  rw [← List.map_tail] at hs
  obtain ⟨a, ha, rfl⟩ := List.mem_map.1 hs
  exact h.positive a ha

/-- C54: the size reported for an axis is the one given, and for the first axis the number of rows. -/
theorem C54_sizes {axes : List (N × Nat)} {rows : Nat} {r : Report N K} (h : ReportOk axes rows r) {i : Nat} {a : N × Nat} (hi : axes[i]? = some a) :
    size r a.1 = some (if i = 0 then rows else a.2) := by
  have hpos := weights_positive h
  have hf : find r.axes a.1 = some i := by
    rw [h.lookup]
    have := find_zipIdx (axes.map (·.1)) 0 i a.1 h.distinct (by rw [List.getElem?_map, hi]; rfl)
    rwa [Nat.zero_add] at this
  unfold size
  rw [hf, Option.bind_some]
  cases i with
  | zero =>
    obtain ⟨b, rest, hax⟩ := List.exists_cons_of_ne_nil h.nonempty
    have hst : r.strides = boxTotal (rest.map (·.2)) :: weights (rest.map (·.2)) := by rw [h.strides, hax]; rfl
    have ht := hpos _ (by rw [hst]; exact List.mem_cons_self)
    rw [if_neg (Nat.lt_irrefl 0), Option.bind_some, hst, List.getElem?_cons_zero, Option.bind_some, if_neg (Nat.ne_of_gt ht), if_pos rfl, h.vals, hax,
      List.tail_cons, Nat.mul_div_cancel _ ht]
  | succ i =>
    obtain ⟨u, t, h1, h2, h3⟩ := weights_ratio (axes.map (·.2)) i a.2 (by rw [List.getElem?_map, hi]; rfl)
    rw [← h.strides] at h1 h2
    have ht := hpos t (List.mem_of_getElem? h2)
    rw [if_pos (Nat.succ_pos i), Nat.add_sub_cancel, h1, h2, Option.bind_some, Option.bind_some, if_neg (Nat.ne_of_gt ht), if_neg (Nat.succ_ne_zero i), h3,
      Nat.mul_div_cancel _ ht]

/-- C54: setting a location by name sets the location at the place of the axis. -/
theorem C54_setLoc {axes : List (N × Nat)} {rows : Nat} {r : Report N K} (h : ReportOk axes rows r) {loc : List Nat} (hl : loc.length = axes.length)
    {i : Nat} {a : N × Nat} (hi : axes[i]? = some a) (x : Nat) : setLoc r loc a.1 x = some (loc.set i x) ∧ (makeAddress r).length = axes.length := by
  have hf : find r.axes a.1 = some i := by
    rw [h.lookup]
    have := find_zipIdx (axes.map (·.1)) 0 i a.1 h.distinct (by rw [List.getElem?_map, hi]; rfl)
    rwa [Nat.zero_add] at this
  constructor
  · unfold setLoc
    rw [hf, Option.bind_some, if_pos]
    rw [hl]
    exact (List.getElem?_eq_some_iff.1 hi).1
  · unfold makeAddress
    rw [List.length_replicate, h.lookup, List.length_zipIdx, List.length_map]

private theorem address {axes : List (N × Nat)} {rows : Nat} {r : Report N K} (h : ReportOk axes rows r) {loc : List Nat}
    (hv : validAddress (axes.map (·.2)) loc) : ∃ l rest' t o, loc = l :: rest' ∧ r.strides.head? = some t ∧ 0 < t ∧ r.vals.length = rows * t ∧
      inner loc r.strides = some (l * t + o) ∧ o < t ∧ o = boxOffset (axes.tail.map (·.2)) rest' ∧ validIndex (axes.tail.map (·.2)) rest' ∧
      t = boxTotal (axes.tail.map (·.2)) := by
  obtain ⟨b, rest, hax⟩ := List.exists_cons_of_ne_nil h.nonempty
  cases loc with
  | nil => rw [hax] at hv; exact absurd hv (by simp [validAddress])
  | cons l loc =>
    have hv' : validIndex (axes.tail.map (·.2)) loc := by rw [hax] at hv ⊢; exact hv
    have hst : r.strides = boxTotal (axes.tail.map (·.2)) :: weights (axes.tail.map (·.2)) := by rw [h.strides, hax]; rfl
    refine ⟨l, loc, _, _, rfl, by rw [hst]; rfl, weights_positive h _ (by rw [hst]; exact List.mem_cons_self), h.vals, ?_, boxOffset_lt hv', rfl, hv', rfl⟩
    rw [hst, inner, inner_weights _ _ (validIndex_length hv'), Option.map_some]

private theorem row_lt {l t o rows : Nat} (ho : o < t) : l * t + o < rows * t ↔ l < rows := by
  constructor
  · intro h
    by_contra hc
    have := Nat.mul_le_mul_right t (Nat.le_of_not_lt hc)
    omega
  · intro h
    have := Nat.mul_le_mul_right t (show l + 1 ≤ rows from h)
    rw [Nat.add_mul] at this
    omega

/-- C54: reading a valid address gives a value if the row exists, and throws if it does not. -/
theorem C54_read {axes : List (N × Nat)} {rows : Nat} {r : Report N K} (h : ReportOk axes rows r) {loc : List Nat}
    (hv : validAddress (axes.map (·.2)) loc) : (∃ x, readCell r loc = some x) ↔ ∀ l ∈ loc.head?, l < rows := by
  obtain ⟨l, rest', t, o, rfl, _, _, hlen, hin, ho, _⟩ := address h hv
  unfold readCell
  rw [hin, Option.bind_some]
  have hlt := row_lt (l := l) (rows := rows) ho
  rw [← hlen] at hlt
  constructor
  · rintro ⟨x, hx⟩ l' hl'
    cases hl'
    exact hlt.1 (List.getElem?_eq_some_iff.1 hx).1
  · intro hl
    exact ⟨_, List.getElem?_eq_getElem (hlt.2 (hl l rfl))⟩

private theorem resize_length (zero : K) (vals : List K) (n : Nat) : (resize zero vals n).length = n := by
  unfold resize
  rw [List.length_append, List.length_take, List.length_replicate]
  omega

private theorem resize_get (zero : K) (vals : List K) (n i : Nat) (h : vals.length ≤ n) : (resize zero vals n)[i]? =
    if i < vals.length then vals[i]? else if i < n then some zero else none := by
  unfold resize
  rw [List.take_of_length_le h]
  by_cases hi : i < vals.length
  · rw [if_pos hi, List.getElem?_append_left hi]
  · rw [if_neg hi, List.getElem?_append_right (by omega), List.getElem?_replicate]
    by_cases hn : i < n
    · rw [if_pos hn, if_pos (by omega)]
    · rw [if_neg hn, if_neg (by omega)]

/-- C54: writing to a valid address makes the row exist, changes the cell addressed and no other; cells in rows made anew are zero. -/
theorem C54_write (zero : K) {axes : List (N × Nat)} {rows : Nat} {r : Report N K} (h : ReportOk axes rows r) {l : Nat} {loc : List Nat}
    (hv : validAddress (axes.map (·.2)) (l :: loc)) (x : K) : ∃ r', write zero r (l :: loc) x = some r' ∧ ReportOk axes (max rows (l + 1)) r' ∧
      ∀ l' loc', validAddress (axes.map (·.2)) (l' :: loc') → readCell r' (l' :: loc') =
        if l' :: loc' = l :: loc then some x else if l' < rows then readCell r (l' :: loc') else if l' ≤ l then some zero else none := by
  obtain ⟨_, _, t, o, heq, hhd, ht, hlen, hin, ho, hoe, hvi, hte⟩ := address h hv
  cases heq
  have hlt := row_lt (l := l) (rows := rows) ho
  rw [← hlen] at hlt
  -- the report before the assignment
  obtain ⟨vals, hloc, hvl, hvg⟩ : ∃ vals : List K, locate zero r (l :: loc) = some ({ r with vals := vals }, some (l * t + o)) ∧
      vals.length = max rows (l + 1) * t ∧
      ∀ i, vals[i]? = if i < rows * t then r.vals[i]? else if i < max rows (l + 1) * t then some zero else none := by
    unfold locate
    rw [hin, Option.bind_some]
    by_cases hr : l < rows
    · rw [if_pos (hlt.2 hr)]
      refine ⟨r.vals, rfl, by rw [hlen, Nat.max_eq_left hr], fun i => ?_⟩
      rw [Nat.max_eq_left (show l + 1 ≤ rows from hr), ← hlen]
      by_cases hi : i < r.vals.length
      · rw [if_pos hi]
      · rw [if_neg hi, if_neg hi, List.getElem?_eq_none (by omega)]
    · rw [if_neg (fun hc => hr (hlt.1 hc))]
      cases hst : r.strides with
      | nil => rw [hst] at hhd; cases hhd
      | cons t' ts =>
        rw [hst] at hhd
        cases hhd
        dsimp only
        have hle : rows * t ≤ (l + 1) * t := Nat.mul_le_mul_right t (by omega)
        have hin' : l * t + o < (l + 1) * t := by rw [Nat.add_mul]; omega
        rw [resize_length, if_pos hin', Nat.max_eq_right (by omega)]
        refine ⟨resize zero r.vals ((l + 1) * t), by rw [← hst], resize_length _ _ _, fun i => ?_⟩
        rw [resize_get _ _ _ _ (by omega), hlen]
  unfold write
  rw [hloc]
  dsimp only
  refine ⟨_, rfl, ⟨h.nonempty, h.distinct, h.positive, h.lookup, h.strides, ?_⟩, fun l' loc' hv' => ?_⟩
  · dsimp only
    rw [List.length_set, hvl, ← hte]
  · obtain ⟨_, _, t', o', heq', hhd', _, _, hin', ho', hoe', hvi', _⟩ := address h hv'
    cases heq'
    rw [hhd] at hhd'
    cases hhd'
    unfold readCell
    dsimp only
    rw [hin', Option.bind_some, Option.bind_some]
    have hmax : l * t + o < max rows (l + 1) * t := (row_lt ho).2 (by omega)
    by_cases he : l' :: loc' = l :: loc
    · rw [if_pos he]
      cases he
      rw [hoe', ← hoe, List.getElem?_set_self (by omega)]
    · rw [if_neg he, List.getElem?_set_ne, hvg]
      · by_cases hr : l' < rows
        · rw [if_pos ((row_lt ho').2 hr), if_pos hr]
        · rw [if_neg (fun hc => hr ((row_lt ho').1 hc)), if_neg hr]
          by_cases hl : l' ≤ l
          · rw [if_pos hl, if_pos ((row_lt ho').2 (by omega))]
          · rw [if_neg hl, if_neg (fun hc => by have := (row_lt ho').1 hc; omega)]
      · intro hc
        have hll : l = l' := by
          have h1 := Nat.div_add_mod (l * t + o) t
          have e1 : (l * t + o) / t = l := by rw [Nat.add_comm, Nat.add_mul_div_right _ _ ht, Nat.div_eq_of_lt ho, Nat.zero_add]
          have e2 : (l' * t + o') / t = l' := by rw [Nat.add_comm, Nat.add_mul_div_right _ _ ht, Nat.div_eq_of_lt ho', Nat.zero_add]
          rw [← e1, ← e2, hc]
        subst hll
        exact he (by rw [boxOffset_inj hvi' hvi (by omega)])

/-- C54: setting all values keeps the report in order, with as many rows as there are values for. -/
theorem C54_setAll {axes : List (N × Nat)} {rows : Nat} {r : Report N K} (h : ReportOk axes rows r) (vals : List K) :
    (∃ rows', rows ≤ rows' ∧ vals.length = rows' * boxTotal (axes.tail.map (·.2)) ∧ ∃ r', setAll r vals = some r' ∧ ReportOk axes rows' r' ∧ r'.vals = vals) ∨
    setAll r vals = none ∧ ¬ ∃ rows', rows ≤ rows' ∧ vals.length = rows' * boxTotal (axes.tail.map (·.2)) := by
  obtain ⟨b, rest, hax⟩ := List.exists_cons_of_ne_nil h.nonempty
  have hst : r.strides = boxTotal (axes.tail.map (·.2)) :: weights (axes.tail.map (·.2)) := by rw [h.strides, hax]; rfl
  have ht := weights_positive h _ (by rw [hst]; exact List.mem_cons_self)
  have hlen := h.vals
  unfold setAll
  rw [hst]
  dsimp only
  obtain ⟨t, htt⟩ : ∃ t, t = boxTotal (axes.tail.map (·.2)) := ⟨_, rfl⟩
  rw [← htt] at ht hlen ⊢
  by_cases hc : vals.length % t = 0 ∧ r.vals.length ≤ vals.length
  · rw [if_pos hc]
    have hdm := Nat.div_add_mod vals.length t
    have hv : vals.length = vals.length / t * t := by rw [Nat.mul_comm]; omega
    refine Or.inl ⟨vals.length / t, ?_, hv, _, rfl, ?_, rfl⟩
    · by_contra hlt
      have := Nat.mul_le_mul_right t (show vals.length / t + 1 ≤ rows by omega)
      rw [Nat.add_mul] at this
      omega
    · refine ⟨h.nonempty, h.distinct, h.positive, h.lookup, by dsimp only; rw [htt, ← hst]; exact h.strides, ?_⟩
      dsimp only
      rw [← htt]
      exact hv
  · rw [if_neg hc]
    refine Or.inr ⟨rfl, ?_⟩
    rintro ⟨rows', hle, hv⟩
    refine hc ⟨by rw [hv, Nat.mul_mod_left], ?_⟩
    rw [hlen, hv]
    exact Nat.mul_le_mul_right t hle

/-! ### Storing -/

private theorem find_pos : ∀ (names : List N) (k i : Nat) (name : N), names[i]? = some name →
    ((names.zipIdx k).find? fun e => e.2 = k + i) = some (name, k + i) := by
  intro names
  induction names with
  | nil => intro k i name h; cases h
  | cons m names ih =>
    intro k i name h
    rw [List.zipIdx_cons, List.find?_cons]
    cases i with
    | zero =>
      rw [List.getElem?_cons_zero, Option.some.injEq] at h
      rw [h, Nat.add_zero, decide_eq_true rfl]
    | succ i =>
      rw [List.getElem?_cons_succ] at h
      rw [decide_eq_false (by omega)]
      have := ih (k + 1) i name h
      rw [show k + 1 + i = k + (i + 1) by omega] at this
      exact this

private theorem mapM_range {β : Type} (f : Nat → Option β) : ∀ (l : List β) (k : Nat), (∀ i b, l[i]? = some b → f (k + i) = some b) →
    (List.range' k l.length).mapM f = some l := by
  intro l
  induction l with
  | nil => intro k _; rfl
  | cons b l ih =>
    intro k h
    rw [List.length_cons, List.range'_succ, List.mapM_cons, show f k = some b from h 0 b rfl,
      ih (k + 1) (fun i c hc => by rw [show k + 1 + i = k + (i + 1) by omega]; exact h (i + 1) c hc)]
    rfl

/-- C54: what is stored of a report is its axes, the first with its number of rows; building a report from them and the values gives the same
report. -/
theorem C54_store (zero : K) {axes : List (N × Nat)} {rows : Nat} {r : Report N K} (h : ReportOk axes rows r) (a : N × Nat) (rest : List (N × Nat))
    (hax : axes = a :: rest) : writtenAxes r = some ((a.1, rows) :: rest) ∧ build zero ((a.1, rows) :: rest) r.vals = some r := by
  subst hax
  constructor
  · unfold writtenAxes
    have hn : r.axes.length = (a :: rest).length := by rw [h.lookup, List.length_zipIdx, List.length_map]
    rw [hn]
    have hf : ∀ i b, (a :: rest)[i]? = some b → ((r.axes.find? fun e => e.2 = i).bind fun e => (size r e.1).map fun n => (e.1, n)) =
        some (b.1, if i = 0 then rows else b.2) := by
      intro i b hb
      have h1 := find_pos ((a :: rest).map (·.1)) 0 i b.1 (by rw [List.getElem?_map, hb]; rfl)
      rw [Nat.zero_add] at h1
      rw [h.lookup, h1, Option.bind_some]
      dsimp only
      rw [C54_sizes h hb]
      rfl
    have := mapM_range (fun i => (r.axes.find? fun e => e.2 = i).bind fun e => (size r e.1).map fun n => (e.1, n)) ((a.1, rows) :: rest) 0 (fun i b hb => by
      rw [Nat.zero_add]
      cases i with
      | zero =>
        rw [List.getElem?_cons_zero, Option.some.injEq] at hb
        rw [hf 0 a rfl, ← hb, if_pos rfl]
      | succ i =>
        rw [List.getElem?_cons_succ] at hb
        rw [hf (i + 1) b hb, if_neg (Nat.succ_ne_zero i)])
    rw [List.length_cons, ← List.length_cons (a := a), ← List.range_eq_range'] at this
    exact this
  · obtain ⟨r0, h1, h2, _⟩ := C54_new zero (a.1, rows) rest h.distinct h.positive
    unfold build
    rw [h1, Option.bind_some]
    have hv : r.vals.length = rows * boxTotal (((a.1, rows) :: rest).tail.map (·.2)) := h.vals
    rcases C54_setAll h2 r.vals with ⟨_, _, _, r', h3, h4, h5⟩ | ⟨_, hno⟩
    · rw [h3]
      obtain ⟨x, y, z⟩ := r
      obtain ⟨x', y', z'⟩ := r'
      have e1 := h.lookup
      have e2 := h4.lookup
      have e3 := h.strides
      have e4 := h4.strides
      dsimp only at e1 e2 e3 e4 h5
      subst e1 e2 e3 e4 h5
      rfl
    · exact absurd ⟨rows, Nat.le_refl _, hv⟩ hno

/-! ### Violations -/

/-- C54, not so: a location beyond the size of its axis is not refused: it reads another cell. -/
theorem C54_alias_violated : ∃ r : Report Nat Nat, newReport 0 [(0, 2), (1, 2)] = some r ∧ ¬ validAddress [2, 2] [0, 2] ∧
    (write 0 r [1, 0] 7).bind (fun r => readCell r [0, 2]) = some 7 :=
  ⟨⟨[(0, 0), (1, 1)], [2, 1], [0, 0, 0, 0]⟩, rfl, by simp [validAddress, validIndex], rfl⟩

/-- C54, not so: an address refused because of a location beyond the size of its axis removes rows from the report. Here three rows of two become
one. -/
theorem C54_truncated_violated : ∃ r r' : Report Nat Nat, newReport 0 [(0, 3), (1, 2)] = some r ∧ size r 0 = some 3 ∧
    locate 0 r [0, 7] = some (r', none) ∧ size r' 0 = some 1 :=
  ⟨⟨[(0, 0), (1, 1)], [2, 1], [0, 0, 0, 0, 0, 0]⟩, ⟨[(0, 0), (1, 1)], [2, 1], [0, 0]⟩, rfl, rfl, rfl, rfl⟩

/-- C54, not so: two axes may have the same name, and then setting the location by name writes outside the address. -/
theorem C54_same_name_violated (x : Nat) : ∃ r : Report Nat Nat, newReport 0 [(5, 2), (5, 2)] = some r ∧ setLoc r (makeAddress r) 5 x = none :=
  ⟨⟨[(5, 1)], [2, 1], [0, 0, 0, 0]⟩, rfl, rfl⟩

/-! ### The hypotheses hold -/

example : ∃ r : Report Nat Nat, ReportOk [(0, 3), (1, 2)] 3 r ∧ validAddress ([(0, 3), (1, 2)].map Prod.snd) [5, 1] := by
  obtain ⟨r, _, h, _⟩ := C54_new (K := Nat) 0 ((0 : Nat), 3) [(1, 2)] (by decide) (by decide)
  exact ⟨r, h, by simp [validAddress, validIndex]⟩

end Dal
