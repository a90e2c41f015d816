import Verif.Aad.MultiModel
import Verif.Aad.AdjointProps

/-! # Several results at once (C109) -/

namespace Dal

open Dal.Adj

/-! ### The tape of a program recorded in the multi-result mode -/

/-- The arguments of each node are recorded before it. -/
def Adj.Backward (ns : List Node) : Prop := ∀ (k : Nat) (nd : Node), ns[k]? = some nd → ∀ a ∈ nd, a.1 < k

/-- The nodes of a tape recorded wholly in multi-result mode. -/
def Adj.wide (num : Nat) (nd : Node) : MNode := ⟨num, nd.map fun a => (Slot.many a.1, a.2)⟩

private theorem recordAll_snoc (md : Mode) (base : List MNode) (ns : List Node) (nd : Node) :
    recordAll md base (ns ++ [nd]) = record md (recordAll md base ns) nd := by
  unfold recordAll
  rw [List.foldl_append]
  rfl

theorem Adj.recordAll_wide {num : Nat} (hn : 0 < num) (ns : List Node) (hb : Backward ns) :
    recordAll ⟨true, num⟩ [] ns = ns.map (wide num) := by
  induction ns using List.reverseRecOn with
  | nil => rfl
  | append_singleton ns nd ih =>
    have hb' : Backward ns := by
      intro k nd' h
      have hk := (List.getElem?_eq_some_iff.1 h).1
      exact hb k nd' (by rw [List.getElem?_append_left hk]; exact h)
    rw [recordAll_snoc, ih hb', record, List.map_append]
    congr 1
    simp only [List.map_cons, List.map_nil, wide, if_true]
    congr 2
    apply List.map_congr_left
    intro a ha
    have hlt : a.1 < ns.length := hb ns.length nd (by simp) a ha
    unfold slot
    simp only [if_true, List.getElem?_map, List.getElem?_eq_getElem hlt, Option.map_some]
    rw [if_neg (by simp only [wide]; omega)]

/-! ### One node -/

private theorem spread_zero {i : Nat} : ∀ (nd : Node) (adj : Nat → ℝ), (∀ a ∈ nd, a.1 < i) → adj i = 0 → spread i nd adj = adj := by
  intro nd
  induction nd with
  | nil => intro adj _ _; rfl
  | cons a r ih =>
    obtain ⟨k, d⟩ := a
    intro adj h h0
    rw [spread, h0, zero_mul, add_zero, Function.update_eq_self]
    exact ih adj (fun b hb => h b (List.mem_cons_of_mem _ hb)) h0

private theorem spreadAll_wide {num i : Nat} : ∀ (nd : Node) (m : Mem), (∀ a ∈ nd, a.1 < i) →
    ∃ m', spreadAll num i (nd.map fun a => (Slot.many a.1, a.2)) m = some m' ∧ m'.one = m.one ∧
      ∀ j < num, (fun k => m'.many k j) = spread i nd (fun k => m.many k j) := by
  intro nd
  induction nd with
  | nil => intro m _; exact ⟨m, rfl, rfl, fun j _ => rfl⟩
  | cons a r ih =>
    obtain ⟨k, d⟩ := a
    intro m h
    rw [List.map_cons, spreadAll]
    obtain ⟨m', h1, h2, h3⟩ := ih _ (fun b hb => h b (List.mem_cons_of_mem _ hb))
    refine ⟨m', h1, h2, fun j hj => ?_⟩
    rw [h3 j hj, spread]
    congr 1
    funext x
    by_cases hx : x = k
    · subst hx
      simp only [Function.update_self, if_pos hj]
      ring
    · simp only [Function.update_of_ne hx]

private theorem stepAll_wide {num : Nat} {eps : ℝ} (heps : 0 ≤ eps) {i : Nat} {nd : Node} (hb : ∀ a ∈ nd, a.1 < i) (m : Mem) :
    ∃ m', stepAll num eps i (wide num nd) m = some m' ∧ m'.one = m.one ∧
      ∀ j < num, ∃ e, 0 ≤ e ∧ e ≤ eps ∧ (fun k => m'.many k j) = propagateOne e i nd (fun k => m.many k j) := by
  unfold stepAll
  by_cases h0 : nd = []
  · subst h0
    refine ⟨m, by simp [wide], rfl, fun j _ => ⟨0, le_refl _, heps, ?_⟩⟩
    unfold propagateOne
    rw [if_pos (Or.inl rfl)]
  · have h1 : (wide num nd).args ≠ [] := by simpa [wide] using h0
    rw [if_neg h1, if_neg (by simp [wide])]
    by_cases hs : ∀ j < num, |m.many i j| ≤ eps
    · rw [if_pos hs]
      refine ⟨m, rfl, rfl, fun j hj => ⟨eps, heps, le_refl _, ?_⟩⟩
      unfold propagateOne
      rw [if_pos (Or.inr (hs j hj))]
    · rw [if_neg hs]
      obtain ⟨m', g1, g2, g3⟩ := spreadAll_wide (num := num) nd m hb
      refine ⟨m', g1, g2, fun j hj => ⟨0, le_refl _, heps, ?_⟩⟩
      rw [g3 j hj]
      unfold propagateOne
      by_cases hz : |m.many i j| ≤ 0
      · rw [if_pos (Or.inr hz)]
        exact spread_zero nd _ hb (abs_nonpos_iff.1 hz)
      · rw [if_neg (by rintro (h | h); exacts [h0 h, hz h])]

/-! ### All nodes -/

private theorem descend_columns {num : Nat} {ns : List Node} (hb : Backward ns) : ∀ (count s : Nat) (m : Mem), s < ns.length → count ≤ s →
    ∃ m', descend (stepAll num 0) (ns.map (wide num)) count s m = some m' ∧ m'.one = m.one ∧
      ∀ j < num, down 0 ns count s (fun k => m.many k j) = some (fun k => m'.many k j) := by
  intro count
  induction count with
  | zero =>
    intro s m hs _
    have hg := List.getElem?_eq_getElem hs
    obtain ⟨m', h1, h2, h3⟩ := stepAll_wide (num := num) (le_refl 0) (hb s _ hg) m
    refine ⟨m', ?_, h2, fun j hj => ?_⟩
    · rw [descend, List.getElem?_map, hg]; exact h1
    · rw [down, hg]
      obtain ⟨e, e0, e1, h⟩ := h3 j hj
      rw [h, le_antisymm e1 e0]
  | succ count ih =>
    intro s m hs hc
    obtain ⟨s, rfl⟩ : ∃ t, s = t + 1 := ⟨s - 1, by omega⟩
    have hg := List.getElem?_eq_getElem hs
    obtain ⟨m1, h1, h2, h3⟩ := stepAll_wide (num := num) (le_refl 0) (hb (s + 1) _ hg) m
    obtain ⟨m', g1, g2, g3⟩ := ih s m1 (by omega) (by omega)
    refine ⟨m', ?_, g2.trans h2, fun j hj => ?_⟩
    · rw [descend, List.getElem?_map, hg]
      dsimp only [Option.map_some]
      rw [h1]
      exact g1
    · rw [down, hg]
      dsimp only
      obtain ⟨e, e0, e1, h⟩ := h3 j hj
      rw [← g3 j hj, h, le_antisymm e1 e0]

private theorem descend_total {num : Nat} {eps : ℝ} (heps : 0 ≤ eps) {ns : List Node} (hb : Backward ns) : ∀ (count s : Nat) (m : Mem),
    s < ns.length → count ≤ s → ∃ m', descend (stepAll num eps) (ns.map (wide num)) count s m = some m' ∧ m'.one = m.one ∧
      ∀ (D : Nat → ℝ) (i : Nat), Lin ns D i → ∀ j < num,
        |total ns.length (weight D i (s - count)) (fun k => m'.many k j) - total ns.length (weight D i (s + 1)) (fun k => m.many k j)|
          ≤ eps * ∑ k ∈ Finset.Ico (s - count) (s + 1), |D k| := by
  have step : ∀ (s : Nat) (hs : s < ns.length) (m : Mem), ∃ m', stepAll num eps s (wide num ns[s]) m = some m' ∧ m'.one = m.one ∧
      ∀ (D : Nat → ℝ) (i : Nat), Lin ns D i → ∀ j < num,
        |total ns.length (weight D i s) (fun k => m'.many k j) - total ns.length (weight D i (s + 1)) (fun k => m.many k j)| ≤ eps * |D s| := by
    intro s hs m
    have hg := List.getElem?_eq_getElem hs
    obtain ⟨m', h1, h2, h3⟩ := stepAll_wide (num := num) heps (hb s _ hg) m
    refine ⟨m', h1, h2, fun D i hl j hj => ?_⟩
    obtain ⟨e, e0, e1, h⟩ := h3 j hj
    rw [h]
    exact (one_step e0 hl hg _).trans (mul_le_mul_of_nonneg_right e1 (abs_nonneg _))
  intro count
  induction count with
  | zero =>
    intro s m hs _
    obtain ⟨m', h1, h2, h3⟩ := step s hs m
    refine ⟨m', ?_, h2, fun D i hl j hj => ?_⟩
    · rw [descend, List.getElem?_map, List.getElem?_eq_getElem hs]; exact h1
    · simpa using h3 D i hl j hj
  | succ count ih =>
    intro s m hs hc
    obtain ⟨s, rfl⟩ : ∃ t, s = t + 1 := ⟨s - 1, by omega⟩
    obtain ⟨m1, h1, h2, h3⟩ := step (s + 1) hs m
    obtain ⟨m', g1, g2, g3⟩ := ih s m1 (by omega) (by omega)
    refine ⟨m', ?_, g2.trans h2, fun D i hl j hj => ?_⟩
    · rw [descend, List.getElem?_map, List.getElem?_eq_getElem hs]
      dsimp only [Option.map_some]
      rw [h1]
      exact g1
    · rw [show s + 1 - (count + 1) = s - count by omega, Finset.sum_Ico_succ_top (by omega), mul_add]
      have h4 : total ns.length (weight D i (s - count)) (fun k => m'.many k j) - total ns.length (weight D i (s + 1 + 1)) (fun k => m.many k j)
          = (total ns.length (weight D i (s - count)) (fun k => m'.many k j) - total ns.length (weight D i (s + 1)) (fun k => m1.many k j))
            + (total ns.length (weight D i (s + 1)) (fun k => m1.many k j) - total ns.length (weight D i (s + 1 + 1)) (fun k => m.many k j)) := by
        ring
      rw [h4]
      exact (abs_add_le _ _).trans (add_le_add (g3 D i hl j hj) (h3 D i hl j hj))

/-! ### The claims -/

/-- C109: without a cutoff, propagating several results at once is propagating each of them alone: on every tape recorded in the
multi-result mode, whatever the adjoints before, the call is defined, leaves the single adjoints alone, and each component ends as it would
in the single-result mode. -/
theorem C109_columns (num : Nat) (hn : 0 < num) (ns : List Node) (hb : Backward ns) (start stop : Nat) (hs : start < ns.length)
    (hst : stop ≤ start) (m : Mem) :
    ∃ m', propagateMulti ⟨true, num⟩ 0 (recordAll ⟨true, num⟩ [] ns) start stop m = some m' ∧ m'.one = m.one ∧
      ∀ j < num, propagate 0 ns start stop (fun k => m.many k j) = some (fun k => m'.many k j) := by
  rw [recordAll_wide hn ns hb]
  obtain ⟨m', h1, h2, h3⟩ := descend_columns (num := num) hb (start - stop) start m hs (by omega)
  refine ⟨m', ?_, h2, fun j hj => ?_⟩
  · unfold propagateMulti
    rw [if_neg (by omega)]
    exact h1
  · unfold propagate
    rw [if_neg (by omega)]
    exact h3 j hj

/-- The seeds: the adjoint number `j` of the node of result `j` is set to one. -/
noncomputable def seedResults (res : Nat → Nat) (num : Nat) (m : Mem) : Mem :=
  { m with many := fun k j => if j < num ∧ k = res j then 1 else m.many k j }

/-- C109: for every program evaluated at regular points and recorded in the multi-result mode, any results, and any adjoints left from
before: after `ResetAdjoints` and setting the seeds, one call of `PropagateAdjointsMulti` from the last node of the results, or later, to
the start gives in every input, component by component, the partial derivatives of the results, up to what the cutoff leaves out. -/
theorem C109_gradient (lib : Lib) (eps : ℝ) (heps : 0 ≤ eps) (p : List Stmt) (env0 : Nat → ℝ) (hs : Sound lib p 0 env0) (num : Nat)
    (hn : 0 < num) (res : Nat → Nat) (start : Nat) (hstart : start < p.length) (hres : ∀ j < num, res j ≤ start) (m : Mem) :
    ∃ m', propagateMulti ⟨true, num⟩ eps (recordAll ⟨true, num⟩ [] (nodes lib p 0 env0)) start 0
        (seedResults res num (resetAdjoints ⟨true, num⟩ m)) = some m' ∧
      ∀ (i : Nat) (v : ℝ), p[i]? = some (.leaf v) → ∀ j < num,
        |m'.many i j - partialDeriv lib p env0 i v (res j)| ≤ eps * ∑ k ∈ Finset.range (start + 1), |partialDeriv lib p env0 i v k| := by
  have hlen := nodes_length lib p 0 env0
  have hb : Backward (nodes lib p 0 env0) := fun k nd h a ha => by
    have := nodes_back lib p 0 env0 hs k nd h a ha
    omega
  rw [recordAll_wide hn _ hb]
  obtain ⟨m', h1, _, h3⟩ := descend_total (num := num) heps hb start start (seedResults res num (resetAdjoints ⟨true, num⟩ m)) (by omega)
    (Nat.le_refl _)
  refine ⟨m', ?_, fun i v hi j hj => ?_⟩
  · unfold propagateMulti
    rw [if_neg (by omega), Nat.sub_zero]
    exact h1
  · have hl := (program_lin' lib hs hi).1
    have hi' : i < p.length := (List.getElem?_eq_some_iff.1 hi).1
    have h := h3 _ i hl j hj
    rw [Nat.sub_self, total_one _ _ (by omega) hl.one, ← Finset.range_eq_Ico] at h
    have hseed : (fun k => (seedResults res num (resetAdjoints ⟨true, num⟩ m)).many k j) = Function.update (fun _ => 0) (res j) 1 := by
      funext k
      unfold seedResults resetAdjoints
      by_cases hk : k = res j
      · subst hk; simp [hj]
      · simp [hk]
    have hw : total (nodes lib p 0 env0).length (weight (partialDeriv lib p env0 i v) i (start + 1))
        (fun k => (seedResults res num (resetAdjoints ⟨true, num⟩ m)).many k j) = partialDeriv lib p env0 i v (res j) := by
      rw [hseed]
      unfold total
      have hr := hres j hj
      rw [Finset.sum_eq_single (res j)]
      · unfold weight
        rw [if_pos (Or.inl (by omega)), Function.update_self, one_mul]
      · intro b _ hb'
        rw [Function.update_of_ne hb', zero_mul]
      · intro h'
        exact absurd (Finset.mem_range.2 (by omega)) h'
    rw [hw] at h
    exact h

/-- C109: without a cutoff the components are exactly the derivatives. -/
theorem C109_gradient_exact (lib : Lib) (p : List Stmt) (env0 : Nat → ℝ) (hs : Sound lib p 0 env0) (num : Nat) (hn : 0 < num)
    (res : Nat → Nat) (start : Nat) (hstart : start < p.length) (hres : ∀ j < num, res j ≤ start) (m : Mem) :
    ∃ m', propagateMulti ⟨true, num⟩ 0 (recordAll ⟨true, num⟩ [] (nodes lib p 0 env0)) start 0
        (seedResults res num (resetAdjoints ⟨true, num⟩ m)) = some m' ∧
      ∀ (i : Nat) (v : ℝ), p[i]? = some (.leaf v) → ∀ j < num,
        HasDerivAt (fun x => values lib (setInput p i x) 0 env0 (res j)) (m'.many i j) v := by
  obtain ⟨m', h1, h2⟩ := C109_gradient lib 0 (le_refl _) p env0 hs num hn res start hstart hres m
  refine ⟨m', h1, fun i v hi j hj => ?_⟩
  have h := h2 i v hi j hj
  rw [zero_mul] at h
  have he : m'.many i j = partialDeriv lib p env0 i v (res j) := by
    have := abs_nonpos_iff.1 h
    linarith
  rw [he]
  exact ((program_lin' lib hs hi).2 (res j)).hasDerivAt

private theorem spreadOne_wide {i : Nat} : ∀ (nd : Node) (m : Mem),
    ∃ m', spreadOne i (nd.map fun a => (Slot.many a.1, a.2)) m = some m' ∧ m'.one = m.one := by
  intro nd
  induction nd with
  | nil => intro m; exact ⟨m, rfl, rfl⟩
  | cons a r ih =>
    intro m
    rw [List.map_cons, spreadOne]
    obtain ⟨m', h1, h2⟩ := ih _
    exact ⟨m', h1, h2⟩

private theorem stepOne_wide (num : Nat) (eps : ℝ) (i : Nat) (nd : Node) (m : Mem) :
    ∃ m', stepOne eps i (wide num nd) m = some m' ∧ m'.one = m.one := by
  unfold stepOne
  by_cases h : (wide num nd).args = [] ∨ |m.one i| ≤ eps
  · rw [if_pos h]; exact ⟨m, rfl, rfl⟩
  · rw [if_neg h]; exact spreadOne_wide nd m

private theorem descend_single {num : Nat} {eps : ℝ} {ns : List Node} : ∀ (count s : Nat) (m : Mem), s < ns.length → count ≤ s →
    ∃ m', descend (stepOne eps) (ns.map (wide num)) count s m = some m' ∧ m'.one = m.one := by
  intro count
  induction count with
  | zero =>
    intro s m hs _
    obtain ⟨m', h1, h2⟩ := stepOne_wide num eps s ns[s] m
    refine ⟨m', ?_, h2⟩
    rw [descend, List.getElem?_map, List.getElem?_eq_getElem hs]
    exact h1
  | succ count ih =>
    intro s m hs hc
    obtain ⟨s, rfl⟩ : ∃ t, s = t + 1 := ⟨s - 1, by omega⟩
    obtain ⟨m1, h1, h2⟩ := stepOne_wide num eps (s + 1) ns[s + 1] m
    obtain ⟨m', g1, g2⟩ := ih s m1 (by omega) (by omega)
    refine ⟨m', ?_, g2.trans h2⟩
    rw [descend, List.getElem?_map, List.getElem?_eq_getElem hs]
    dsimp only [Option.map_some]
    rw [h1]
    exact g1

/-- C109: in the multi-result mode `PropagateToStart` and `PropagateToMark`, which every simulation uses, end without complaint and give no
number but the result itself an `Adjoint()`, whatever the program. -/
theorem C109_single_violated (eps : ℝ) (num : Nat) (hn : 0 < num) (ns : List Node) (hb : Backward ns) (r stop : Nat) (hr : r < ns.length)
    (hst : stop ≤ r) (m : Mem) :
    ∃ m', propagateSingle eps (recordAll ⟨true, num⟩ [] ns) r stop m = some m' ∧ m'.one r = 1 ∧ ∀ k, k ≠ r → m'.one k = m.one k := by
  rw [recordAll_wide hn ns hb]
  obtain ⟨m', h1, h2⟩ := descend_single (num := num) (eps := eps) (ns := ns) (r - stop) r { m with one := Function.update m.one r 1 } hr
    (by omega)
  refine ⟨m', ?_, ?_, fun k hk => ?_⟩
  · unfold propagateSingle
    rw [if_neg (by omega)]
    exact h1
  · rw [h2]; exact Function.update_self ..
  · rw [h2]; exact Function.update_of_ne hk ..

/-- C109: a number put on the tape before the mode is switched on has no array of adjoints; propagating to it through any node recorded
afterwards writes through a null pointer. -/
theorem C109_mixed_violated (eps : ℝ) (heps : eps < 1) (num : Nat) (hn : 0 < num) (d : ℝ) (m : Mem) (j : Nat) (hj : j < num)
    (hseed : m.many 1 j = 1) :
    propagateMulti ⟨true, num⟩ eps (recordAll ⟨true, num⟩ (recordAll ⟨false, 1⟩ [] [[]]) [[(0, d)]]) 1 0 m = none := by
  have hstep : stepAll num eps 1 ⟨num, [(Slot.null, d)]⟩ m = none := by
    unfold stepAll
    rw [if_neg (by simp), if_neg (by simp), if_neg]
    · rfl
    · intro h
      have := h j hj
      rw [hseed, abs_one] at this
      linarith
  have ht : recordAll ⟨true, num⟩ (recordAll ⟨false, 1⟩ [] [[]]) [[(0, d)]] = [⟨0, []⟩, ⟨num, [(Slot.null, d)]⟩] := by
    simp [recordAll, record, slot]
  rw [ht]
  unfold propagateMulti
  rw [if_neg (by omega), Nat.sub_zero, descend]
  dsimp only [List.getElem?_cons_succ, List.getElem?_cons_zero]
  rw [hstep]
  rfl

/-- C109: with a cutoff, what a result gives to the inputs depends on the other results propagated with it: a small adjoint is
passed on if that of another result is not small at the same node. -/
theorem C109_columns_violated (eps : ℝ) (h0 : 0 < eps) (h1 : eps < 1) : ∃ (ns : List Node) (m m' : Mem), Backward ns ∧
    propagateMulti ⟨true, 2⟩ eps (recordAll ⟨true, 2⟩ [] ns) 2 0 m = some m' ∧ m'.many 0 0 = 1 ∧
    ∃ adj, propagate eps ns 2 0 (fun k => m.many k 0) = some adj ∧ adj 0 = 0 := by
  have hne : eps ≠ 0 := ne_of_gt h0
  have hb : Backward [[], [(0, 2 / eps)], [(1, eps / 2)]] := by
    intro k nd h a ha
    match k, h with
    | 0, h => simp at h; subst h; simp at ha
    | 1, h => simp at h; subst h; simp at ha; subst ha; simp
    | 2, h => simp at h; subst h; simp at ha; subst ha; simp
    | k + 3, h => simp at h
  have habs : |eps / 2| ≤ eps := by rw [abs_of_pos (by linarith)]; linarith
  let m0 : Mem := seedResults (fun j => 2 - j) 2 ⟨fun _ => 0, fun _ _ => 0⟩
  have e20 : m0.many 2 0 = 1 := by simp [m0, seedResults]
  have e10 : m0.many 1 0 = 0 := by simp [m0, seedResults]
  have e00 : m0.many 0 0 = 0 := by simp [m0, seedResults]
  have e21 : m0.many 2 1 = 0 := by simp [m0, seedResults]
  have e11 : m0.many 1 1 = 1 := by simp [m0, seedResults]
  let m1 : Mem := { m0 with many := Function.update m0.many 1 fun j => if j < 2 then m0.many 1 j + eps / 2 * m0.many 2 j else m0.many 1 j }
  let m2 : Mem := { m1 with many := Function.update m1.many 0 fun j => if j < 2 then m1.many 0 j + 2 / eps * m1.many 1 j else m1.many 0 j }
  have s2 : stepAll 2 eps 2 (wide 2 [(1, eps / 2)]) m0 = some m1 := by
    unfold stepAll
    rw [if_neg (by simp [wide]), if_neg (by simp [wide]), if_neg]
    · rfl
    · intro h
      have := h 0 (by omega)
      rw [e20, abs_one] at this
      linarith
  have f11 : m1.many 1 1 = 1 := by simp [m1, e21, e11]
  have f10 : m1.many 1 0 = eps / 2 := by simp [m1, e20, e10]
  have s1 : stepAll 2 eps 1 (wide 2 [(0, 2 / eps)]) m1 = some m2 := by
    unfold stepAll
    rw [if_neg (by simp [wide]), if_neg (by simp [wide]), if_neg]
    · rfl
    · intro h
      have := h 1 (by omega)
      rw [f11, abs_one] at this
      linarith
  refine ⟨[[], [(0, 2 / eps)], [(1, eps / 2)]], m0, m2, hb, ?_, ?_, Function.update (fun k => m0.many k 0) 1 (eps / 2), ?_, ?_⟩
  · rw [recordAll_wide (by omega) _ hb]
    unfold propagateMulti
    rw [if_neg (by omega)]
    show (stepAll 2 eps 2 (wide 2 [(1, eps / 2)]) m0).bind (fun m => (stepAll 2 eps 1 (wide 2 [(0, 2 / eps)]) m).bind
      (fun m => stepAll 2 eps 0 (wide 2 []) m)) = some m2
    rw [s2]
    show (stepAll 2 eps 1 (wide 2 [(0, 2 / eps)]) m1).bind (fun m => stepAll 2 eps 0 (wide 2 []) m) = some m2
    rw [s1]
    show stepAll 2 eps 0 (wide 2 []) m2 = some m2
    unfold stepAll
    rw [if_pos (by simp [wide])]
  · show (Function.update m1.many 0 fun j => if j < 2 then m1.many 0 j + 2 / eps * m1.many 1 j else m1.many 0 j) 0 0 = 1
    rw [Function.update_self, if_pos (by omega), f10]
    have : m1.many 0 0 = 0 := by simp [m1, e00]
    rw [this]
    field_simp
    norm_num
  · unfold propagate
    rw [if_neg (by omega)]
    show some (propagateOne eps 0 [] (propagateOne eps 1 [(0, 2 / eps)] (propagateOne eps 2 [(1, eps / 2)] fun k => m0.many k 0))) = _
    have p2 : propagateOne eps 2 [(1, eps / 2)] (fun k => m0.many k 0) = Function.update (fun k => m0.many k 0) 1 (eps / 2) := by
      unfold propagateOne
      rw [if_neg]
      · simp only [spread, e20, e10, zero_add, one_mul]
      · rintro (h | h)
        · simp at h
        · simp only [e20, abs_one] at h
          linarith
    rw [p2]
    unfold propagateOne
    rw [if_pos (Or.inl rfl), if_pos (Or.inr (by rw [Function.update_self]; exact habs))]
  · rw [Function.update_of_ne (by omega)]
    exact e00

/-- What a program does with the mode: it takes the object for so many results, or destroys one it holds. -/
inductive Scope where
  /-- `SetNumResultsForAAD` -/
  | take (multi : Bool) (num : Nat)
  /-- the destructor -/
  | drop

/-- The mode after a history. -/
def modeAfter : List Scope → Mode → Mode
  | [], md => md
  | .take b n :: h, md => modeAfter h (setNumResults b n md)
  | .drop :: h, md => modeAfter h (releaseResults md)

/-- C109: as long as no two objects live at the same time, the mode is the single-result mode whenever none lives, and the mode asked for
while one does. -/
theorem C109_scope_partial (before : List (Bool × Nat)) (b : Bool) (n : Nat) :
    modeAfter (before.flatMap fun a => [.take a.1 a.2, .drop]) ⟨false, 1⟩ = ⟨false, 1⟩ ∧
    modeAfter ((before.flatMap fun a => [.take a.1 a.2, .drop]) ++ [.take b n]) ⟨false, 1⟩ = ⟨b, n⟩ := by
  induction before with
  | nil => exact ⟨rfl, rfl⟩
  | cons a r ih => exact ih

/-- C109: with two of them, destroying the inner one ends the mode of the outer one as well. -/
theorem C109_scope_violated (n n' : Nat) (md : Mode) : modeAfter [.take true n, .take true n', .drop] md = ⟨false, 1⟩ := rfl

/-- C109's hypotheses are met: two results, of which one is not the last number, of three inputs. -/
example (lib : Lib) : Sound lib [.leaf 3, .leaf 2, .leaf 5, .expr (.bin .mult (.num 0) (.num 1)), .expr (.bin .add (.num 3) (.num 2))] 0
    (fun _ => 0) := by
  simp only [Sound, Ex.Before, Ex.Regular, UOp.Regular, BOp.Regular, Ex.value, UOp.eval, BOp.eval, Function.update_apply]
  norm_num

example : ∀ j < 2, (fun j => 3 + j) j ≤ 4 := by intro j hj; show 3 + j ≤ 4; omega

example : Backward [[], [], [(0, 2), (1, 3)], [(2, 1), (0, -1)]] := by
  intro k nd h a ha
  match k, h with
  | 0, h => simp at h; subst h; simp at ha
  | 1, h => simp at h; subst h; simp at ha
  | 2, h => simp at h; subst h; simp at ha; rcases ha with rfl | rfl <;> simp
  | 3, h => simp at h; subst h; simp at ha; rcases ha with rfl | rfl <;> simp
  | k + 4, h => simp at h

example : (⟨fun _ => 0, fun k j => if k = 1 ∧ j = 0 then 1 else 0⟩ : Mem).many 1 0 = 1 := by simp

end Dal
