import Verif.Excel.InterpolateModel
import Verif.Interp.LinearProps
import Verif.Interp.CubicProps
import Verif.Numeric.SmoothProps
import Mathlib.Data.List.Forall2

/-!
# C94: the interpolators of the public interface

Specification: lists in strict ascending order; the graph of a broken line through the points with flat ends; splines by their derivatives.
-/

namespace Dal

open Dal.Interp Dal.Interpolate

variable {K : Type} [Field K] [LinearOrder K] [IsStrictOrderedRing K]

/-! ### Lists and functions -/

private theorem els_get (v : List K) (i : Nat) (h : i < v.length) : els v i = v[i] := by
  unfold els
  rw [List.getD_eq_getElem?_getD, List.getElem?_eq_getElem h, Option.getD_some]

private theorem strict_iff (x : List K) : isStrict (els x) x.length = true ↔ x.Pairwise (· < ·) := by
  unfold isStrict
  rw [List.all_eq_true, ← List.isChain_iff_pairwise, List.isChain_iff_getElem]
  constructor
  · intro h i hi
    have := of_decide_eq_true (h i (List.mem_range.2 (by omega)))
    rwa [els_get x i (by omega), els_get x (i + 1) (by omega)] at this
  · intro h i hi
    have hi := List.mem_range.1 hi
    refine decide_eq_true ?_
    rw [els_get x i (by omega), els_get x (i + 1) (by omega)]
    exact h i (by omega)

private theorem els_lt {x : List K} (h : x.Pairwise (· < ·)) (i j : Nat) (hij : i < j) (hj : j < x.length) : els x i < els x j := by
  rw [els_get x i (by omega), els_get x j hj]
  exact List.pairwise_iff_getElem.1 h i j (by omega) hj hij

private theorem els_le {x : List K} (h : x.Pairwise (· < ·)) (i j : Nat) (hij : i ≤ j) (hj : j < x.length) : els x i ≤ els x j := by
  rcases Nat.lt_or_eq_of_le hij with h1 | rfl
  · exact (els_lt h i j h1 hj).le
  · exact le_rfl

private theorem get_forall {eps : K} {f : Interp1 K} : ∀ {q v : List K}, List.Forall₂ (fun a r => checkedInterp eps f a = .ok r) q v →
    interp1Get eps f q = .ok v := by
  intro q v h
  induction h with
  | nil => rfl
  | cons h1 _ ih => rw [interp1Get, h1, ih]; rfl

private theorem forall_knots {P : K → K → Prop} {x y : List K} (hl : y.length = x.length) (h : ∀ i, i < x.length → P (els x i) (els y i)) :
    List.Forall₂ P x y := by
  rw [List.forall₂_iff_get]
  refine ⟨hl.symm, fun i h1 h2 => ?_⟩
  have := h i h1
  rwa [els_get x i h1, els_get y i h2] at this

private theorem forall_exists {P : K → K → Prop} : ∀ q : List K, (∀ a, ∃ v, P a v) → ∃ v, List.Forall₂ P q v
  | [], _ => ⟨[], .nil⟩
  | a :: q, h => by
    obtain ⟨v, hv⟩ := h a
    obtain ⟨vs, hvs⟩ := forall_exists q h
    exact ⟨v :: vs, .cons hv hvs⟩

/-! ### Broken lines -/

/-- The broken line through the points, flat beyond them; closer than `eps` to a point from below, it may have the value there. -/
def OnLine (eps : K) (x y : List K) (a v : K) : Prop :=
  (∀ x0 y0, x.head? = some x0 → y.head? = some y0 → a ≤ x0 → v = y0) ∧
  (∀ x1 y1, x.getLast? = some x1 → y.getLast? = some y1 → x1 ≤ a → v = y1) ∧
  ∀ (k : Nat) (xl xr yl yr : K), x[k]? = some xl → x[k + 1]? = some xr → y[k]? = some yl → y[k + 1]? = some yr → xl ≤ a → a ≤ xr →
    (v - yl) * (xr - xl) = (a - xl) * (yr - yl) ∨ xr - a < eps ∧ v = yr

private theorem newLinear_of {x : List K} (y : Nat → K) (h : x.Pairwise (· < ·)) : newLinear x.length x.length (els x) y = some ⟨x.length, els x, y⟩ := by
  rcases C48_accepted x.length x.length (els x) y with ⟨h1, _⟩ | ⟨_, h2⟩
  · exact h1
  · exact absurd ⟨rfl, fun i j hij hj => els_le h i j hij hj⟩ h2

private theorem linear_some {x y : List K} {f : Interp1 K} (h : interp1NewLinear x y = some f) :
    x.Pairwise (· < ·) ∧ y.length = x.length ∧ f = .linear ⟨x.length, els x, els y⟩ := by
  unfold interp1NewLinear at h
  split at h
  · rename_i h1
    split at h
    · rename_i h2
      have h1 := (strict_iff x).1 h1
      rw [h2, newLinear_of (els y) h1, Option.map_some] at h
      cases h
      exact ⟨h1, h2, rfl⟩
    · cases h
  · cases h

/-- C94: a linear interpolator is built exactly from abscissas in strict ascending order and as many values. -/
theorem C94_linear (x y : List K) : (interp1NewLinear x y).isSome = true ↔ x.Pairwise (· < ·) ∧ y.length = x.length := by
  constructor
  · intro h
    obtain ⟨f, hf⟩ := Option.isSome_iff_exists.1 h
    exact ⟨(linear_some hf).1, (linear_some hf).2.1⟩
  · rintro ⟨h1, h2⟩
    unfold interp1NewLinear
    rw [if_pos ((strict_iff x).2 h1), if_pos h2, h2, newLinear_of (els y) h1]
    rfl

private theorem node {eps : K} (heps : 0 < eps) {x : List K} (y : Nat → K) (h : x.Pairwise (· < ·)) (i : Nat) (hi : i < x.length) :
    checkedInterp eps (.linear ⟨x.length, els x, y⟩) (els x i) = .ok (y i) := by
  have := C48_nodes heps (newLinear_of y h) i hi (fun j hj => els_lt h j i hj hi)
  unfold checkedInterp Interp1.isInBounds Interp1.eval
  rw [if_pos rfl]
  dsimp only
  rw [this]

/-- C94: at its abscissas a linear interpolator gives back its values. -/
theorem C94_linear_knots {eps : K} (heps : 0 < eps) {x y : List K} {f : Interp1 K} (h : interp1NewLinear x y = some f) : interp1Get eps f x = .ok y := by
  obtain ⟨h1, h2, rfl⟩ := linear_some h
  exact get_forall (forall_knots h2 fun i hi => node heps (els y) h1 i hi)

private theorem getLast_els (x : List K) (a : K) (h : x.getLast? = some a) : 0 < x.length ∧ els x (x.length - 1) = a := by
  rw [List.getLast?_eq_getElem?] at h
  have hl : x.length - 1 < x.length := by
    by_contra hc
    rw [List.getElem?_eq_none (by omega)] at h
    cases h
  refine ⟨by omega, ?_⟩
  rw [els_get x _ hl]
  rw [List.getElem?_eq_getElem hl] at h
  exact Option.some.inj h

private theorem idx_els {x : List K} {k : Nat} {a : K} (h : x[k]? = some a) : k < x.length ∧ els x k = a := by
  have hl : k < x.length := by
    by_contra hc
    rw [List.getElem?_eq_none (by omega)] at h
    cases h
  refine ⟨hl, ?_⟩
  rw [els_get x _ hl]
  rw [List.getElem?_eq_getElem hl] at h
  exact Option.some.inj h

private theorem unique_value {eps : K} {l : Linear K} {a v w : K} (h1 : checkedInterp eps (.linear l) a = .ok v) (h2 : l.eval eps a = some w) : v = w := by
  unfold checkedInterp Interp1.isInBounds Interp1.eval at h1
  rw [if_pos rfl] at h1
  dsimp only at h1
  rw [h2] at h1
  cases h1
  rfl

private theorem some_value {eps : K} {x y : List K} (h : x.Pairwise (· < ·)) (hl : y.length = x.length) (hn : x ≠ []) (a : K) :
    ∃ v, checkedInterp eps (.linear ⟨x.length, els x, els y⟩) a = .ok v := by
  have hpos : 0 < x.length := List.length_pos_iff.2 hn
  have key : ∃ v, (⟨x.length, els x, els y⟩ : Linear K).eval eps a = some v := by
    unfold Linear.eval linear
    dsimp only
    split
    · rw [if_neg (by omega)]; exact ⟨_, rfl⟩
    · split <;> exact ⟨_, rfl⟩
  obtain ⟨v, hv⟩ := key
  refine ⟨v, ?_⟩
  unfold checkedInterp Interp1.isInBounds Interp1.eval
  rw [if_pos rfl]
  dsimp only
  rw [hv]

private theorem on_line {eps : K} (heps : 0 < eps) {x y : List K} (h : x.Pairwise (· < ·)) (hl : y.length = x.length) {a v : K}
    (hv : checkedInterp eps (.linear ⟨x.length, els x, els y⟩) a = .ok v) : OnLine eps x y a v := by
  have hnew := newLinear_of (els y) h
  have hnode : ∀ i, i < x.length → a = els x i → v = els y i := fun i hi ha => by
    subst ha
    exact unique_value hv (C48_nodes heps hnew i hi (fun j hj => els_lt h j i hj hi))
  refine ⟨fun x0 y0 hx hy ha => ?_, fun x1 y1 hx hy ha => ?_, fun k xl xr yl yr h1 h2 h3 h4 ha hb => ?_⟩
  · rw [List.head?_eq_getElem?] at hx hy
    obtain ⟨hx1, rfl⟩ := idx_els hx
    obtain ⟨_, rfl⟩ := idx_els hy
    exact unique_value hv ((C48_flat hnew hx1 a).1 ha)
  · obtain ⟨hp, rfl⟩ := getLast_els x x1 hx
    obtain ⟨_, rfl⟩ := getLast_els y y1 hy
    rw [hl]
    rcases ha.lt_or_eq with hlt | he
    · exact unique_value hv ((C48_flat hnew hp a).2 hlt)
    · exact hnode _ (by omega) he.symm
  · obtain ⟨_, rfl⟩ := idx_els h1
    obtain ⟨hk, rfl⟩ := idx_els h2
    obtain ⟨_, rfl⟩ := idx_els h3
    obtain ⟨_, rfl⟩ := idx_els h4
    rcases ha.lt_or_eq with hlt | he
    · obtain ⟨w, hw, hcase⟩ := C48_line (eps := eps) hnew k hk a hlt hb
      rw [unique_value hv hw]
      exact hcase
    · rw [hnode k (by omega) he.symm, ← he]
      exact Or.inl (by ring)

/-- C94: on points that are not empty the linear interpolator answers for all abscissas, one value for each and in their order, each on the
broken line through the points with flat ends. -/
theorem C94_linear_get {eps : K} (heps : 0 < eps) {x y : List K} {f : Interp1 K} (h : interp1NewLinear x y = some f) (hn : x ≠ []) (q : List K) :
    ∃ v, interp1Get eps f q = .ok v ∧ List.Forall₂ (OnLine eps x y) q v := by
  obtain ⟨h1, h2, rfl⟩ := linear_some h
  obtain ⟨v, hv⟩ := forall_exists q (some_value (eps := eps) h1 h2 hn)
  exact ⟨v, get_forall hv, hv.imp fun _ _ hab => on_line heps h1 h2 hab⟩

/-- C94, not so: the conditions declared for a linear interpolator are met by no points at all, and the first value asked of it is read from
an empty vector. -/
theorem C94_empty_violated (eps a : K) (q : List K) : ∃ f, interp1NewLinear ([] : List K) [] = some f ∧ interp1Get eps f (a :: q) = .undefined :=
  ⟨.linear ⟨0, els [], els []⟩, rfl, rfl⟩

/-! ### Smoothed lines -/

private theorem smoothed_some {dxMin : K} {x y w : List K} {s : K} (hdx : 0 < dxMin) (h : x.Pairwise (· < ·)) (hl : y.length = x.length)
    (h2 : 1 < x.length) (hs : 0 ≤ s) (hw : w = [] ∨ w.length = x.length ∧ ∀ a ∈ w, 0 < a) :
    SmoothInput dxMin x.length w.length (els x) (els w) s ∧
    ∀ z, Smooth.smoothed dxMin x.length x.length w.length (els x) (els y) (els w) s = some z →
      interp1NewSmoothed dxMin x y s w = some (.linear ⟨x.length, els x, z⟩) := by
  constructor
  · refine ⟨hdx, h2, fun i hi => els_le h i (i + 1) (by omega) hi, ?_, hs⟩
    rcases hw with rfl | ⟨h3, h4⟩
    · exact Or.inl rfl
    · refine Or.inr ⟨h3.ge, fun i hi => ?_⟩
      rw [els_get w i (by omega)]
      exact h4 _ (List.getElem_mem _)
  · intro z hz
    unfold interp1NewSmoothed
    have hw' : w.length = 0 ∨ w.length = x.length := by
      rcases hw with rfl | ⟨h3, _⟩
      · exact Or.inl rfl
      · exact Or.inr h3
    rw [if_pos ((strict_iff x).2 h), if_pos hl, if_pos hs, if_pos hw', hl, hz, Option.bind_some, newLinear_of z h]
    rfl

/-- C94: a smoothed interpolator without weight on smoothness gives back its values, whatever the positive weights of fit. -/
theorem C94_smoothed_exact {dxMin eps : K} (hdx : 0 < dxMin) (heps : 0 < eps) {x y w : List K} (h : x.Pairwise (· < ·)) (hl : y.length = x.length)
    (h2 : 1 < x.length) (hw : w = [] ∨ w.length = x.length ∧ ∀ a ∈ w, 0 < a) :
    ∃ f, interp1NewSmoothed dxMin x y 0 w = some f ∧ interp1Get eps f x = .ok y := by
  obtain ⟨hin, hbuild⟩ := smoothed_some (y := y) hdx h hl h2 (le_refl (0 : K)) hw
  obtain ⟨z, hz, hzy⟩ := C50_zero_penalty (els y) hin
  refine ⟨_, hbuild z hz, get_forall (forall_knots hl fun i hi => ?_)⟩
  rw [node heps z h i hi, hzy i hi]

/-- C94: smoothing leaves constant values as they are. -/
theorem C94_smoothed_constant {dxMin eps : K} (hdx : 0 < dxMin) (heps : 0 < eps) {x w : List K} (c s : K) (hs : 0 ≤ s) (h : x.Pairwise (· < ·))
    (h2 : 1 < x.length) (hw : w = [] ∨ w.length = x.length ∧ ∀ a ∈ w, 0 < a) :
    ∃ f, interp1NewSmoothed dxMin x (x.map fun _ => c) s w = some f ∧ interp1Get eps f x = .ok (x.map fun _ => c) := by
  have hl : (x.map fun _ => c).length = x.length := List.length_map ..
  obtain ⟨hin, hbuild⟩ := smoothed_some (y := x.map fun _ => c) hdx h hl h2 hs hw
  have hc : ∀ i, i < x.length → els (x.map fun _ => c) i = c := fun i hi => by
    rw [els_get _ i (by omega), List.getElem_map]
  obtain ⟨z, hz, hzy⟩ := Smooth.smoothed_constant_on (els (x.map fun _ => c)) c hc hin
  refine ⟨_, hbuild z hz, get_forall (forall_knots hl fun i hi => ?_)⟩
  rw [node heps z h i hi, hzy i hi, hc i hi]

/-- C94, in part: the values a smoothed interpolator gives at its abscissas make the penalised sum of squares smaller than any others do, but
with penalties that belong to the pair before. What is missing is the right pair, see `C94_smoothed_violated`. -/
theorem C94_smoothed_partial {dxMin eps : K} (hdx : 0 < dxMin) (heps : 0 < eps) {x y w : List K} (s : K) (hs : 0 ≤ s) (h : x.Pairwise (· < ·))
    (hl : y.length = x.length) (h2 : 1 < x.length) (hw : w = [] ∨ w.length = x.length ∧ ∀ a ∈ w, 0 < a) :
    ∃ f z, interp1NewSmoothed dxMin x y s w = some f ∧ interp1Get eps f x = .ok ((List.range x.length).map z) ∧ ∀ v : Nat → K,
      penalised x.length (effective w.length (els w)) (shiftedPenalty dxMin s (els x)) (els y) z ≤
        penalised x.length (effective w.length (els w)) (shiftedPenalty dxMin s (els x)) (els y) v := by
  obtain ⟨hin, hbuild⟩ := smoothed_some (y := y) hdx h hl h2 hs hw
  obtain ⟨z, hz, hmin⟩ := C50_minimal_partial (els y) hin
  refine ⟨_, z, hbuild z hz, get_forall (forall_knots (by rw [List.length_map, List.length_range]) fun i hi => ?_), fun v => (hmin v).1⟩
  rw [node heps z h i hi, els_get ((List.range x.length).map z) i (by rw [List.length_map, List.length_range]; exact hi), List.getElem_map, List.getElem_range]

/-- C94, not so: whatever the weight on smoothness, the value at the first point is not smoothed at all. -/
theorem C94_smoothed_violated {dxMin eps : K} (hdx : 0 < dxMin) (heps : 0 < eps) {x0 x1 y0 : K} {x y w : List K} (s : K) (hs : 0 ≤ s)
    (h : (x0 :: x1 :: x).Pairwise (· < ·)) (hl : y.length = x.length + 1) (hw : w = [] ∨ w.length = x.length + 2 ∧ ∀ a ∈ w, 0 < a) :
    ∃ f, interp1NewSmoothed dxMin (x0 :: x1 :: x) (y0 :: y) s w = some f ∧ interp1Get eps f [x0] = .ok [y0] := by
  have hl' : (y0 :: y).length = (x0 :: x1 :: x).length := by simp only [List.length_cons, hl]
  obtain ⟨hin, hbuild⟩ := smoothed_some (y := y0 :: y) hdx h hl' (by simp only [List.length_cons]; omega) hs hw
  obtain ⟨z, hz, hzy⟩ := C50_first_pair_violated (els (y0 :: y)) hin
  refine ⟨_, hbuild z hz, get_forall (.cons ?_ .nil)⟩
  have := node heps z h 0 (by simp only [List.length_cons]; omega)
  rw [hzy] at this
  exact this

/-! ### Splines -/

private theorem orders_iff (o : List Int) : ordersAllowed o = true ↔ o.length ≤ 2 ∧ ∀ a ∈ o, 1 ≤ a ∧ a ≤ 3 := by
  unfold ordersAllowed
  match o with
  | [] => simp
  | [a] =>
    simp only [List.length_cons, List.length_nil, List.getLast_singleton, Bool.and_eq_true, decide_eq_true_eq, List.mem_singleton, forall_eq]
    constructor
    · rintro ⟨_, ⟨⟨h1, _⟩, h2⟩, _⟩
      exact ⟨by decide, by omega, by omega⟩
    · rintro ⟨_, h1, h2⟩
      exact ⟨by decide, ⟨⟨by omega, decide_eq_true (by omega : a > 0)⟩, by omega⟩, decide_eq_true (by omega : a ≤ 3)⟩
  | [a, b] =>
    simp only [List.length_cons, List.length_nil, List.getLast_cons_cons, List.getLast_singleton, Bool.and_eq_true, decide_eq_true_eq, List.mem_cons,
      List.not_mem_nil, or_false, forall_eq_or_imp, forall_eq]
    constructor
    · rintro ⟨_, ⟨⟨h1, h2⟩, h3⟩, h4⟩
      exact ⟨by decide, ⟨by omega, by omega⟩, (of_decide_eq_true h2 : b > 0), (of_decide_eq_true h4 : b ≤ 3)⟩
    · rintro ⟨_, ⟨h1, h2⟩, h3, h4⟩
      exact ⟨by decide, ⟨⟨by omega, decide_eq_true (by omega : b > 0)⟩, by omega⟩, decide_eq_true (by omega : b ≤ 3)⟩
  | a :: b :: c :: l =>
    simp only [List.length_cons, Bool.and_eq_true, decide_eq_true_eq]
    constructor
    · rintro ⟨h, _⟩; omega
    · rintro ⟨h, _⟩; omega

private theorem boundaries_order {o : List Int} (v : List K) (h : ∀ a ∈ o, 1 ≤ a ∧ a ≤ 3) :
    ((boundaries o v).1.order = 1 ∨ (boundaries o v).1.order = 2 ∨ (boundaries o v).1.order = 3) ∧
    ((boundaries o v).2.order = 1 ∨ (boundaries o v).2.order = 2 ∨ (boundaries o v).2.order = 3) := by
  unfold boundaries
  cases o with
  | nil => exact ⟨Or.inr (Or.inr rfl), Or.inr (Or.inr rfl)⟩
  | cons a o =>
    have h1 := h a (List.mem_cons_self ..)
    have h2 := h _ (List.getLast_mem (List.cons_ne_nil a o))
    cases v <;> dsimp only <;> omega

/-- C94: a spline is built exactly from three points or more with abscissas in strict ascending order, at most two orders of derivatives
between 1 and 3, and at most two values of them, which need an order. -/
theorem C94_cubic (x y : List ℝ) (order : List Int) (value : List ℝ) : (interp1NewCubic x y order value).isSome = true ↔
    2 < x.length ∧ x.Pairwise (· < ·) ∧ y.length = x.length ∧ order.length ≤ 2 ∧ (∀ a ∈ order, 1 ≤ a ∧ a ≤ 3) ∧ value.length ≤ 2 ∧
      (value = [] ∨ order ≠ []) := by
  have hacc := C49_accepted x.length y.length (els x) (els y) (boundaries order value).1 (boundaries order value).2
  unfold interp1NewCubic
  constructor
  · intro h
    split at h
    swap
    · cases h
    rename_i h1
    split at h
    swap
    · cases h
    rename_i h2
    split at h
    swap
    · cases h
    rename_i h3
    split at h
    swap
    · cases h
    rename_i h4
    dsimp only at h
    rw [Option.isSome_map] at h
    have h3 := (orders_iff order).1 h3
    exact ⟨(hacc.1 h).1, (strict_iff x).1 h1, h2, h3.1, h3.2, h4.1, h4.2⟩
  · rintro ⟨h1, h2, h3, h4, h5, h6, h7⟩
    rw [if_pos ((strict_iff x).2 h2), if_pos h3, if_pos ((orders_iff order).2 ⟨h4, h5⟩), if_pos ⟨h6, h7⟩]
    dsimp only
    rw [Option.isSome_map]
    have hb := boundaries_order value h5
    exact hacc.2 ⟨h1, h3.symm, fun i hi => els_lt h2 i (i + 1) (by omega) hi, hb.1, hb.2⟩

private theorem cubic_some {x y : List ℝ} {order : List Int} {value : List ℝ} {f : Interp1 ℝ} (h : interp1NewCubic x y order value = some f) :
    x.Pairwise (· < ·) ∧ y.length = x.length ∧ 2 < x.length ∧ ∃ c, f = .cubic c ∧
      newCubic x.length y.length (els x) (els y) (boundaries order value).1 (boundaries order value).2 = some c := by
  have hall := (C94_cubic x y order value).1 (by rw [h]; rfl)
  refine ⟨hall.2.1, hall.2.2.1, hall.1, ?_⟩
  unfold interp1NewCubic at h
  rw [if_pos ((strict_iff x).2 hall.2.1), if_pos hall.2.2.1, if_pos ((orders_iff order).2 ⟨hall.2.2.2.1, hall.2.2.2.2.1⟩),
    if_pos ⟨hall.2.2.2.2.2.1, hall.2.2.2.2.2.2⟩] at h
  dsimp only at h
  rw [Option.map_eq_some_iff] at h
  obtain ⟨c, hc, hf⟩ := h
  exact ⟨c, hf.symm, hc⟩

private theorem cubic_get (eps : ℝ) (c : Cubic ℝ) : ∀ q : List ℝ,
    (interp1Get eps (.cubic c) q = .ok (q.map c.eval) ∧ ∀ a ∈ q, c.isInBounds a = true) ∨
    (interp1Get eps (.cubic c) q = .throws ∧ ∃ a ∈ q, c.isInBounds a ≠ true)
  | [] => Or.inl ⟨rfl, fun _ h => absurd h List.not_mem_nil⟩
  | a :: q => by
    by_cases ha : c.isInBounds a = true
    · have h1 : checkedInterp eps (.cubic c) a = .ok (c.eval a) := by
        unfold checkedInterp Interp1.isInBounds Interp1.eval
        dsimp only
        rw [if_pos ha]
      rcases cubic_get eps c q with ⟨h2, h3⟩ | ⟨h2, b, hb, h3⟩
      · refine Or.inl ⟨by rw [interp1Get, h1, h2]; rfl, fun b hb => ?_⟩
        rcases List.mem_cons.1 hb with rfl | hb
        · exact ha
        · exact h3 b hb
      · exact Or.inr ⟨by rw [interp1Get, h1, h2]; rfl, b, List.mem_cons_of_mem _ hb, h3⟩
    · have h1 : checkedInterp eps (.cubic c) a = .throws := by
        unfold checkedInterp Interp1.isInBounds Interp1.eval
        dsimp only
        rw [if_neg ha]
      exact Or.inr ⟨by rw [interp1Get, h1]; rfl, a, List.mem_cons_self .., ha⟩

/-- C94: a spline answers exactly when all the abscissas lie between its first and its last, and otherwise throws; the answers are the values
of one function with a continuous second derivative that takes the given values, and meets at the first point the first of the conditions
given and at the last point the last of them: the order is 3 and the value 0 when there is none. -/
theorem C94_cubic_get (eps : ℝ) {x y : List ℝ} {order : List Int} {value : List ℝ} {f : Interp1 ℝ} (h : interp1NewCubic x y order value = some f) :
    ∃ s s' s'' : ℝ → ℝ,
      (∀ q, (interp1Get eps f q = .ok (q.map s) ∧ ∀ a ∈ q, (∃ b ∈ x, b ≤ a) ∧ ∃ b ∈ x, a ≤ b) ∨
        (interp1Get eps f q = .throws ∧ ∃ a ∈ q, (∀ b ∈ x, a < b) ∨ ∀ b ∈ x, b < a)) ∧
      x.map s = y ∧ (∀ z, HasDerivAt s (s' z) z) ∧ (∀ z, HasDerivAt s' (s'' z) z) ∧ Continuous s'' ∧
      (∀ a b t, x = a :: b :: t → BoundaryMet ⟨order.head?.getD 3, value.head?.getD 0⟩ s' s'' a b) ∧
      (∀ a b t, x = t ++ [b, a] → BoundaryMet ⟨order.getLast?.getD 3, value.getLast?.getD 0⟩ s' s'' a b) := by
  have hall := (C94_cubic x y order value).1 (by rw [h]; rfl)
  obtain ⟨h1, h2, h3, c, rfl, hc⟩ := cubic_some h
  obtain ⟨hnodes, s', s'', d1, d2, d3, b1, b2⟩ := C49_spline hc
  have hbound := C49_bounds hc
  have hbl : (boundaries order value).1 = ⟨order.head?.getD 3, value.head?.getD 0⟩ := by
    unfold boundaries
    cases order with
    | nil =>
      rcases hall.2.2.2.2.2.2 with rfl | hne
      · rfl
      · exact absurd rfl hne
    | cons o os => cases value <;> rfl
  have hbr : (boundaries order value).2 = ⟨order.getLast?.getD 3, value.getLast?.getD 0⟩ := by
    unfold boundaries
    cases order with
    | nil =>
      rcases hall.2.2.2.2.2.2 with rfl | hne
      · rfl
      · exact absurd rfl hne
    | cons o os =>
      cases value with
      | nil => rw [List.getLast?_eq_some_getLast (List.cons_ne_nil o os)]; rfl
      | cons v vs => rw [List.getLast?_eq_some_getLast (List.cons_ne_nil o os), List.getLast?_eq_some_getLast (List.cons_ne_nil v vs)]; rfl
  have hmem : ∀ b ∈ x, els x 0 ≤ b ∧ b ≤ els x (x.length - 1) := fun b hb => by
    obtain ⟨i, hi, rfl⟩ := List.getElem_of_mem hb
    rw [← els_get x i hi]
    exact ⟨els_le h1 0 i (by omega) hi, els_le h1 i _ (by omega) (by omega)⟩
  have h0 : els x 0 ∈ x := by rw [els_get x 0 (by omega)]; exact List.getElem_mem _
  have hn : els x (x.length - 1) ∈ x := by rw [els_get x _ (by omega)]; exact List.getElem_mem _
  refine ⟨c.eval, s', s'', fun q => ?_, ?_, d1, d2, d3, ?_, ?_⟩
  · rcases cubic_get eps c q with ⟨e1, e2⟩ | ⟨e1, a, ha, e2⟩
    · refine Or.inl ⟨e1, fun a ha => ?_⟩
      have := (hbound a).1 (e2 a ha)
      exact ⟨⟨_, h0, this.1⟩, _, hn, this.2⟩
    · refine Or.inr ⟨e1, a, ha, ?_⟩
      by_cases hlow : els x 0 ≤ a
      · refine Or.inr fun b hb => lt_of_le_of_lt (hmem b hb).2 ?_
        by_contra hc2
        exact e2 ((hbound a).2 ⟨hlow, not_lt.1 hc2⟩)
      · exact Or.inl fun b hb => lt_of_lt_of_le (not_le.1 hlow) (hmem b hb).1
  · refine List.ext_getElem (by rw [List.length_map, h2]) fun i hi1 hi2 => ?_
    rw [List.getElem_map, ← els_get x i (by rw [List.length_map] at hi1; exact hi1), ← els_get y i hi2]
    exact hnodes i (by rw [List.length_map] at hi1; exact hi1)
  · rintro a b t rfl
    rw [← hbl]
    exact b1
  · rintro a b t rfl
    rw [← hbr]
    have e1 : els (t ++ [b, a]) ((t ++ [b, a]).length - 1) = a := by
      have hidx : (t ++ [b, a]).length - 1 = t.length + 1 := by simp
      rw [hidx, els_get _ _ (by simp), List.getElem_append_right (by omega)]
      simp
    have e2 : els (t ++ [b, a]) ((t ++ [b, a]).length - 2) = b := by
      have hidx : (t ++ [b, a]).length - 2 = t.length := by simp
      rw [hidx, els_get _ _ (by simp), List.getElem_append_right (by omega)]
      simp
    rw [e1, e2] at b2
    exact b2

/-- C94: at its abscissas a spline gives back its values. -/
theorem C94_cubic_knots (eps : ℝ) {x y : List ℝ} {order : List Int} {value : List ℝ} {f : Interp1 ℝ} (h : interp1NewCubic x y order value = some f) :
    interp1Get eps f x = .ok y := by
  obtain ⟨s, s', s'', hq, hs, _⟩ := C94_cubic_get eps h
  rcases hq x with ⟨e, _⟩ | ⟨_, a, ha, hb | hb⟩
  · rw [e, hs]
  · exact absurd (hb a ha) (lt_irrefl a)
  · exact absurd (hb a ha) (lt_irrefl a)

/-- C94, not so: the conditions declared for a spline are met by two points, and nothing is built from them. -/
theorem C94_two_points_violated (x0 x1 y0 y1 : ℝ) (_h : x0 < x1) : interp1NewCubic [x0, x1] [y0, y1] [] [] = none := by
  have := C94_cubic [x0, x1] [y0, y1] [] []
  rcases hc : interp1NewCubic [x0, x1] [y0, y1] [] [] with _ | f
  · rfl
  · rw [hc] at this
    exact absurd (this.1 rfl).1 (by simp)

/-! ### Two dimensions -/

private theorem grid_some {x y : List K} {r c : Nat} {z : Nat → Nat → K} {f : Linear2 K} (h : interp2NewLinear x y r c z = some f) :
    x.Pairwise (· < ·) ∧ y.Pairwise (· < ·) ∧ r = x.length ∧ c = y.length ∧ newLinear2 x.length y.length r c (els x) (els y) z = some f := by
  unfold interp2NewLinear at h
  split at h
  swap
  · cases h
  rename_i h1
  split at h
  swap
  · cases h
  rename_i h2
  split at h
  swap
  · cases h
  rename_i h3
  exact ⟨(strict_iff x).1 h1, (strict_iff y).1 h2, h3.1, h3.2, h⟩

/-- C94: an interpolator in two dimensions is built exactly from abscissas in strict ascending order and a matrix with a row for each of the
first and a column for each of the second. -/
theorem C94_grid (x y : List K) (r c : Nat) (z : Nat → Nat → K) : (interp2NewLinear x y r c z).isSome = true ↔
    x.Pairwise (· < ·) ∧ y.Pairwise (· < ·) ∧ r = x.length ∧ c = y.length := by
  constructor
  · intro h
    obtain ⟨f, hf⟩ := Option.isSome_iff_exists.1 h
    have := grid_some hf
    exact ⟨this.1, this.2.1, this.2.2.1, this.2.2.2.1⟩
  · rintro ⟨h1, h2, rfl, rfl⟩
    unfold interp2NewLinear newLinear2
    have hm : ∀ v : List K, v.Pairwise (· < ·) → isMonotonic (els v) v.length = true := fun v hv => by
      unfold isMonotonic
      rw [List.all_eq_true]
      intro i hi
      have := List.mem_range.1 hi
      exact decide_eq_true (els_le hv i (i + 1) (by omega) (by omega))
    rw [if_pos ((strict_iff x).2 h1), if_pos ((strict_iff y).2 h2), if_pos ⟨rfl, rfl⟩, if_pos ⟨⟨rfl, rfl⟩, hm x h1, hm y h2⟩]
    rfl

private theorem row_map {eps : K} {f : Linear2 K} {a : K} {g : K → K} : ∀ {q : List K}, (∀ b ∈ q, f.eval eps a b = some (g b)) →
    rowGet eps f a q = .ok (q.map g)
  | [], _ => rfl
  | b :: q, h => by
    have h1 : checkedInterp2 eps f a b = .ok (g b) := by
      unfold checkedInterp2
      rw [h b (List.mem_cons_self ..)]
    rw [rowGet, h1, row_map fun c hc => h c (List.mem_cons_of_mem _ hc)]
    rfl

private theorem grid_map {eps : K} {f : Linear2 K} {g : K → K → K} {ys : List K} : ∀ {xs : List K},
    (∀ a ∈ xs, ∀ b ∈ ys, f.eval eps a b = some (g a b)) → interp2Get eps f xs ys = .ok (xs.map fun a => ys.map (g a))
  | [], _ => rfl
  | a :: xs, h => by
    rw [interp2Get, row_map (h a (List.mem_cons_self ..)), grid_map fun c hc => h c (List.mem_cons_of_mem _ hc)]
    rfl

private theorem linear_total' {eps : K} {n : Nat} (hn : 0 < n) (x f : Nat → K) (a : K) : ∃ v, linear eps n x f a = some v := by
  unfold linear
  dsimp only
  split
  · rw [if_neg (by omega)]; exact ⟨_, rfl⟩
  · split <;> exact ⟨_, rfl⟩

private theorem linear2_total {eps : K} {n m : Nat} (hn : 0 < n) (hm : 0 < m) (x y : Nat → K) (f : Nat → Nat → K) (a b : K) :
    ∃ v, linear2 eps n m x y f a b = some v := by
  unfold linear2
  dsimp only
  split
  · rw [if_neg (by omega)]; exact linear_total' hm ..
  · split
    · exact linear_total' hm ..
    · obtain ⟨v1, h1⟩ := linear_total' (eps := eps) hm y (f (upperBound x n a - 1)) b
      obtain ⟨v2, h2⟩ := linear_total' (eps := eps) hm y (f (upperBound x n a)) b
      rw [h1, h2]
      exact ⟨_, rfl⟩

/-- C94: on a grid that is not empty the interpolator answers for all abscissas, with a row for each of the first and a column for each of
the second, and the value at a row and a column depends on their abscissas alone. -/
theorem C94_grid_get (eps : K) {x y : List K} {r c : Nat} {z : Nat → Nat → K} {f : Linear2 K} (h : interp2NewLinear x y r c z = some f)
    (hx : x ≠ []) (hy : y ≠ []) : ∃ g : K → K → K, (∀ a b, f.eval eps a b = some (g a b)) ∧
      ∀ xs ys, interp2Get eps f xs ys = .ok (xs.map fun a => ys.map (g a)) := by
  obtain ⟨_, _, _, _, hnew⟩ := grid_some h
  unfold newLinear2 at hnew
  split at hnew
  swap
  · cases hnew
  cases hnew
  have htot : ∀ a b, ∃ v, (⟨x.length, y.length, els x, els y, z⟩ : Linear2 K).eval eps a b = some v := fun a b =>
    linear2_total (List.length_pos_iff.2 hx) (List.length_pos_iff.2 hy) _ _ _ _ _
  choose g hg using htot
  exact ⟨g, hg, fun xs ys => grid_map fun a _ b _ => hg a b⟩

/-- C94: at its abscissas the interpolator gives back the matrix. -/
theorem C94_grid_knots {eps : K} (heps : 0 < eps) {x y : List K} {r c : Nat} {z : Nat → Nat → K} {f : Linear2 K}
    (h : interp2NewLinear x y r c z = some f) (hx : x ≠ []) (hy : y ≠ []) :
    interp2Get eps f x y = .ok ((List.range r).map fun i => (List.range c).map (z i)) := by
  obtain ⟨g, hg, hget⟩ := C94_grid_get eps h hx hy
  obtain ⟨h1, h2, rfl, rfl, hnew⟩ := grid_some h
  rw [hget]
  congr 1
  refine List.ext_getElem (by simp) fun i hi1 hi2 => ?_
  rw [List.length_map] at hi1
  rw [List.getElem_map, List.getElem_map, List.getElem_range]
  refine List.ext_getElem (by simp) fun j hj1 hj2 => ?_
  rw [List.length_map] at hj1
  rw [List.getElem_map, List.getElem_map, List.getElem_range]
  have := C48_nodes2 heps hnew i j hi1 hj1 (fun k hk hkn => els_lt h1 i k hk hkn) (fun k hk => els_lt h2 k j hk hj1)
  rw [hg, els_get x i hi1, els_get y j hj1] at this
  exact Option.some.inj this

/-- C94, not so: a grid without points is built, and the first value asked of it is read from an empty vector. -/
theorem C94_grid_empty_violated (eps a b : K) (xs ys : List K) (z : Nat → Nat → K) :
    ∃ f, interp2NewLinear ([] : List K) [] 0 0 z = some f ∧ interp2Get eps f (a :: xs) (b :: ys) = .undefined :=
  ⟨⟨0, 0, els [], els [], z⟩, rfl, rfl⟩

/-! ### The hypotheses hold -/

example : (interp1NewLinear [(0 : ℚ), 1, 3] [5, 7, 6]).isSome = true := by decide +kernel
example : ∃ f, interp1NewLinear [(0 : ℚ), 1, 3] [5, 7, 6] = some f ∧ interp1Get (1 / 1000) f [-1, 2, 1 / 2, 4] = .ok [5, 13 / 2, 6, 6] :=
  ⟨.linear ⟨3, els [0, 1, 3], els [5, 7, 6]⟩, rfl, by decide +kernel⟩
example : (interp1NewSmoothed (1 / 1000000000) [(0 : ℚ), 1, 3] [5, 7, 6] 1 [1, 2, 1]).isSome = true := by decide +kernel
example : (interp1NewCubic [0, 1, 3] [5, 7, 6] [1, 2] [4] : Option (Interp1 ℝ)).isSome = true :=
  (C94_cubic _ _ _ _).2 ⟨by decide, by norm_num, rfl, by decide, by decide, by decide, Or.inr (List.cons_ne_nil _ _)⟩
example : (interp2NewLinear [(0 : ℚ), 1] [5, 7, 8] 2 3 fun i j => i + j).isSome = true := by decide +kernel

end Dal
