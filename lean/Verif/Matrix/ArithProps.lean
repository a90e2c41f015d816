import Mathlib.Algebra.BigOperators.Intervals
import Mathlib.Algebra.BigOperators.Ring.Finset
import Mathlib.Tactic.FieldSimp
import Mathlib.Tactic.Positivity
import Mathlib.Tactic.NormNum
import Verif.Matrix.ArithModel
import Verif.Matrix.ContainerLemmas

/-! # C58 and C65: matrix products, and the split of a covariance into volatilities and correlations -/

namespace Dal.MatA
open MatC

variable {K : Type} [Field K]

omit [Field K] in
theorem mat_setMat (s : Store K) (id : Nat) (m : Tbl K) (r : Ref (Tbl K)) (h : r.is id = false) : (s.setMat id m).mat r = s.mat r := by
  cases r with
  | temp t => rfl
  | named i =>
    have : i ≠ id := by simpa [Ref.is] using h
    simp [Store.mat, Store.setMat, this]

omit [Field K] in
theorem vec_setVec (s : Store K) (id : Nat) (m : Vec K) (r : Ref (Vec K)) (h : r.is id = false) : (s.setVec id m).vec r = s.vec r := by
  cases r with
  | temp t => rfl
  | named i =>
    have : i ≠ id := by simpa [Ref.is] using h
    simp [Store.vec, Store.setVec, this]

omit [Field K] in
theorem mat_setVec (s : Store K) (id : Nat) (m : Vec K) (r : Ref (Tbl K)) : (s.setVec id m).mat r = s.mat r := by
  cases r <;> rfl

omit [Field K] in
theorem setMat_setMat (s : Store K) (id : Nat) (a b : Tbl K) : (s.setMat id a).setMat id b = s.setMat id b := by
  simp only [Store.setMat, Store.mk.injEq, and_true]
  funext i
  by_cases h : i = id <;> simp [h]

omit [Field K] in
theorem setVec_setVec (s : Store K) (id : Nat) (a b : Vec K) : (s.setVec id a).setVec id b = s.setVec id b := by
  simp only [Store.setVec, Store.mk.injEq, true_and]
  funext i
  by_cases h : i = id <;> simp [h]

omit [Field K] in
@[simp] theorem setMat_self (s : Store K) (id : Nat) (a : Tbl K) : (s.setMat id a).mats id = a := by simp [Store.setMat]
omit [Field K] in
@[simp] theorem setVec_self (s : Store K) (id : Nat) (a : Vec K) : (s.setVec id a).vecs id = a := by simp [Store.setVec]

theorem multiplyAF_eq (left right : Ref (Tbl K)) (res : Nat) (s : Store K) (hl : left.is res = false) (hr : right.is res = false)
    (hc : (s.mat left).cols = (s.mat right).rows) :
    multiplyAF left right res s = some (s.setMat res ⟨(s.mat left).rows, (s.mat right).cols,
      fun i j => if i < (s.mat left).rows then ∑ k ∈ Finset.range (s.mat right).rows, (s.mat left).at' i k * (s.mat right).at' k j else 0⟩) := by
  let L := s.mat left
  let R := s.mat right
  let T (n : Nat) : Store K := s.setMat res ⟨L.rows, R.cols, fun i j => if i < n then ∑ k ∈ Finset.range R.rows, L.at' i k * R.at' k j else 0⟩
  have h0 : s.setMat res ⟨L.rows, R.cols, fun _ _ => 0⟩ = T 0 := by simp [T]
  unfold multiplyAF
  show loop _ ((s.setMat res ⟨L.rows, R.cols, fun _ _ => 0⟩).mat left).rows 0 (s.setMat res ⟨L.rows, R.cols, fun _ _ => 0⟩) = _
  rw [h0]
  have hmL : ∀ n, (T n).mat left = L := fun n => mat_setMat s res _ left hl
  have hmR : ∀ n, (T n).mat right = R := fun n => mat_setMat s res _ right hr
  rw [hmL]
  obtain ⟨t, e, ht⟩ := loop_inv (fun ir s => loop (fun jr s => addRow left right res ir jr s) (s.mat right).rows 0 s)
    (fun n t => t = T n) L.rows 0 (T 0) rfl (by
      rintro ir t _ hir rfl
      let U (m : Nat) : Store K := s.setMat res ⟨L.rows, R.cols, fun i j =>
        if i < ir then ∑ k ∈ Finset.range R.rows, L.at' i k * R.at' k j else if i = ir then ∑ k ∈ Finset.range m, L.at' i k * R.at' k j else 0⟩
      have hU0 : T ir = U 0 := by
        simp [T, U]
      have hU1 : U R.rows = T (ir + 1) := by
        simp only [T, U]
        congr 2
        funext i j
        by_cases h1 : i < ir
        · rw [if_pos h1, if_pos (by omega)]
        · rw [if_neg h1]
          by_cases h2 : i = ir
          · rw [if_pos h2, if_pos (by omega)]
          · rw [if_neg h2, if_neg (by omega)]
      refine ⟨T (ir + 1), ?_, rfl⟩
      show loop (fun jr s => addRow left right res ir jr s) ((T ir).mat right).rows 0 (T ir) = _
      rw [hmR, hU0, ← hU1]
      obtain ⟨u, e, hu⟩ := loop_inv (fun jr s => addRow left right res ir jr s) (fun m t => t = U m) R.rows 0 (U 0) rfl (by
        rintro jr t _ hjr rfl
        refine ⟨_, ?_, rfl⟩
        have e1 : (U jr).mat left = L := mat_setMat s res _ left hl
        have e2 : (U jr).mat right = R := mat_setMat s res _ right hr
        have e3 : (U jr).mats res = ⟨L.rows, R.cols, fun i j =>
          if i < ir then ∑ k ∈ Finset.range R.rows, L.at' i k * R.at' k j else if i = ir then ∑ k ∈ Finset.range jr, L.at' i k * R.at' k j else 0⟩ :=
          setMat_self _ _ _
        have e4 : L.get ir jr = some (L.at' ir jr) := by
          rw [Tbl.get, if_pos ⟨by omega, by rw [show L.cols = R.rows from hc]; omega⟩]
        simp only [addRow, e1, e2, e3, e4, Option.bind_some]
        rw [if_pos ⟨by omega, by omega, trivial⟩]
        simp only [U, setMat_setMat]
        congr 3
        funext i j
        by_cases h1 : i = ir
        · subst h1
          simp [Finset.sum_range_succ]
        · by_cases h2 : i < ir
          · simp [h1, h2]
          · simp [h1, h2])
      rw [e, hu, Nat.zero_add])
  rw [e, ht, Nat.zero_add]

/-- Inner product of a row with a vector of at least as many elements. -/
theorem rowDot_eq (m : Tbl K) (v : Vec K) {i : Nat} (hi : i < m.rows) (hv : m.cols ≤ v.size) :
    rowDot m v i = some (∑ k ∈ Finset.range m.cols, m.at' i k * v.at' k) := by
  obtain ⟨x, e, hx⟩ := loop_inv (fun j acc => (m.get i j).bind fun a => (v.get j).map fun b => acc + a * b)
    (fun n x => x = ∑ k ∈ Finset.range n, m.at' i k * v.at' k) m.cols 0 0 (by simp) (by
      rintro j x _ hj rfl
      refine ⟨_, ?_, rfl⟩
      simp only [Tbl.get, Vec.get]
      rw [if_pos ⟨hi, by omega⟩, if_pos (by omega)]
      simp [Finset.sum_range_succ])
  rw [rowDot, e, hx, Nat.zero_add]

theorem strided_inv {S : Type} (stop : Nat) (body : Nat → S → Option S) (P : Nat → S → Prop)
    (hs : ∀ i s, i < stop → P i s → ∃ s', body i s = some s' ∧ P (i + cacheSize) s') :
    ∀ (fuel i : Nat) (s : S), stop ≤ i + fuel → P i s → ∃ s' i', strided stop body fuel i s = some s' ∧ stop ≤ i' ∧ P i' s'
  | 0, i, s, hf, h => ⟨s, i, by rw [strided, if_neg (by omega)], by omega, h⟩
  | fuel + 1, i, s, hf, h => by
    by_cases hi : i < stop
    · obtain ⟨s1, e1, h1⟩ := hs i s hi h
      obtain ⟨s2, i2, e2, h2, h3⟩ := strided_inv stop body P hs fuel (i + cacheSize) s1 (by unfold cacheSize; omega) h1
      exact ⟨s2, i2, by rw [strided, if_pos hi, e1]; exact e2, h2, h3⟩
    · exact ⟨s, i, by rw [strided, if_neg hi], by omega, h⟩

theorem partDot_eq (a : Tbl K) {i j k n : Nat} (hi : i < a.rows) (hj : j < a.rows) (hn : k + n ≤ a.cols) (init : K) :
    partDot a i j k n init = some (init + ∑ q ∈ Finset.range n, a.at' i (k + q) * a.at' j (k + q)) := by
  obtain ⟨x, e, hx⟩ := loop_inv (fun q acc => (a.get i (k + q)).bind fun x => (a.get j (k + q)).map fun y => acc + x * y)
    (fun n x => x = init + ∑ q ∈ Finset.range n, a.at' i (k + q) * a.at' j (k + q)) n 0 init (by simp) (by
      rintro q x _ hq rfl
      refine ⟨_, ?_, rfl⟩
      simp only [Tbl.get]
      rw [if_pos ⟨hi, by omega⟩, if_pos ⟨hj, by omega⟩]
      simp [Finset.sum_range_succ, add_assoc])
  rw [partDot, e, hx, Nat.zero_add]

theorem addPart_eq (a h : Tbl K) {i j k n : Nat} (hi : i < a.rows) (hj : j < a.rows) (hn : k + n ≤ a.cols) (hr : h.rows = a.rows) (hc : h.cols = a.rows) :
    addPart a i j k n h = some (⟨h.rows, h.cols, fun p q => if p = i ∧ q = j then
      h.at' i j + (∑ q ∈ Finset.range n, a.at' i (k + q) * a.at' j (k + q)) else h.at' p q⟩ : Tbl K) := by
  simp only [addPart, Tbl.get]
  rw [if_pos ⟨by omega, by omega⟩]
  simp [partDot_eq a hi hj hn]

theorem sum_shift (f : Nat → K) (k n : Nat) : ∑ x ∈ Finset.range k, f x + ∑ q ∈ Finset.range n, f (k + q) = ∑ x ∈ Finset.range (k + n), f x := by
  rw [Finset.sum_range_add]

end Dal.MatA

namespace Dal
open MatC MatA

variable {K : Type} [Field K]

/-- The specification: element `(i, j)` of the product of two matrices. -/
def prodAt (l r : Tbl K) (i j : Nat) : K := ∑ k ∈ Finset.range r.rows, l.at' i k * r.at' k j

/-- **C58.** Multiplying matrices stores the product, whichever of the arguments are the result (or one another), and changes nothing else; it throws exactly
when the sizes do not match. -/
theorem C58_multiply (l r : Ref (Tbl K)) (res : Nat) (s : Store K) :
    ((s.mat l).cols = (s.mat r).rows → ∃ s', multiply l r res s = .ok s' ∧
      (s'.mats res).rows = (s.mat l).rows ∧ (s'.mats res).cols = (s.mat r).cols ∧
      (∀ i j, i < (s.mat l).rows → j < (s.mat r).cols → (s'.mats res).get i j = some (prodAt (s.mat l) (s.mat r) i j)) ∧
      (∀ id, id ≠ res → s'.mats id = s.mats id) ∧ s'.vecs = s.vecs) ∧
    ((s.mat l).cols ≠ (s.mat r).rows → multiply l r res s = .throws) := by
  refine ⟨fun hc => ?_, fun hc => by simp [multiply, hc]⟩
  let l' := if l.is res then Ref.temp (s.mat l) else l
  let r' := if r.is res then Ref.temp (s.mat r) else r
  have hl : l'.is res = false ∧ s.mat l' = s.mat l := by
    by_cases h : l.is res = true
    · have e : l' = Ref.temp (s.mat l) := if_pos h
      rw [e]; exact ⟨rfl, rfl⟩
    · have e : l' = l := if_neg h
      rw [e]; exact ⟨by simpa using h, rfl⟩
  have hr : r'.is res = false ∧ s.mat r' = s.mat r := by
    by_cases h : r.is res = true
    · have e : r' = Ref.temp (s.mat r) := if_pos h
      rw [e]; exact ⟨rfl, rfl⟩
    · have e : r' = r := if_neg h
      rw [e]; exact ⟨by simpa using h, rfl⟩
  have e := multiplyAF_eq l' r' res s hl.1 hr.1 (by rw [hl.2, hr.2]; exact hc)
  have e2 : multiply l r res s = .ok (s.setMat res ⟨(s.mat l).rows, (s.mat r).cols,
      fun i j => if i < (s.mat l).rows then ∑ k ∈ Finset.range (s.mat r).rows, (s.mat l).at' i k * (s.mat r).at' k j else 0⟩) := by
    unfold multiply
    rw [if_neg (by simpa using hc)]
    show (if r'.is res = true then Out.throws else match multiplyAF l' r' res s with | some s => Out.ok s | none => Out.ub) = _
    rw [if_neg (by simp [hr.1]), e]
    simp only [hl.2, hr.2]
  refine ⟨_, e2, by simp, by simp, fun i j hi hj => ?_, fun id hid => by simp [Store.setMat, hid], rfl⟩
  simp [Tbl.get, hi, hj, prodAt]

example : ∃ s' : Store ℚ, multiply (.named 0) (.named 0) 0 ⟨fun _ => ⟨2, 2, fun i j => if i ≤ j then 1 else 0⟩, fun _ => ⟨0, fun _ => 0⟩⟩ = .ok s' ∧
    (s'.mats 0).get 0 1 = some 2 := by
  obtain ⟨s', e, _, _, h, _⟩ := (C58_multiply (.named 0) (.named 0) 0
    (⟨fun _ => ⟨2, 2, fun i j => if i ≤ j then 1 else 0⟩, fun _ => ⟨0, fun _ => 0⟩⟩ : Store ℚ)).1 rfl
  refine ⟨s', e, ?_⟩
  rw [h 0 1 (by decide) (by decide)]
  show some (∑ k ∈ Finset.range 2, (if (0 : Nat) ≤ k then (1 : ℚ) else 0) * (if k ≤ 1 then 1 else 0)) = some 2
  rw [Finset.sum_range_succ, Finset.sum_range_succ, Finset.sum_range_zero]
  simp
  exact one_add_one_eq_two

/-- **C58.** A matrix times a vector, with the vector possibly the result. -/
theorem C58_multiply_vector (l : Ref (Tbl K)) (r : Ref (Vec K)) (res : Nat) (s : Store K) :
    ((s.mat l).cols = (s.vec r).size → ∃ s', multiplyMV l r res s = .ok s' ∧ (s'.vecs res).size = (s.mat l).rows ∧
      (∀ i, i < (s.mat l).rows → (s'.vecs res).get i = some (∑ k ∈ Finset.range (s.vec r).size, (s.mat l).at' i k * (s.vec r).at' k)) ∧
      (∀ id, id ≠ res → s'.vecs id = s.vecs id) ∧ s'.mats = s.mats) ∧
    ((s.mat l).cols ≠ (s.vec r).size → multiplyMV l r res s = .throws) := by
  refine ⟨fun hc => ?_, fun hc => by simp [multiplyMV, hc]⟩
  let r' := if r.is res then Ref.temp (s.vec r) else r
  have hr : r'.is res = false ∧ s.vec r' = s.vec r := by
    by_cases h : r.is res = true
    · have e : r' = Ref.temp (s.vec r) := if_pos h
      rw [e]; exact ⟨rfl, rfl⟩
    · have e : r' = r := if_neg h
      rw [e]; exact ⟨by simpa using h, rfl⟩
  let L := s.mat l
  let R := s.vec r
  let P (n : Nat) (t : Store K) : Prop := ∃ v : Vec K, t = s.setVec res v ∧ v.size = L.rows ∧
    ∀ i < n, v.at' i = ∑ k ∈ Finset.range R.size, L.at' i k * R.at' k
  obtain ⟨t, e, v, rfl, hv, hg⟩ := loop_inv (fun ir s => (rowDot (s.mat l) (s.vec r') ir).bind fun x =>
      if ir < (s.vecs res).size then some (s.setVec res { s.vecs res with at' := fun i => if i = ir then x else (s.vecs res).at' i }) else none)
    P L.rows 0 (s.setVec res ⟨L.rows, fun i => if i < (s.vecs res).size then (s.vecs res).at' i else 0⟩)
    ⟨_, rfl, rfl, fun i hi => absurd hi (Nat.not_lt_zero _)⟩ (by
      rintro ir t _ hir ⟨v, rfl, hv, hg⟩
      have e1 : (s.setVec res v).mat l = L := mat_setVec s res v l
      have e2 : (s.setVec res v).vec r' = R := by rw [vec_setVec s res v r' hr.1, hr.2]
      refine ⟨s.setVec res { v with at' := fun i => if i = ir then ∑ k ∈ Finset.range R.size, L.at' ir k * R.at' k else v.at' i }, ?_, _, rfl, hv, ?_⟩
      · simp only [e1, e2]
        rw [rowDot_eq L R (by omega) (le_of_eq hc)]
        simp only [Option.bind_some, setVec_self, setVec_setVec]
        rw [if_pos (by omega), show L.cols = R.size from hc]
      · intro i hi
        by_cases h : i = ir
        · simp [h]
        · simp only [if_neg h]
          exact hg i (by omega))
  refine ⟨s.setVec res v, ?_, by simp [hv]; rfl, fun i hi => ?_, fun id hid => by simp [Store.setVec, hid], rfl⟩
  · unfold multiplyMV
    rw [if_neg (by simpa using hc)]
    show (if r'.is res = true then Out.throws else match multiplyMVAF l r' res s with | some s => Out.ok s | none => Out.ub) = _
    rw [if_neg (by simp [hr.1])]
    have : multiplyMVAF l r' res s = some (s.setVec res v) := by
      unfold multiplyMVAF
      simp only [mat_setVec]
      exact e
    rw [this]
  · simp only [setVec_self, Vec.get]
    rw [if_pos (by rw [hv]; exact hi), hg i (by simpa using hi)]

/-- **C58.** A vector times a matrix, with the vector possibly the result. -/
theorem C58_vector_multiply (l : Ref (Vec K)) (r : Ref (Tbl K)) (res : Nat) (s : Store K) :
    ((s.vec l).size = (s.mat r).rows → ∃ s', multiplyVM l r res s = .ok s' ∧ (s'.vecs res).size = (s.mat r).cols ∧
      (∀ j, j < (s.mat r).cols → (s'.vecs res).get j = some (∑ k ∈ Finset.range (s.mat r).rows, (s.vec l).at' k * (s.mat r).at' k j)) ∧
      (∀ id, id ≠ res → s'.vecs id = s.vecs id) ∧ s'.mats = s.mats) ∧
    ((s.vec l).size ≠ (s.mat r).rows → multiplyVM l r res s = .throws) := by
  refine ⟨fun hc => ?_, fun hc => by simp [multiplyVM, hc]⟩
  let l' := if l.is res then Ref.temp (s.vec l) else l
  have hl : l'.is res = false ∧ s.vec l' = s.vec l := by
    by_cases h : l.is res = true
    · have e : l' = Ref.temp (s.vec l) := if_pos h
      rw [e]; exact ⟨rfl, rfl⟩
    · have e : l' = l := if_neg h
      rw [e]; exact ⟨by simpa using h, rfl⟩
  let L := s.vec l
  let R := s.mat r
  let T (n : Nat) : Store K := s.setVec res ⟨R.cols, fun j => ∑ k ∈ Finset.range n, L.at' k * R.at' k j⟩
  obtain ⟨t, e, ht⟩ := loop_inv (fun ir s => ((s.vec l').get ir).bind fun a =>
        if ir < (s.mat r).rows then
          some (s.setVec res { s.vecs res with at' := fun j => (s.vecs res).at' j + a * (s.mat r).at' ir j })
        else none) (fun n t => t = T n) R.rows 0 (T 0) rfl (by
      rintro ir t _ hir rfl
      refine ⟨_, ?_, rfl⟩
      have e1 : (T ir).mat r = R := mat_setVec s res _ r
      have e2 : (T ir).vec l' = L := by rw [vec_setVec s res _ l' hl.1, hl.2]
      simp only [e1, e2, Vec.get]
      rw [if_pos (by rw [show L.size = R.rows from hc]; omega)]
      simp only [Option.bind_some]
      rw [if_pos (by omega)]
      simp only [T, setVec_self, setVec_setVec, Finset.sum_range_succ])
  refine ⟨T R.rows, ?_, by simp [T]; rfl, fun j hj => ?_, fun id hid => by simp [T, Store.setVec, hid], rfl⟩
  · unfold multiplyVM
    rw [if_neg (by simpa using hc)]
    show (if l'.is res = true then Out.throws else multiplyVMAF l' r res s) = _
    rw [if_neg (by simp [hl.1])]
    unfold multiplyVMAF
    have h0 : s.setVec res ⟨(s.mat r).cols, fun _ => 0⟩ = T 0 := by simp [T]; rfl
    simp only [h0]
    have e1 : (T 0).mat r = R := mat_setVec s res _ r
    have e2 : (T 0).vec l' = L := by rw [vec_setVec s res _ l' hl.1, hl.2]
    simp only [e1, e2]
    rw [if_neg (by simpa using hc)]
    simp only [e1] at e
    rw [e, ht, Nat.zero_add]
  · simp only [T, setVec_self, Vec.get]
    rw [if_pos hj]

/-- **C58.** The weighted inner product is the double sum, and throws exactly when the sizes do not match. -/
theorem C58_weighted_inner_product (l : Vec K) (w : Tbl K) (r : Vec K) :
    (l.size = w.rows → r.size = w.cols → weightedInner l w r =
      .ok (∑ i ∈ Finset.range l.size, ∑ j ∈ Finset.range r.size, l.at' i * w.at' i j * r.at' j)) ∧
    ((l.size ≠ w.rows ∨ r.size ≠ w.cols) → weightedInner l w r = .throws) := by
  refine ⟨fun h1 h2 => ?_, fun h => by rw [weightedInner, if_pos h]⟩
  obtain ⟨x, e, hx⟩ := loop_inv (fun ir acc => (l.get ir).bind fun a => (rowDot w r ir).map fun x => acc + a * x)
    (fun n x => x = ∑ i ∈ Finset.range n, ∑ j ∈ Finset.range r.size, l.at' i * w.at' i j * r.at' j) w.rows 0 0 (by simp) (by
      rintro i x _ hi rfl
      refine ⟨_, ?_, rfl⟩
      rw [rowDot_eq w r (by omega) (by omega), Vec.get, if_pos (by omega)]
      simp [Finset.sum_range_succ, Finset.mul_sum, h2, mul_assoc])
  rw [weightedInner, if_neg (by tauto), e, hx, Nat.zero_add, h1]

/-- **C58.** The cache-blocked `AddJSquaredToUpper` adds `a aᵀ` to the diagonal and the upper triangle and leaves the lower triangle alone, for every size. -/
theorem C58_add_j_squared (a h : Tbl K) :
    (h.rows = a.rows → h.cols = a.rows → ∃ h', addJSquared a h = .ok h' ∧ h'.rows = h.rows ∧ h'.cols = h.cols ∧
      ∀ i j, i < h.rows → j < h.cols → h'.get i j = some (h.at' i j + if i ≤ j then ∑ k ∈ Finset.range a.cols, a.at' i k * a.at' j k else 0)) ∧
    (¬(h.rows = a.rows ∧ h.cols = a.rows) → addJSquared a h = .throws) := by
  refine ⟨fun hr hc => ?_, fun hn => by rw [addJSquared, if_neg hn]⟩
  let n := a.rows
  let D (i j m : Nat) : K := ∑ k ∈ Finset.range m, a.at' i k * a.at' j k
  -- rows below `ii` done, in row `ii` the columns below `x` done
  let Pj (ii x : Nat) (t : Tbl K) : Prop := t.rows = n ∧ t.cols = n ∧ ∀ p q, q < n →
    t.at' p q = h.at' p q + if p ≤ q ∧ (p < ii ∨ (p = ii ∧ q < x)) then D p q a.cols else 0
  obtain ⟨t, e, ht⟩ := loop_inv (fun ii h =>
        strided a.rows (fun jOuter h =>
          strided a.cols (fun kOuter h =>
            loop (fun jInner h => addPart a ii jInner kOuter (min (a.cols - kOuter) cacheSize) h)
              (min a.rows (jOuter + cacheSize) - jOuter) jOuter h) (a.cols + 1) 0 h) (a.rows + 1) ii h)
    (fun ii t => Pj ii 0 t) a.rows 0 h ⟨hr, hc, fun p q _ => by rw [if_neg (by omega), add_zero]⟩ (by
      intro ii t _ hii ht
      have hii' : ii < n := by omega
      obtain ⟨s', j', e', hj', hs'⟩ := strided_inv a.rows (fun jOuter h =>
          strided a.cols (fun kOuter h =>
            loop (fun jInner h => addPart a ii jInner kOuter (min (a.cols - kOuter) cacheSize) h)
              (min a.rows (jOuter + cacheSize) - jOuter) jOuter h) (a.cols + 1) 0 h)
        (fun jO t => ii ≤ jO ∧ Pj ii jO t) (by
          rintro jO t hjO ⟨hle, ht⟩
          let jS := min n (jO + cacheSize)
          have hjS : jO ≤ jS ∧ jS ≤ n := ⟨by simp only [jS]; omega, by simp only [jS]; omega⟩
          let Pk (k : Nat) (t : Tbl K) : Prop := t.rows = n ∧ t.cols = n ∧ ∀ p q, q < n →
            t.at' p q = h.at' p q + if p ≤ q ∧ (p < ii ∨ (p = ii ∧ q < jO)) then D p q a.cols else
              if p = ii ∧ jO ≤ q ∧ q < jS then D p q (min k a.cols) else 0
          obtain ⟨s', k', e', hk', hs'⟩ := strided_inv a.cols (fun kOuter h =>
              loop (fun jInner h => addPart a ii jInner kOuter (min (a.cols - kOuter) cacheSize) h)
                (min a.rows (jO + cacheSize) - jO) jO h) (fun k t => Pk k t) (by
              intro k t hk ht
              let m := min (a.cols - k) cacheSize
              have hkm : k + m ≤ a.cols := by simp only [m]; omega
              have hkm2 : min (k + cacheSize) a.cols = k + m := by simp only [m]; omega
              have hk2 : min k a.cols = k := by omega
              let Pi (j : Nat) (t : Tbl K) : Prop := t.rows = n ∧ t.cols = n ∧ ∀ p q, q < n →
                t.at' p q = h.at' p q + if p ≤ q ∧ (p < ii ∨ (p = ii ∧ q < jO)) then D p q a.cols else
                  if p = ii ∧ jO ≤ q ∧ q < jS then D p q (if q < j then k + m else k) else 0
              obtain ⟨s', e', hs'⟩ := loop_inv (fun jInner h => addPart a ii jInner k m h) Pi (jS - jO) jO t
                ⟨ht.1, ht.2.1, fun p q hq => by
                  rw [ht.2.2 p q hq, hk2]
                  by_cases h1 : p ≤ q ∧ (p < ii ∨ (p = ii ∧ q < jO))
                  · rw [if_pos h1, if_pos h1]
                  · rw [if_neg h1, if_neg h1]
                    by_cases h2 : p = ii ∧ jO ≤ q ∧ q < jS
                    · rw [if_pos h2, if_pos h2, if_neg (by omega)]
                    · rw [if_neg h2, if_neg h2]⟩ (by
                  intro j t hj1 hj2 ht
                  have hjn : j < n := by omega
                  refine ⟨_, addPart_eq a t hii' hjn hkm ht.1 ht.2.1, ht.1, ht.2.1, fun p q hq => ?_⟩
                  simp only
                  by_cases hpq : p = ii ∧ q = j
                  · obtain ⟨rfl, rfl⟩ := hpq
                    rw [if_pos ⟨rfl, rfl⟩, ht.2.2 p q hq, if_neg (by omega), if_pos ⟨rfl, by omega, by omega⟩, if_neg (by omega),
                      if_neg (by omega), if_pos ⟨rfl, by omega, by omega⟩, if_pos (by omega)]
                    simp only [D]
                    rw [← sum_shift (fun x => a.at' p x * a.at' q x) k m, add_assoc]
                  · rw [if_neg hpq, ht.2.2 p q hq]
                    by_cases h1 : p ≤ q ∧ (p < ii ∨ (p = ii ∧ q < jO))
                    · rw [if_pos h1, if_pos h1]
                    · rw [if_neg h1, if_neg h1]
                      by_cases h2 : p = ii ∧ jO ≤ q ∧ q < jS
                      · rw [if_pos h2, if_pos h2]
                        have hne : q ≠ j := fun h => hpq ⟨h2.1, h⟩
                        have : (q < j) ↔ (q < j + 1) := by omega
                        simp only [this]
                      · rw [if_neg h2, if_neg h2])
              refine ⟨s', e', hs'.1, hs'.2.1, fun p q hq => ?_⟩
              rw [hs'.2.2 p q hq, hkm2]
              by_cases h1 : p ≤ q ∧ (p < ii ∨ (p = ii ∧ q < jO))
              · rw [if_pos h1, if_pos h1]
              · rw [if_neg h1, if_neg h1]
                by_cases h2 : p = ii ∧ jO ≤ q ∧ q < jS
                · rw [if_pos h2, if_pos h2, if_pos (by omega)]
                · rw [if_neg h2, if_neg h2])
            (a.cols + 1) 0 t (by omega) ⟨ht.1, ht.2.1, fun p q hq => by
              rw [ht.2.2 p q hq]
              by_cases h1 : p ≤ q ∧ (p < ii ∨ (p = ii ∧ q < jO))
              · rw [if_pos h1, if_pos h1]
              · rw [if_neg h1, if_neg h1]
                simp [D]⟩
          refine ⟨s', e', by omega, hs'.1, hs'.2.1, fun p q hq => ?_⟩
          rw [hs'.2.2 p q hq, Nat.min_eq_right hk']
          congr 1
          by_cases h1 : p ≤ q ∧ (p < ii ∨ (p = ii ∧ q < jO))
          · rw [if_pos h1, if_pos (by omega)]
          · rw [if_neg h1]
            by_cases h2 : p = ii ∧ jO ≤ q ∧ q < jS
            · rw [if_pos h2, if_pos (by simp only [jS] at h2; omega)]
            · rw [if_neg h2, if_neg (by simp only [jS] at h2; omega)])
        (a.rows + 1) ii t (by omega) ⟨le_refl _, ht.1, ht.2.1, fun p q hq => by
          rw [ht.2.2 p q hq]
          congr 1
          by_cases h1 : p ≤ q ∧ (p < ii ∨ (p = ii ∧ q < 0))
          · rw [if_pos h1, if_pos (by omega)]
          · rw [if_neg h1, if_neg (by omega)]⟩
      refine ⟨s', e', hs'.2.1, hs'.2.2.1, fun p q hq => ?_⟩
      rw [hs'.2.2.2 p q hq]
      congr 1
      have : (p ≤ q ∧ (p < ii ∨ (p = ii ∧ q < j'))) ↔ (p ≤ q ∧ (p < ii + 1 ∨ (p = ii + 1 ∧ q < 0))) := by
        have : q < j' := by omega
        omega
      simp only [this])
  refine ⟨t, by rw [addJSquared, if_pos ⟨hr, hc⟩]; simp only [e], by rw [hr]; exact ht.1, by rw [hc]; exact ht.2.1, fun i j hi hj => ?_⟩
  rw [Tbl.get, if_pos ⟨by rw [ht.1, show n = a.rows from rfl]; omega, by rw [ht.2.1, show n = a.rows from rfl]; omega⟩,
    ht.2.2 i j (by rw [show n = a.rows from rfl]; omega)]
  congr 2
  have : (i ≤ j ∧ (i < 0 + a.rows ∨ (i = 0 + a.rows ∧ j < 0))) ↔ i ≤ j := by omega
  simp only [this]
  rfl

example : ∃ h', addJSquared (⟨2, 3, fun i j => i + j⟩ : Tbl ℚ) ⟨2, 2, fun _ _ => 1⟩ = .ok h' ∧ h'.get 0 1 = some 9 := by
  obtain ⟨h', e, _, _, h⟩ := (C58_add_j_squared (⟨2, 3, fun i j => i + j⟩ : Tbl ℚ) ⟨2, 2, fun _ _ => 1⟩).1 rfl rfl
  refine ⟨h', e, ?_⟩
  rw [h 0 1 (by decide) (by decide)]
  norm_num [Finset.sum_range_succ]

end Dal
