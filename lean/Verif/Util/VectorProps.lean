import Verif.Util.VectorLemmas
import Mathlib.Tactic.NormNum

/-! # C83: arithmetic of vectors, algorithms on containers, conversions to integers, simple statistics -/

namespace Dal

open Containers

/-- Elementwise arithmetic: with a second vector that is at least as long, element `i` of the result is made of the elements `i`. -/
theorem C83_vector_arithmetic {K : Type} [Add K] [Sub K] [Mul K] (v w : List K) (h : v.length ≤ w.length) :
    (∃ r, addAssign v w = .ok r ∧ r.length = v.length ∧ ∀ (i : Nat) a b, v[i]? = some a → w[i]? = some b → r[i]? = some (a + b)) ∧
    (∃ r, subAssign v w = .ok r ∧ r.length = v.length ∧ ∀ (i : Nat) a b, v[i]? = some a → w[i]? = some b → r[i]? = some (a - b)) ∧
    (∃ r, mulVec v w = .ok r ∧ r.length = v.length ∧ ∀ (i : Nat) a b, v[i]? = some a → w[i]? = some b → r[i]? = some (a * b)) := by
  refine ⟨⟨_, transform2_ok _ v w h, by simp [h], ?_⟩, ⟨_, transform2_ok _ v w h, by simp [h], ?_⟩, ⟨_, transform2_ok _ v w h, by simp [h], ?_⟩⟩ <;>
  · intro i a b ha hb
    rw [List.getElem?_zipWith, ha, hb]

example : ([1, 2] : List Int).length ≤ [10, 20].length ∧ addAssign [1, 2] [10, 20] = .ok [11, 22] := by decide

/-- The claim that vectors of different sizes are refused fails: with a shorter second vector the elements past its end are read,
with a longer one the rest is ignored. -/
theorem C83_vector_arithmetic_sizes_violated {K : Type} [Add K] [Sub K] [Mul K] (v w : List K) :
    (w.length < v.length → addAssign v w = .undefined ∧ subAssign v w = .undefined ∧ mulVec v w = .undefined) ∧
    (∀ x : List K, w.length = v.length → addAssign v (w ++ x) = addAssign v w ∧ subAssign v (w ++ x) = subAssign v w ∧ mulVec v (w ++ x) = mulVec v w) := by
  refine ⟨fun h => ⟨transform2_short _ v w h, transform2_short _ v w h, transform2_short _ v w h⟩, fun x h => ?_⟩
  have key : ∀ f : K → K → K, transform2 f v (w ++ x) = transform2 f v w := by
    intro f
    rw [transform2_ok f v _ (by simp; omega), transform2_ok f v w (by omega)]
    congr 1
    refine List.ext_getElem? fun i => ?_
    rw [List.getElem?_zipWith, List.getElem?_zipWith]
    by_cases hi : i < w.length
    · rw [List.getElem?_append_left hi]
    · have : v[i]? = none := List.getElem?_eq_none (by omega)
      rw [this]
  exact ⟨key _, key _, key _⟩

example : addAssign ([1, 2, 3] : List Int) [10] = .undefined ∧ addAssign ([1] : List Int) [10, 20] = .ok [11] := by decide

/-- Arithmetic with a number is inverted by arithmetic with its opposite, and goes through the vector. -/
theorem C83_scalar_arithmetic {K : Type} [Field K] (v : List K) (s : K) :
    shiftAssign (shiftAssign v s) (-s) = v ∧ (s ≠ 0 → scaleAssign (scaleAssign v s) (1 / s) = v) ∧
    (∀ i : Nat, (scaleAssign v s)[i]? = v[i]?.map (· * s)) := by
  refine ⟨?_, fun h => ?_, fun i => by simp [scaleAssign]⟩
  · simp [shiftAssign]
  · simp only [scaleAssign, List.map_map]
    conv_rhs => rw [← List.map_id v]
    refine List.map_congr_left fun x _ => ?_
    simp [h]

example : scaleAssign ([1, 2] : List Rat) 3 = [3, 6] := by norm_num [scaleAssign]

/-- `operator==` of vectors: always defined, and it is equality. -/
theorem C83_equal {α : Type} [DecidableEq α] (l r : List α) : equal l r = .ok (decide (l = r)) := by
  rw [equal]
  split_ifs with h
  · exact equalElements_eq l r h
  · rw [decide_eq_false]; intro he; exact h (by rw [he])

example : equal [1, 2] [1, 2, 3] = .ok false ∧ equal [1, 2] [1, 2] = .ok true := by decide

/-- `XRange`: as many points as asked, the last exactly the finish, the others equally spaced from the start. -/
theorem C83_xrange {K : Type} [Field K] [CharZero K] (start finish : K) (points : Nat) (h0 : 0 < points) (h1 : points < 2 ^ 64) :
    ∃ x, xRange start finish points = .ok x ∧ x.length = points ∧ x[points - 1]? = some finish ∧
      (1 < points → x[0]? = some start ∧
        ∀ i, i < points → x[i]? = some (start + i * ((finish - start) / ((points : K) - 1)))) := by
  have hlast : (points + (2 ^ 64 - 1)) % 2 ^ 64 = points - 1 := by omega
  rw [xRange, hlast]
  obtain ⟨y, hy, hl, hg⟩ := xloop_spec start ((finish - start) / ((points - 1 : Nat) : K)) (points - 1) 0 (List.replicate points 0) (by simp)
  rw [hy]
  rw [List.length_replicate] at hl
  have hp : points - 1 < y.length := by omega
  have hc : ((points - 1 : Nat) : K) = (points : K) - 1 := by rw [Nat.cast_sub h0, Nat.cast_one]
  refine ⟨y.set (points - 1) finish, by simp only [Res.bind, write, if_pos hp], by rw [List.length_set, hl], List.getElem?_set_self hp, fun h2 => ?_⟩
  have hne : ((points : K) - 1) ≠ 0 := by
    rw [← hc]; exact_mod_cast (by omega : points - 1 ≠ 0)
  have all : ∀ i, i < points → (y.set (points - 1) finish)[i]? = some (start + i * ((finish - start) / ((points : K) - 1))) := by
    intro i hi
    by_cases he : i = points - 1
    · subst he
      rw [List.getElem?_set_self hp, hc, mul_div_cancel₀ _ hne]
      rw [add_sub_cancel]
    · rw [List.getElem?_set_ne (by omega), hg i, if_pos (by omega), hc]
  refine ⟨?_, all⟩
  have := all 0 h0
  simpa using this

example : xRange (1 : Rat) 2 3 = .ok [1, 3 / 2, 2] := by
  simp [xRange, xloop, write, Res.bind, List.replicate]; norm_num

/-- The claim that any number of points gives a range fails: with none, elements are written outside the (empty) vector. -/
theorem C83_xrange_none_violated {K : Type} [Field K] (start finish : K) : xRange start finish 0 = .undefined := by
  rw [xRange]
  have : (0 + (2 ^ 64 - 1)) % 2 ^ 64 = (2 ^ 64 - 2) + 1 := by norm_num
  rw [this, xloop]
  simp [write, Res.bind]

/-- `Unique`: with a strict total order it leaves each element once, in increasing order. -/
theorem C83_unique {α : Type} [DecidableEq α] (less : α → α → Bool)
    (hirr : ∀ a, less a a = false)
    (htrans : ∀ a b c, less a b = true → less b c = true → less a c = true)
    (htotal : ∀ a b, less a b = false → less b a = false → a = b) (src out : List α) (h : UniqueOf less src out) :
    (∀ x, x ∈ out ↔ x ∈ src) ∧ out.Nodup ∧ out.Pairwise (fun a b => less a b = true) := by
  obtain ⟨s, ⟨hp, hs⟩, rfl⟩ := h
  have hpw := pairwise_uniqueAdj less htrans htotal s hs
  refine ⟨fun x => by rw [mem_uniqueAdj, hp.mem_iff], ?_, hpw⟩
  refine hpw.imp fun {a b} hab he => ?_
  subst he
  rw [hirr] at hab; exact absurd hab (by simp)

example : UniqueOf (fun a b : Nat => decide (a < b)) [3, 1, 3] [1, 3] :=
  ⟨[1, 3, 3], ⟨by decide, by decide⟩, by decide⟩

/-- The claim that `Unique` leaves each element once for any order fails: an order that does not tell all elements apart (here by
the first part) may leave equal elements away from each other. -/
theorem C83_unique_order_violated : ∃ (src out : List (Nat × Nat)),
    UniqueOf (fun a b => decide (a.1 < b.1)) src out ∧ ¬ out.Nodup :=
  ⟨[(1, 1), (1, 2), (1, 1)], [(1, 1), (1, 2), (1, 1)], ⟨_, ⟨List.Perm.refl _, by decide⟩, by decide⟩, by decide⟩

/-- `IsMonotonic`: whether each element stands in the relation to the next; with a transitive relation, to all later ones. -/
theorem C83_is_monotonic {α : Type} (pred : α → α → Bool) (l : List α) :
    (isMonotonic pred l = true ↔ ∀ (i : Nat) a b, l[i]? = some a → l[i + 1]? = some b → pred a b = true) ∧
    ((∀ a b c, pred a b = true → pred b c = true → pred a c = true) →
      (isMonotonic pred l = true ↔ l.Pairwise fun a b => pred a b = true)) := by
  have adj : ∀ l : List α, isMonotonic pred l = true ↔ ∀ (i : Nat) a b, l[i]? = some a → l[i + 1]? = some b → pred a b = true := by
    intro l
    induction l with
    | nil => simp [isMonotonic]
    | cons a l ih =>
      cases l with
      | nil => simp [isMonotonic]
      | cons b l =>
        rw [isMonotonic]
        constructor
        · intro h i x y hx hy
          cases hab : pred a b with
          | false => rw [hab] at h; simp at h
          | true =>
            rw [hab] at h
            cases i with
            | zero => simp at hx hy; subst hx hy; exact hab
            | succ i => exact ih.1 (by simpa using h) i x y (by simpa using hx) (by simpa using hy)
        · intro h
          have hab : pred a b = true := h 0 a b (by simp) (by simp)
          rw [hab]
          simp only [Bool.not_true, Bool.false_eq_true, if_false]
          exact ih.2 fun i x y hx hy => h (i + 1) x y (by simpa using hx) (by simpa using hy)
  refine ⟨adj l, fun ht => ?_⟩
  clear adj
  induction l with
  | nil => simp [isMonotonic]
  | cons a l ih =>
    cases l with
    | nil => simp [isMonotonic]
    | cons b l =>
      rw [isMonotonic]
      cases hab : pred a b with
      | false =>
        simp only [Bool.not_false, if_true, Bool.false_eq_true, false_iff]
        intro h
        have := (List.pairwise_cons.1 h).1 b (by simp)
        rw [hab] at this; exact absurd this (by simp)
      | true =>
        simp only [Bool.not_true, Bool.false_eq_true, if_false]
        rw [ih]
        constructor
        · intro h
          refine List.pairwise_cons.2 ⟨fun c hc => ?_, h⟩
          rcases List.mem_cons.1 hc with rfl | hc
          · exact hab
          · exact ht a b c hab ((List.pairwise_cons.1 h).1 c hc)
        · exact fun h => (List.pairwise_cons.1 h).2

example : isMonotonic (fun a b : Nat => decide (a < b)) [1, 2, 2] = false ∧ isMonotonic (fun a b : Nat => decide (a ≤ b)) [1, 2, 2] = true := by decide

/-- `Transform`, `Apply` and `Zip`: with equal sizes the elements go in pairs, otherwise an exception is thrown. -/
theorem C83_zip {α β γ : Type} (op : α → β → γ) (a : List α) (b : List β) :
    (a.length ≠ b.length → apply2 op a b = .throws ∧ zip a b = .throws ∧ ∀ f : α → β, transform a f b = .throws) ∧
    (a.length = b.length → (∃ r, apply2 op a b = .ok r ∧ r.length = a.length ∧ ∀ (i : Nat) x y, a[i]? = some x → b[i]? = some y → r[i]? = some (op x y)) ∧
      (∃ r, zip a b = .ok r ∧ r.map Prod.fst = a ∧ r.map Prod.snd = b) ∧
      ∀ f : α → β, transform a f b = .ok (a.map f)) := by
  refine ⟨fun h => ⟨by rw [apply2, if_neg h], by rw [zip, apply2, if_neg h], fun f => by rw [transform, if_neg h]⟩, fun h => ⟨?_, ?_, fun f => by rw [transform, if_pos h]⟩⟩
  · refine ⟨_, by rw [apply2, if_pos h, transform2_ok op a b h.le], by simp [h], fun i x y hx hy => by rw [List.getElem?_zipWith, hx, hy]⟩
  · refine ⟨a.zip b, by rw [zip, apply2, if_pos h, transform2_ok _ a b h.le, List.zip_eq_zipWith], ?_, ?_⟩
    · exact List.map_fst_zip h.le
    · exact List.map_snd_zip h.ge

example : zip [1, 2] ['a', 'b'] = .ok [(1, 'a'), (2, 'b')] ∧ zip [1] ['a', 'b'] = .throws := by decide

/-- `ZipToMap`: sizes have to agree; the keys of the map increase strictly, and under a key is the first value given for it. -/
theorem C83_zip_to_map {κ ν : Type} [LinearOrder κ] (ks : List κ) (vs : List ν) :
    (ks.length ≠ vs.length → zipToMap ks vs = .throws) ∧
    (ks.length = vs.length → ∃ m, zipToMap ks vs = .ok m ∧ (keys m).Pairwise (· < ·) ∧ (keys m).length = (mapValues m).length ∧
      (∀ k (i : Nat) v, ks[i]? = some k → vs[i]? = some v → (∀ j < i, ks[j]? ≠ some k) → mapFind k m = some v) ∧
      (∀ k, k ∉ ks → mapFind k m = none)) := by
  refine ⟨fun h => by rw [zipToMap, if_neg h], fun h => ?_⟩
  obtain ⟨m, hm, hs, hf⟩ := insertAll_map ks vs [] h (by simp)
  refine ⟨m, by rw [zipToMap, if_pos h, hm], ?_, by simp [keys, mapValues], ?_, ?_⟩
  · rw [keys, List.pairwise_map]; exact hs
  · intro k i v hk hv hfirst
    rw [hf k]
    have : ((ks.zip vs).find? fun e => decide (e.1 = k)) = some (k, v) := by
      clear hf hs hm m
      induction ks generalizing vs i with
      | nil => simp at hk
      | cons a ks ih =>
        cases vs with
        | nil => simp at h
        | cons b vs =>
          cases i with
          | zero =>
            simp at hk hv; subst hk hv
            rw [List.zip_cons_cons, List.find?_cons_of_pos (by simp)]
          | succ i =>
            have hne : a ≠ k := fun he => hfirst 0 (by omega) (by simp [he])
            rw [List.zip_cons_cons, List.find?_cons_of_neg (by simpa using hne)]
            exact ih vs (by simpa using h) i (by simpa using hk) (by simpa using hv) fun j hj => by
              have := hfirst (j + 1) (by omega); simpa using this
    rw [this]; rfl
  · intro k hk
    rw [hf k]
    have : ((ks.zip vs).find? fun e => decide (e.1 = k)) = none := by
      rw [List.find?_eq_none]
      intro e he
      have := (List.of_mem_zip he).1
      simp only [decide_eq_true_eq]
      rintro rfl; exact hk this
    rw [this]; rfl

example : zipToMap [2, 1] ['b', 'a'] = .ok [(1, 'a'), (2, 'b')] ∧ mapFind 2 [(1, 'a'), (2, 'b')] = some 'b' := by decide

/-- The claim that every value given can be found under its key fails: of two values for one key the second is dropped. -/
theorem C83_zip_to_map_twice_violated : ∃ (ks : List Nat) (vs : List Nat) (m : List (Nat × Nat)),
    zipToMap ks vs = .ok m ∧ ks[1]? = some 1 ∧ vs[1]? = some 20 ∧ mapFind 1 m = some 10 ∧ 20 ∉ mapValues m :=
  ⟨[1, 1], [10, 20], [(1, 10)], by decide, rfl, rfl, by decide, by decide⟩

/-- `ZipToMultimap`: all the pairs are kept, by key, those of one key in the order given. -/
theorem C83_zip_to_multimap {κ ν : Type} [LinearOrder κ] (ks : List κ) (vs : List ν) :
    (ks.length ≠ vs.length → zipToMultimap ks vs = .throws) ∧
    (ks.length = vs.length → ∃ m, zipToMultimap ks vs = .ok m ∧ (keys m).Pairwise (· ≤ ·) ∧ m.Perm (ks.zip vs) ∧
      ∀ k, m.filter (fun e => decide (e.1 = k)) = (ks.zip vs).filter fun e => decide (e.1 = k)) := by
  refine ⟨fun h => by rw [zipToMultimap, if_neg h], fun h => ?_⟩
  obtain ⟨m, hm, hs, hp, hf⟩ := insertAll_multi ks vs [] h (by simp)
  refine ⟨m, by rw [zipToMultimap, if_pos h, hm], ?_, by simpa using hp, fun k => by simpa using hf k⟩
  rw [keys, List.pairwise_map]; exact hs

example : zipToMultimap [2, 1, 2] ['b', 'a', 'c'] = .ok [(1, 'a'), (2, 'b'), (2, 'c')] := by decide

/-- `NearestInt`: an integer is given exactly for the numbers below 2^31 - 1 in size, it is nearest, and of two equally near it
is the one away from zero. -/
theorem C83_nearest_int (q : Rat) :
    (|q| < 2147483647 ↔ (nearestInt q).isSome) ∧
    ∀ n, nearestInt q = some n → |q - n| ≤ 1 / 2 ∧ (|q - n| = 1 / 2 → |q| < |(n : Rat)|) ∧ |n| ≤ 2147483647 := by
  constructor
  · unfold nearestInt; split_ifs with h <;> simp [h]
  · intro n hn
    unfold nearestInt at hn
    split_ifs at hn with h h0
    · rw [Option.some.injEq] at hn
      have hq : 0 ≤ q + 1 / 2 := by linarith
      rw [toInt, if_pos hq] at hn
      have h1 := Int.floor_le (q + 1 / 2)
      have h2 := Int.lt_floor_add_one (q + 1 / 2)
      rw [hn] at h1 h2
      have hn0 : (0 : Rat) ≤ n := by
        have : 0 ≤ n := by rw [← hn]; exact Int.floor_nonneg.2 hq
        exact_mod_cast this
      refine ⟨by rw [abs_le]; constructor <;> linarith, fun he => ?_, ?_⟩
      · rw [abs_of_pos h0, abs_of_nonneg hn0]
        rcases abs_choice (q - n) with h' | h' <;> rw [h'] at he <;> linarith
      · rw [abs_of_pos h0] at h
        have : (n : Rat) < 2147483648 := by linarith
        have : n < 2147483648 := by exact_mod_cast this
        have : 0 ≤ n := by exact_mod_cast hn0
        rw [abs_of_nonneg this]; omega
    · rw [Option.some.injEq] at hn
      have hq : ¬ 0 ≤ q + -(1 / 2) := by push Not at h0 ⊢; linarith
      push Not at h0
      rw [toInt, if_neg hq] at hn
      have h1 := Int.le_ceil (q + -(1 / 2))
      have h2 := Int.ceil_lt_add_one (q + -(1 / 2))
      rw [hn] at h1 h2
      have hn0 : (n : Rat) ≤ 0 := by
        have h3 : (n : Rat) < 1 := by linarith
        have : n < 1 := by exact_mod_cast h3
        have : n ≤ 0 := by omega
        exact_mod_cast this
      refine ⟨by rw [abs_le]; constructor <;> linarith, fun he => ?_, ?_⟩
      · rw [abs_of_nonpos h0, abs_of_nonpos hn0]
        rcases abs_choice (q - n) with h' | h' <;> rw [h'] at he <;> linarith
      · rw [abs_of_nonpos h0] at h
        have : (-2147483648 : Rat) < n := by linarith
        have : -2147483648 < n := by exact_mod_cast this
        have : n ≤ 0 := by exact_mod_cast hn0
        rw [abs_of_nonpos this]; omega

example : nearestInt (5 / 2) = some 3 ∧ nearestInt (-(5 / 2)) = some (-3) ∧ nearestInt 2147483647 = none := by decide +kernel

/-- `AsInt`: an integer that is missed by less than 1e-9 is given. -/
theorem C83_as_int (q : Rat) :
    (|q| < 2147483647 ↔ (asInt q).isSome) ∧
    (∀ n : Int, |q - n| < 1 / 1000000000 → |q| < 2147483647 → asInt q = some n) ∧
    (∀ n : Int, |n| < 2147483647 → asInt n = some n) := by
  have key : ∀ (q : Rat) (n : Int), |q - n| < 1 / 1000000000 → |q| < 2147483647 → asInt q = some n := by
    intro q n hn h
    rw [abs_lt] at hn
    rw [asInt, if_pos h]
    congr 1
    by_cases h0 : q > 0
    · rw [if_pos h0, toInt, if_pos (by linarith), Int.floor_eq_iff]
      constructor <;> linarith
    · rw [if_neg h0, toInt, if_neg (by push Not at h0 ⊢; linarith), Int.ceil_eq_iff]
      constructor <;> linarith
  refine ⟨by unfold asInt; split_ifs with h <;> simp [h], fun n => key q n, fun n hn => key n n (by simp) ?_⟩
  exact_mod_cast hn

example : asInt (29999999999 / 10000000000) = some 3 ∧ asInt (299 / 100) = some 2 ∧ asInt (-(299 / 100)) = some (-2) := by decide +kernel

/-- `AsInt` of a difference of pointers gives the difference when it answers. -/
theorem C83_as_int_difference (n : Int) : (∀ m, asIntPtr n = .ok m → m = n ∧ |n| < 2147483647) ∧ (|n| < 2147483647 → asIntPtr n = .ok n) := by
  constructor
  · intro m h
    unfold asIntPtr at h
    split_ifs at h with h1 h2
    exact ⟨(Res.ok.inj h).symm, h2⟩
  · intro h
    have : n ≠ -2 ^ 63 := by rintro rfl; norm_num at h
    rw [asIntPtr, if_neg this, if_pos h]

example : asIntPtr (-5) = .ok (-5) := by decide

/-- The claim that every value an `int` can hold is converted fails at both ends. -/
theorem C83_as_int_ends_violated : asIntPtr 2147483647 = .throws ∧ asIntPtr (-2147483647) = .throws ∧ asIntPtr (-2147483648) = .throws ∧
    asInt 2147483647 = none ∧ asInt (-2147483648) = none := by decide +kernel

section Statistics
variable {K : Type} [Field K] [LinearOrder K] [IsStrictOrderedRing K]

/-- `L1Normalized`: in proportion to the given, with `L` the sum of the sizes; the sizes then sum to `L / (L + 1e-14)`. -/
theorem C83_l1_normalized (v : List K) :
    (l1Normalized v).length = v.length ∧
    (∀ (i : Nat) x, v[i]? = some x → (l1Normalized v)[i]? = some (x / ((v.map fun x => |x|).sum + 1 / 10 ^ 14))) ∧
    ((l1Normalized v).map fun x => |x|).sum = (v.map fun x => |x|).sum / ((v.map fun x => |x|).sum + 1 / 10 ^ 14) := by
  have e : accumulate (fun x y => x + |y|) v = (v.map fun x => |x|).sum := by rw [accumulate, foldl_map (fun x => |x|)]; simp
  have ht : (tiny : K) = 1 / 10 ^ 14 := by rw [tiny]; norm_num
  have h0 : 0 ≤ (v.map fun x => |x|).sum := List.sum_nonneg (by intro y hy; obtain ⟨x, _, rfl⟩ := List.mem_map.1 hy; exact abs_nonneg x)
  refine ⟨by simp [l1Normalized], fun i x h => by simp [l1Normalized, h, e, ht], ?_⟩
  simp only [l1Normalized, e, ht, List.map_map]
  rw [← sum_map_div]
  congr 1
  refine List.map_congr_left fun x _ => ?_
  have : (0 : K) < (v.map fun x => |x|).sum + 1 / 10 ^ 14 := by positivity
  simp only [Function.comp]
  rw [abs_div, abs_of_pos this]

/-- The claim that the normalized vector has norm 1 fails, for every vector. -/
theorem C83_l1_normalized_violated (v : List K) : ((l1Normalized v).map fun x => |x|).sum < 1 := by
  rw [(C83_l1_normalized v).2.2]
  have h0 : 0 ≤ (v.map fun x => |x|).sum := List.sum_nonneg (by intro y hy; obtain ⟨x, _, rfl⟩ := List.mem_map.1 hy; exact abs_nonneg x)
  have h1 : (0 : K) < 1 / 10 ^ 14 := by positivity
  rw [div_lt_one (by positivity)]
  linarith

example : l1Normalized ([0, 0] : List Rat) = [0, 0] := by decide +kernel

/-- `L2Normalized`, with a square root: the squares sum to `L² / (L + 1e-14)²`, below 1. -/
theorem C83_l2_normalized (sqrt : K → K) (hsqrt : ∀ x, 0 ≤ x → 0 ≤ sqrt x ∧ sqrt x ^ 2 = x) (v : List K) :
    (l2Normalized sqrt v).length = v.length ∧
    ((l2Normalized sqrt v).map fun x => x * x).sum =
      (v.map fun x => x * x).sum / (sqrt (v.map fun x => x * x).sum + 1 / 10 ^ 14) ^ 2 ∧
    ((l2Normalized sqrt v).map fun x => x * x).sum < 1 := by
  have e : accumulate (fun x y => x + y * y) v = sumSq v := by rw [accumulate, foldl_map (fun x => x * x), sumSq]; simp
  have ht : (tiny : K) = 1 / 10 ^ 14 := by rw [tiny]; norm_num
  have h0 := sumSq_nonneg v
  obtain ⟨hs0, hs⟩ := hsqrt _ h0
  have main : ((l2Normalized sqrt v).map fun x => x * x).sum = sumSq v / (sqrt (sumSq v) + 1 / 10 ^ 14) ^ 2 := by
    simp only [l2Normalized, e, ht, List.map_map]
    have h1 : (fun x : K => x * x) ∘ (fun x => x / (sqrt (sumSq v) + 1 / 10 ^ 14)) = fun x => (x * x) / (sqrt (sumSq v) + 1 / 10 ^ 14) ^ 2 := by
      funext x; simp only [Function.comp]; rw [div_mul_div_comm, pow_two]
    rw [h1, sum_map_div]; rfl
  refine ⟨by simp [l2Normalized], main, ?_⟩
  rw [main, div_lt_one (by positivity)]
  have ht : (0 : K) < 1 / 10 ^ 14 := by positivity
  generalize (1 / 10 ^ 14 : K) = t at *
  calc sumSq v = sqrt (sumSq v) ^ 2 := hs.symm
    _ < _ := by nlinarith

/-- `Centralized`: what is left sums to zero, and differences are kept. -/
theorem C83_centralized (v : List K) :
    (centralized v).length = v.length ∧ (centralized v).sum = 0 ∧
    (∀ (i j : Nat) x y, v[i]? = some x → v[j]? = some y → ∃ a b, (centralized v)[i]? = some a ∧ (centralized v)[j]? = some b ∧ a - b = x - y) ∧
    ∀ s, v ≠ [] → centralized (v.map (· + s)) = centralized v := by
  have hn : v ≠ [] → (v.length : K) ≠ 0 := fun h => by
    have : v.length ≠ 0 := fun h' => h (List.length_eq_zero_iff.1 h')
    exact_mod_cast this
  rw [centralized_eq]
  refine ⟨by simp, ?_, fun i j x y hx hy => ?_, fun s hv => ?_⟩
  · rw [sum_map_sub]
    by_cases hv : v = []
    · subst hv; simp
    · rw [mul_div_cancel₀ _ (hn hv)]; ring
  · exact ⟨x - v.sum / v.length, y - v.sum / v.length, by simp [hx], by simp [hy], by ring⟩
  · rw [centralized_eq, List.map_map, List.length_map]
    have : (v.map (· + s)).sum = v.sum + v.length * s := by
      have := sum_map_sub (-s) v
      simp only [sub_neg_eq_add] at this
      rw [this]; ring
    rw [this]
    refine List.map_congr_left fun x _ => ?_
    simp only [Function.comp]
    have := hn hv
    field_simp; ring

example : centralized ([1, 2, 6] : List Rat) = [-2, -1, 3] := by decide +kernel

/-- `Covariance`: the mean of the products less the product of the means; the order of the arguments does not matter, constants
added to either do not, and other sizes throw. -/
theorem C83_covariance (a b : List K) :
    (a.length ≠ b.length → covariance a b = .throws) ∧
    (a.length = b.length → a ≠ [] →
      covariance a b = .ok ((List.zipWith (· * ·) a b).sum / a.length - (a.sum / a.length) * (b.sum / a.length)) ∧
      covariance a b = covariance b a ∧ ∀ s t, covariance (a.map (· + s)) (b.map (· + t)) = covariance a b) := by
  refine ⟨fun h => by rw [covariance, if_neg h], fun h hv => ?_⟩
  have hl : a.length ≠ 0 := fun h' => hv (List.length_eq_zero_iff.1 h')
  have hn : (a.length : K) ≠ 0 := by exact_mod_cast hl
  have form : ∀ a b : List K, a.length = b.length → a.length ≠ 0 →
      covariance a b = .ok ((List.zipWith (· * ·) a b).sum / a.length - (a.sum / a.length) * (b.sum / a.length)) := by
    intro a b h hl
    have hn : (a.length : K) ≠ 0 := by exact_mod_cast hl
    rw [covariance, if_pos h, centralized_eq, centralized_eq, innerProduct_eq _ _ (by simp [h]), zipWith_shift _ _ a b h]
    simp only [Res.bind, if_neg hl, ← h]
    congr 1
    field_simp; ring
  refine ⟨form a b h hl, ?_, fun s t => ?_⟩
  · rw [form a b h hl, form b a h.symm (by omega), zipWith_comm b a, h]
    congr 1; ring
  · have hb : b ≠ [] := by rintro rfl; simp at h; exact hv h
    rw [covariance, covariance, List.length_map, List.length_map, (C83_centralized a).2.2.2 s hv, (C83_centralized b).2.2.2 t hb]

example : covariance ([1, 2, 3] : List Rat) [2, 4, 6] = .ok (4 / 3) ∧ covariance ([1] : List Rat) [] = .throws := by
  decide +kernel

omit [IsStrictOrderedRing K] in
/-- The claim that every pair of equally long vectors has a covariance fails: without elements it is `0 / 0`. -/
theorem C83_covariance_empty_violated : covariance ([] : List K) [] = .undefined := by
  simp [covariance, centralized, innerProduct, innerFrom, Res.bind]

/-- The covariance of a vector with itself is not negative, and is zero exactly for constant vectors. -/
theorem C83_variance (a : List K) (ha : a ≠ []) :
    ∃ v, covariance a a = .ok v ∧ 0 ≤ v ∧ (v = 0 ↔ ∃ c, ∀ x ∈ a, x = c) := by
  have hl : a.length ≠ 0 := fun h' => ha (List.length_eq_zero_iff.1 h')
  have hn : (0 : K) < a.length := by exact_mod_cast Nat.pos_of_ne_zero hl
  have hc : covariance a a = .ok (sumSq (centralized a) / a.length) := by
    rw [covariance, if_pos rfl, innerProduct_eq _ _ le_rfl, zipWith_self]
    simp only [Res.bind, if_neg hl]
  refine ⟨_, hc, div_nonneg (sumSq_nonneg _) hn.le, ?_⟩
  rw [div_eq_zero_iff, or_iff_left hn.ne']
  constructor
  · intro h
    have hz := sumSq_eq_zero h
    refine ⟨a.sum / a.length, fun x hx => ?_⟩
    have := hz (x - a.sum / a.length) (by rw [centralized_eq]; exact List.mem_map.2 ⟨x, hx, rfl⟩)
    linarith
  · rintro ⟨c, hc⟩
    have hs : a.sum = a.length * c := by
      have : a = List.replicate a.length c := List.eq_replicate_of_mem hc
      conv_lhs => rw [this]
      simp
    have : ∀ x ∈ centralized a, x = 0 := by
      rw [centralized_eq]
      intro x hx
      obtain ⟨y, hy, rfl⟩ := List.mem_map.1 hx
      rw [hc y hy, hs, mul_div_cancel_left₀ _ hn.ne']; ring
    unfold sumSq
    have : (centralized a).map (fun x => x * x) = List.replicate (centralized a).length 0 := by
      refine List.eq_replicate_iff.2 ⟨by simp, ?_⟩
      intro b hb
      obtain ⟨y, hy, rfl⟩ := List.mem_map.1 hb
      rw [this y hy]; ring
    rw [this]; simp

/-- `Correlation`: defined for vectors of equal sizes, symmetric, strictly between -1 and 1, of the sign of the covariance. -/
theorem C83_correlation (sqrt : K → K) (hsqrt : ∀ x, 0 ≤ x → 0 ≤ sqrt x ∧ sqrt x ^ 2 = x) (a b : List K) :
    (a.length ≠ b.length → correlation sqrt a b = .throws) ∧
    (a.length = b.length → ∃ r, correlation sqrt a b = .ok r ∧ correlation sqrt b a = .ok r ∧ -1 < r ∧ r < 1 ∧
      (a ≠ [] → ∃ c, covariance a b = .ok c ∧ (0 < r ↔ 0 < c) ∧ (r < 0 ↔ c < 0))) := by
  refine ⟨fun h => by rw [correlation, if_neg h], fun h => ?_⟩
  have len : ∀ v : List K, (l2Normalized sqrt (centralized v)).length = v.length := fun v => by simp [l2Normalized, centralized]
  have e1 : correlation sqrt a b = .ok (List.zipWith (· * ·) (l2Normalized sqrt (centralized a)) (l2Normalized sqrt (centralized b))).sum := by
    rw [correlation, if_pos h, innerProduct_eq _ _ (by rw [len, len, h])]
  have e2 : correlation sqrt b a = .ok (List.zipWith (· * ·) (l2Normalized sqrt (centralized a)) (l2Normalized sqrt (centralized b))).sum := by
    rw [correlation, if_pos h.symm, innerProduct_eq _ _ (by rw [len, len, h]), zipWith_comm]
  have ha := (C83_l2_normalized sqrt hsqrt (centralized a)).2.2
  have hb := (C83_l2_normalized sqrt hsqrt (centralized b)).2.2
  have hcs := cauchy (l2Normalized sqrt (centralized a)) (l2Normalized sqrt (centralized b))
  have ha0 := sumSq_nonneg (l2Normalized sqrt (centralized a))
  have hb0 := sumSq_nonneg (l2Normalized sqrt (centralized b))
  change sumSq _ < 1 at ha hb
  have hlt : (List.zipWith (· * ·) (l2Normalized sqrt (centralized a)) (l2Normalized sqrt (centralized b))).sum ^ 2 < 1 := by nlinarith
  have habs := (sq_lt_one_iff_abs_lt_one _).1 hlt
  rw [abs_lt] at habs
  refine ⟨_, e1, e2, habs.1, habs.2, fun hv => ?_⟩
  have hl : a.length ≠ 0 := fun h' => hv (List.length_eq_zero_iff.1 h')
  have hn : (0 : K) < a.length := by exact_mod_cast Nat.pos_of_ne_zero hl
  refine ⟨(List.zipWith (· * ·) (centralized a) (centralized b)).sum / a.length, ?_, ?_⟩
  · rw [covariance, if_pos h, innerProduct_eq _ _ (by simp [centralized, h])]
    simp only [Res.bind, if_neg hl]
  · have ht : (0 : K) < tiny := tiny_pos
    have eacc : ∀ v : List K, accumulate (fun x y => x + y * y) v = sumSq v := fun v => by rw [accumulate, foldl_map (fun x => x * x), sumSq]; simp
    have hd : ∀ v : List K, 0 < sqrt (sumSq v) + tiny := fun v => by
      have := (hsqrt _ (sumSq_nonneg v)).1
      linarith
    have hr : (List.zipWith (· * ·) (l2Normalized sqrt (centralized a)) (l2Normalized sqrt (centralized b))).sum =
        (List.zipWith (· * ·) (centralized a) (centralized b)).sum / ((sqrt (sumSq (centralized a)) + tiny) * (sqrt (sumSq (centralized b)) + tiny)) := by
      simp only [l2Normalized, eacc]
      exact zipWith_scale _ _ _ _
    rw [hr]
    have hpos := mul_pos (hd (centralized a)) (hd (centralized b))
    constructor
    · rw [div_pos_iff_of_pos_right hpos, div_pos_iff_of_pos_right hn]
    · rw [div_neg_iff, div_neg_iff]
      constructor
      · rintro (⟨_, h⟩ | ⟨h, _⟩)
        · linarith
        · exact Or.inr ⟨h, hn⟩
      · rintro (⟨_, h⟩ | ⟨h, _⟩)
        · linarith
        · exact Or.inr ⟨h, hpos⟩

/-- The claim that a vector is fully correlated with itself fails, for every vector. -/
theorem C83_self_correlation_violated (sqrt : K → K) (hsqrt : ∀ x, 0 ≤ x → 0 ≤ sqrt x ∧ sqrt x ^ 2 = x) (a : List K) :
    ∃ r, correlation sqrt a a = .ok r ∧ r < 1 := by
  obtain ⟨r, h, _, _, h1, _⟩ := (C83_correlation sqrt hsqrt a a).2 rfl
  exact ⟨r, h, h1⟩

end Statistics

end Dal
