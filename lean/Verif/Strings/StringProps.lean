import Mathlib.Data.List.Lex
import Mathlib.Data.List.TakeWhile
import Mathlib.Tactic.Ring
import Mathlib.Tactic.Linarith
import Verif.Strings.StringModel

/-! # Properties of case-insensitive strings and text utilities (C15-C19) -/

namespace Dal
open Strings

/-! ## C15 -/

theorem ciOrder_eq (n : Nat) : ciOrder n =
    (let k := n % 128; if k < 97 then k else if k ≤ 122 then k - 32 else k - 26) := by
  have h : ∀ k : Fin 128, ciTable[k.1]'(by rw [ciTable_length]; exact k.2) =
      (if k.1 < 97 then k.1 else if k.1 ≤ 122 then k.1 - 32 else k.1 - 26) := by decide +kernel
  exact h ⟨n % 128, Nat.mod_lt _ (by decide)⟩

/-- Letter case removed from a byte, ignoring the high bit: the only thing the comparison ignores. -/
def foldByte (c : Char) : Nat :=
  if 97 ≤ c.toNat % 128 ∧ c.toNat % 128 ≤ 122 then c.toNat - 32 else c.toNat

theorem sortVal_eq_iff (sgn : Bool) {a b : Char} (ha : a.toNat < 256) (hb : b.toNat < 256) :
    sortVal sgn a = sortVal sgn b ↔ foldByte a = foldByte b := by
  have hv : ∀ c : Char, c.toNat < 256 → ∃ v : Nat, v < 256 ∧
      sortVal sgn c = (if sgn ∧ v ≥ 128 then (v : Int) - 256 else v) ∧
      ((v % 128 < 91 ∧ v = foldByte c) ∨ (91 ≤ v % 128 ∧ v % 128 < 97 ∧ v = foldByte c) ∨
        (97 ≤ v % 128 ∧ v % 128 ≤ 101 ∧ v + 26 = foldByte c)) ∧ foldByte c < 256 ∧
      ¬ (97 ≤ foldByte c % 128 ∧ foldByte c % 128 ≤ 122) := by
    intro c hc
    refine ⟨(if c.toNat ≥ 128 then 128 else 0) + ciOrder c.toNat, ?_, rfl, ?_⟩
    · rw [ciOrder_eq]; generalize c.toNat = x at *; simp only []; split_ifs <;> omega
    · rw [ciOrder_eq, foldByte]; generalize c.toNat = x at *; simp only []; split_ifs <;> omega
  obtain ⟨v, hv1, hv2, hv3, hv4, hv5⟩ := hv a ha
  obtain ⟨w, hw1, hw2, hw3, hw4, hw5⟩ := hv b hb
  rw [hv2, hw2]
  generalize foldByte a = x at *
  generalize foldByte b = y at *
  have : ((if sgn ∧ v ≥ 128 then (v : Int) - 256 else v) = (if sgn ∧ w ≥ 128 then (w : Int) - 256 else w)) ↔ v = w := by
    cases sgn
    · simp
    · simp only [true_and]; split_ifs <;> omega
  rw [this]; omega

theorem traitsCompare_lex (sgn : Bool) : ∀ l r : Str,
    (compareS sgn l r < 0 ↔ l.map (sortVal sgn) < r.map (sortVal sgn)) ∧
    (compareS sgn l r = 0 ↔ l.map (sortVal sgn) = r.map (sortVal sgn)) := by
  intro l
  induction l with
  | nil => intro r; cases r with
    | nil => simp [compareS, traitsCompare]
    | cons b r => simp [compareS, traitsCompare]; omega
  | cons a l ih => intro r; cases r with
    | nil => simp [compareS, traitsCompare]; omega
    | cons b r =>
      obtain ⟨h1, h2⟩ := ih r
      simp only [compareS, List.length_cons, Nat.add_min_add_right, traitsCompare, List.map_cons,
        List.cons_lt_cons_iff, List.cons.injEq] at *
      rcases lt_trichotomy (sortVal sgn a) (sortVal sgn b) with h | h | h
      · simp [h, h.ne]
      · simp only [h, lt_irrefl, false_or, true_and, ← h1, ← h2, if_false]
        split_ifs <;> simp
      · simp only [h, not_lt_of_gt h, h.ne', if_true, if_false, false_and, or_self]
        simp
theorem eqS_iff_map (sgn : Bool) (l r : Str) :
    eqS sgn l r = true ↔ l.map (sortVal sgn) = r.map (sortVal sgn) := by
  rw [← (traitsCompare_lex sgn l r).2]
  simp only [eqS, compareS, decide_eq_true_eq]
  constructor
  · rintro ⟨h, h'⟩; rw [← h]; simp [h']
  · intro h
    have hl : l.length = r.length := by
      have := (traitsCompare_lex sgn l r).2.1 h
      simpa using congrArg List.length this
    rw [← hl] at h; simp at h; exact ⟨hl, h⟩

theorem ltS_iff_map (sgn : Bool) (l r : Str) :
    ltS sgn l r = true ↔ l.map (sortVal sgn) < r.map (sortVal sgn) := by
  rw [← (traitsCompare_lex sgn l r).1]; simp [ltS]

theorem map_sortVal_eq_iff (sgn : Bool) {l r : Str} (hl : Bytes l) (hr : Bytes r) :
    l.map (sortVal sgn) = r.map (sortVal sgn) ↔ l.map foldByte = r.map foldByte := by
  induction l generalizing r with
  | nil => cases r <;> simp
  | cons a l ih => cases r with
    | nil => simp
    | cons b r =>
      have h1 := sortVal_eq_iff sgn (hl a (by simp)) (hr b (by simp))
      have h2 := ih (r := r) (fun c hc => hl c (by simp [hc])) (fun c hc => hr c (by simp [hc]))
      simp [h1, h2]

/-- Equality holds exactly when the strings agree byte by byte up to the letter case of the low seven
bits. -/
theorem C15_eq_iff_fold (sgn : Bool) {l r : Str} (hl : Bytes l) (hr : Bytes r) :
    eqS sgn l r = true ↔ l.map foldByte = r.map foldByte := by
  rw [eqS_iff_map, map_sortVal_eq_iff sgn hl hr]

theorem foldByte_ascii {c : Char} (h : c.toNat < 128) : foldByte c = c.toUpper.toNat := by
  have h1 : c.val.toNat < 128 := h
  simp only [foldByte, Char.toUpper, Char.toNat] at *
  by_cases hc : c.val ≥ 97 ∧ c.val ≤ 122
  · have h2 : 97 ≤ c.val.toNat := by simpa [UInt32.le_iff_toNat_le] using hc.1
    have h3 : c.val.toNat ≤ 122 := by simpa [UInt32.le_iff_toNat_le] using hc.2
    rw [if_pos (by omega)]
    have : c.val ≥ 'a'.val ∧ c.val ≤ 'z'.val := hc
    rw [dif_pos this]
    simp only [UInt32.toNat_add]
    have : ('A'.val - 'a'.val).toNat = 4294967264 := by decide
    rw [this]; omega
  · have : ¬ (c.val ≥ 'a'.val ∧ c.val ≤ 'z'.val) := hc
    rw [dif_neg this, if_neg]
    simp only [ge_iff_le, UInt32.le_iff_toNat_le, UInt32.reduceToNat] at hc
    omega

/-- On ASCII strings equality is exactly agreement up to letter case.  Missing for the full claim:
bytes above 127, see `C15_high_bytes_conflated`. -/
theorem C15_eq_ascii_partial (sgn : Bool) {l r : Str} (hl : Ascii l) (hr : Ascii r) :
    eqS sgn l r = true ↔ l.map Char.toUpper = r.map Char.toUpper := by
  rw [C15_eq_iff_fold sgn (fun c hc => (hl c hc).trans (by decide))
    (fun c hc => (hr c hc).trans (by decide))]
  have e : ∀ s : Str, Ascii s → s.map foldByte = (s.map Char.toUpper).map Char.toNat := by
    intro s hs
    rw [List.map_map]
    exact List.map_congr_left fun c hc => foldByte_ascii (hs c hc)
  rw [e l hl, e r hr]
  refine ⟨fun h => ?_, fun h => by rw [h]⟩
  have hinj : Function.Injective Char.toNat := fun a b h => Char.toNat_inj.1 h
  exact List.map_injective_iff.2 hinj h

example : Ascii "Abc_1".toList ∧ Ascii "aBC_1".toList ∧
    eqS true "Abc_1".toList "aBC_1".toList = true ∧ eqS true "a{".toList "A[".toList = false := by
  refine ⟨?_, ?_, by decide +kernel, by decide +kernel⟩ <;> (unfold Ascii; decide +kernel)

/-- The comparison also conflates bytes above 127 that are not ASCII letters: 0xC1 and 0xE1 compare
equal. -/
theorem C15_high_bytes_conflated (sgn : Bool) :
    ∃ l r : Str, Bytes l ∧ Bytes r ∧ l.map Char.toUpper ≠ r.map Char.toUpper ∧
      eqS sgn l r = true := by
  refine ⟨[Char.ofNat 0xC1], [Char.ofNat 0xE1], ?_, ?_, by decide +kernel, ?_⟩
  · unfold Bytes; decide +kernel
  · unfold Bytes; decide +kernel
  · cases sgn <;> decide +kernel

/-- Equality is an equivalence relation. -/
theorem C15_eq_equivalence (sgn : Bool) : Equivalence fun l r => eqS sgn l r = true := by
  refine ⟨fun l => ?_, fun {l r} h => ?_, fun {a b c} h h' => ?_⟩ <;> simp only [eqS_iff_map] at *
  · exact h.symm
  · exact h.trans h'

/-- "Less than" is a strict order, compatible with equality, and total on its classes: exactly one of
`l < r`, `l == r`, `r < l` holds. -/
theorem C15_lt_total (sgn : Bool) (l r : Str) :
    (ltS sgn l r = true ∧ eqS sgn l r = false ∧ ltS sgn r l = false) ∨
    (ltS sgn l r = false ∧ eqS sgn l r = true ∧ ltS sgn r l = false) ∨
    (ltS sgn l r = false ∧ eqS sgn l r = false ∧ ltS sgn r l = true) := by
  simp only [← Bool.not_eq_true, ltS_iff_map, eqS_iff_map]
  rcases lt_trichotomy (l.map (sortVal sgn)) (r.map (sortVal sgn)) with h | h | h
  · exact Or.inl ⟨h, h.ne, not_lt_of_gt h⟩
  · exact Or.inr (Or.inl ⟨by rw [h]; exact lt_irrefl _, h, by rw [h]; exact lt_irrefl _⟩)
  · exact Or.inr (Or.inr ⟨not_lt_of_gt h, h.ne', h⟩)

theorem C15_lt_trans (sgn : Bool) {a b c : Str} (h : ltS sgn a b = true) (h' : ltS sgn b c = true) :
    ltS sgn a c = true := by
  rw [ltS_iff_map] at *; exact h.trans h'

example : ltS true "abc".toList "ABD".toList = true ∧ ltS true "ABD".toList "abda".toList = true := by
  decide +kernel

theorem C15_lt_congr (sgn : Bool) {a a' b b' : Str} (ha : eqS sgn a a' = true)
    (hb : eqS sgn b b' = true) : ltS sgn a b = ltS sgn a' b' := by
  rw [eqS_iff_map] at *
  rw [Bool.eq_iff_iff, ltS_iff_map, ltS_iff_map, ha, hb]

example : eqS true "abc".toList "aBc".toList = true ∧ eqS true "x".toList "X".toList = true := by
  decide +kernel

/-- Entries of a map built by any sequence of insertions. -/
inductive Built {V : Type} (sgn : Bool) : List (Str × V) → Prop
  | empty : Built sgn []
  | insert {m} (k v) : Built sgn m → Built sgn (mapInsert sgn k v m)

theorem mapInsert_keys {V : Type} (sgn : Bool) (k : Str) (v : V) (m : List (Str × V)) :
    ∀ e ∈ mapInsert sgn k v m, e = (k, v) ∨ e ∈ m := by
  induction m with
  | nil => simp [mapInsert]
  | cons e m ih =>
    intro x hx
    simp only [mapInsert] at hx
    split_ifs at hx
    · simpa using hx
    · rcases List.mem_cons.1 hx with h | h
      · right; simp [h]
      · rcases ih x h with h | h
        · exact Or.inl h
        · right; simp [h]
    · right; exact hx

theorem mapInsert_sorted {V : Type} (sgn : Bool) (k : Str) (v : V) (m : List (Str × V))
    (h : m.Pairwise fun a b => ltS sgn a.1 b.1 = true) :
    (mapInsert sgn k v m).Pairwise fun a b => ltS sgn a.1 b.1 = true := by
  induction m with
  | nil => simp [mapInsert]
  | cons e m ih =>
    rw [List.pairwise_cons] at h
    simp only [mapInsert]
    split_ifs with h1 h2
    · refine List.pairwise_cons.2 ⟨fun x hx => ?_, List.pairwise_cons.2 h⟩
      rcases List.mem_cons.1 hx with rfl | hx
      · exact h1
      · exact C15_lt_trans sgn h1 (h.1 x hx)
    · refine List.pairwise_cons.2 ⟨fun x hx => ?_, ih h.2⟩
      rcases mapInsert_keys sgn k v m x hx with rfl | hx
      · exact h2
      · exact h.1 x hx
    · exact List.pairwise_cons.2 h

/-- An ordered map keyed by strings never holds two entries with equal keys, whatever was inserted. -/
theorem C15_map_keys_distinct {V : Type} (sgn : Bool) {m : List (Str × V)} (h : Built sgn m) :
    m.Pairwise fun a b => eqS sgn a.1 b.1 = false := by
  have hs : m.Pairwise fun a b => ltS sgn a.1 b.1 = true := by
    induction h with
    | empty => exact List.Pairwise.nil
    | insert k v _ ih => exact mapInsert_sorted sgn k v _ ih
  refine hs.imp fun {a b} hab => ?_
  rcases C15_lt_total sgn a.1 b.1 with h | h | h
  · exact h.2.1
  · rw [h.1] at hab; cases hab
  · exact h.2.1

example : Built true (mapInsert true "B".toList 2 (mapInsert true "b".toList 1 [])) ∧
    mapInsert true "B".toList 2 (mapInsert true "b".toList 1 []) = [("b".toList, 1)] :=
  ⟨.insert _ _ (.insert _ _ .empty), by decide +kernel⟩

theorem mapFind_iff {V : Type} (sgn : Bool) (k : Str) (k' : Str) :
    (¬ ltS sgn k k' = true ∧ ¬ ltS sgn k' k = true) ↔ eqS sgn k k' = true := by
  rcases C15_lt_total sgn k k' with h | h | h <;> simp [h]

/-- Looking up a key after inserting it finds the first value inserted under an equal key. -/
theorem C15_map_find_insert {V : Type} (sgn : Bool) (k : Str) (v : V) {m : List (Str × V)}
    (h : Built sgn m) (k' : Str) : mapFind sgn k' (mapInsert sgn k v m) =
      if eqS sgn k' k = true ∧ mapFind sgn k m = none then some v else mapFind sgn k' m := by
  have hs : m.Pairwise fun a b => ltS sgn a.1 b.1 = true := by
    induction h with
    | empty => exact List.Pairwise.nil
    | insert k v _ ih => exact mapInsert_sorted sgn k v _ ih
  clear h
  induction m with
  | nil => simp only [mapInsert, mapFind, mapFind_iff (V := V)]; simp
  | cons e m ih =>
    rw [List.pairwise_cons] at hs
    have hnone : ∀ x, ltS sgn x e.1 = true → mapFind sgn x m = none := by
      intro x hx
      have : ∀ y ∈ m, ltS sgn x y.1 = true := fun y hy => C15_lt_trans sgn hx (hs.1 y hy)
      clear ih hs hx
      induction m with
      | nil => rfl
      | cons y m ih =>
        rw [mapFind, if_neg (by simp [this y (by simp)])]
        exact ih fun z hz => this z (by simp [hz])
    have hcong : eqS sgn k' k = true → (eqS sgn k' e.1 = eqS sgn k e.1) := by
      intro h
      rw [Bool.eq_iff_iff]; simp only [eqS_iff_map] at *; rw [h]
    simp only [mapInsert]
    rcases C15_lt_total sgn k e.1 with h | h | h
    · rw [if_pos h.1]
      simp only [mapFind, mapFind_iff (V := V), h.2.1, hnone k h.1]
      by_cases he : eqS sgn k' k = true <;> simp [he]
    · rw [if_neg (by simp [h.1]), if_neg (by simp [h.2.2])]
      simp only [mapFind, mapFind_iff (V := V), h.2.1]
      simp
    · rw [if_neg (by simp [h.1]), if_pos h.2.2]
      simp only [mapFind, mapFind_iff (V := V), h.2.1, ih hs.2]
      by_cases he : eqS sgn k' k = true
      · simp [he, hcong he, h.2.1]
      · simp [he]

example : Built true (mapInsert true "b".toList 1 []) ∧
    mapFind true "B".toList (mapInsert true "b".toList 1 []) = some 1 :=
  ⟨.insert _ _ .empty, by decide +kernel⟩

/-! ## C16 -/

theorem toUpper_spec (c : Char) : (97 ≤ c.toNat ∧ c.toNat ≤ 122 ∧ c.toUpper.toNat = c.toNat - 32) ∨
    (¬ (97 ≤ c.toNat ∧ c.toNat ≤ 122) ∧ c.toUpper = c) := by
  by_cases h : 97 ≤ c.toNat ∧ c.toNat ≤ 122
  · left
    have : ∀ k : Fin 123, 97 ≤ k.1 → (Char.ofNat k.1).toUpper.toNat = k.1 - 32 := by decide +kernel
    have := this ⟨c.toNat, by omega⟩ h.1
    exact ⟨h.1, h.2, by simpa using this⟩
  · right
    refine ⟨h, ?_⟩
    rw [Char.toUpper, dif_neg]
    intro hc
    apply h
    have h2 : 97 ≤ c.val.toNat := by simpa [UInt32.le_iff_toNat_le] using hc.1
    have h3 : c.val.toNat ≤ 122 := by simpa [UInt32.le_iff_toNat_le] using hc.2
    exact ⟨h2, h3⟩

theorem toUpper_idem (c : Char) : c.toUpper.toUpper = c.toUpper := by
  rcases toUpper_spec c with h | h
  · rcases toUpper_spec c.toUpper with h' | h'
    · omega
    · exact h'.2
  · rw [h.2, h.2]

theorem isFluff_toUpper (c : Char) : isFluff c.toUpper = isFluff c := by
  rcases toUpper_spec c with h | h
  · have : ∀ k : Fin 123, 97 ≤ k.1 → isFluff (Char.ofNat k.1).toUpper = isFluff (Char.ofNat k.1) := by
      decide +kernel
    have := this ⟨c.toNat, by omega⟩ h.1
    simpa using this
  · rw [h.2]

/-- Condensing is idempotent. -/
theorem C16_idempotent (s : Str) : condensed (condensed s) = condensed s := by
  unfold condensed
  rw [List.filter_map, List.map_map, List.filter_filter]
  have h1 : (s.filter fun a => ((fun c => !isFluff c) ∘ Char.toUpper) a && !isFluff a) =
      s.filter fun c => !isFluff c := by
    apply List.filter_congr; intro c _; simp [isFluff_toUpper]
  rw [h1]
  apply List.map_congr_left; intro c _; exact toUpper_idem c

/-- The condensed text has no blanks, tabs, underscores or lower-case letters, and keeps the other
characters in order. -/
theorem C16_condensed_spec (s : Str) :
    (∀ c ∈ condensed s, c ≠ ' ' ∧ c ≠ '\t' ∧ c ≠ '_' ∧ ¬ c.isLower) ∧
    condensed s = (s.map Char.toUpper).filter (fun c => c ≠ ' ' && c ≠ '\t' && c ≠ '_') := by
  have h2 : condensed s = (s.map Char.toUpper).filter (fun c => c ≠ ' ' && c ≠ '\t' && c ≠ '_') := by
    rw [List.filter_map, condensed]
    congr 1
    apply List.filter_congr
    intro c _
    have : (!isFluff c) = !isFluff c.toUpper := by rw [isFluff_toUpper]
    rw [this]
    simp [isFluff, Bool.and_assoc]
  refine ⟨fun c hc => ?_, h2⟩
  rw [h2, List.mem_filter] at hc
  obtain ⟨h, h3⟩ := hc
  obtain ⟨d, _, rfl⟩ := List.mem_map.1 h
  simp only [ne_eq, decide_not, Bool.and_eq_true, Bool.not_eq_true', decide_eq_false_iff_not] at h3
  refine ⟨h3.1.1, h3.1.2, h3.2, ?_⟩
  intro hlow
  have hlow' : 97 ≤ d.toUpper.toNat ∧ d.toUpper.toNat ≤ 122 := by
    simp only [Char.isLower, Bool.and_eq_true, decide_eq_true_eq, ge_iff_le, UInt32.le_iff_toNat_le] at hlow
    exact hlow
  rcases toUpper_spec d with h4 | h4
  · omega
  · rw [h4.2] at hlow'; exact h4.1 hlow'

/-- `Equivalent(lhs, rhs)` holds exactly when the condensed `lhs` is equal to `rhs` as a
case-insensitive string: for every `rhs`, condensed or not. -/
theorem C16_equivalent_iff (sgn : Bool) (lhs rhs : Str) (hl : Ascii lhs) :
    equivalent sgn lhs rhs = true ↔ eqS sgn (condensed lhs) rhs = true := by
  have hsv : ∀ c : Char, c.toNat < 128 → sortVal sgn c.toUpper = sortVal sgn c := by
    intro c hc
    have : ∀ k : Fin 128, sortVal sgn (Char.ofNat k.1).toUpper = sortVal sgn (Char.ofNat k.1) := by
      cases sgn <;> decide +kernel
    simpa using this ⟨c.toNat, hc⟩
  rw [eqS_iff_map]
  induction lhs generalizing rhs with
  | nil =>
    cases rhs <;> simp [equivalent, condensed]
  | cons c l ih =>
    have hl' : Ascii l := fun d hd => hl d (by simp [hd])
    rw [equivalent.eq_def]
    by_cases hf : isFluff c = true
    · simp only [hf, if_true]
      refine (ih rhs hl').trans ?_
      simp [condensed, hf]
    · simp only [hf]
      cases rhs with
      | nil => simp [condensed, hf]
      | cons d r =>
        have e : condensed (c :: l) = c.toUpper :: condensed l := by simp [condensed, hf]
        rw [e]
        simp only [List.map_cons, List.cons.injEq, hsv c (hl c (by simp)), ← ih r hl']
        by_cases h : sortVal sgn c = sortVal sgn d <;> simp [h]

example : Ascii "a_B c".toList ∧ equivalent true "a_B c".toList "ABC".toList = true ∧
    equivalent true "a_B c".toList "ABCD".toList = false := by
  refine ⟨by unfold Ascii; decide +kernel, by decide +kernel, by decide +kernel⟩

/-- For a condensed ASCII `rhs` this is plain equality with the condensed text. -/
theorem C16_equivalent_condensed (sgn : Bool) (lhs rhs : Str) (hl : Ascii lhs) (hr : Ascii rhs)
    (hc : condensed rhs = rhs) : equivalent sgn lhs rhs = true ↔ condensed lhs = rhs := by
  have up : ∀ s, Ascii s → Ascii (condensed s) := by
    intro s hs c hc
    obtain ⟨d, hd, rfl⟩ := List.mem_map.1 hc
    have hd' := hs d (List.mem_of_mem_filter hd)
    have : ∀ k : Fin 128, (Char.ofNat k.1).toUpper.toNat < 128 := by decide +kernel
    simpa using this ⟨d.toNat, hd'⟩
  have fix : ∀ s, (condensed s).map Char.toUpper = condensed s := by
    intro s; simp [condensed, toUpper_idem]
  rw [C16_equivalent_iff sgn lhs rhs hl, C15_eq_ascii_partial sgn (up lhs hl) hr, fix]
  constructor
  · intro h; rw [h, ← hc, fix]
  · intro h; rw [← h, fix]

example : Ascii " no_Name ".toList ∧ Ascii "NONAME".toList ∧ condensed "NONAME".toList = "NONAME".toList ∧
    condensed " no_Name ".toList = "NONAME".toList := by
  refine ⟨by unfold Ascii; decide +kernel, by unfold Ascii; decide +kernel, by decide +kernel,
    by decide +kernel⟩

/-! ## C17 -/

/-- The rank of a reversed name: its trailing digits read in bijective notation. -/
def rankRev : Str → Nat
  | [] => 0
  | c :: r => if '0' ≤ c ∧ c ≤ '9' then (c.toNat - 48) + 1 + 10 * rankRev r else 0

theorem char_le {a b : Char} : a ≤ b ↔ a.toNat ≤ b.toNat := by
  rw [Char.le_def, UInt32.le_iff_toNat_le]; rfl

theorem rankRev_next (s : Str) : rankRev s < rankRev (nextRev s) := by
  induction s with
  | nil => decide
  | cons c r ih =>
    unfold nextRev
    split_ifs with h1 h2
    · subst h1
      have e1 : rankRev ('9' :: r) = 10 + 10 * rankRev r := by simp [rankRev]
      have e2 : rankRev ('0' :: nextRev r) = 1 + 10 * rankRev (nextRev r) := by simp [rankRev]
      omega
    · have h48 : 48 ≤ c.toNat := char_le.1 h2.1
      have h56 : c.toNat ≤ 56 := char_le.1 h2.2
      have hv : (Char.ofNat (c.toNat + 1)).toNat = c.toNat + 1 := by
        have : ∀ k : Fin 57, (Char.ofNat (k.1 + 1)).toNat = k.1 + 1 := by decide +kernel
        exact this ⟨c.toNat, by omega⟩
      have e1 : rankRev (c :: r) = c.toNat - 48 + 1 + 10 * rankRev r := by
        rw [rankRev, if_pos ⟨h2.1, char_le.2 (h56.trans (by decide))⟩]
      have e2 : rankRev (Char.ofNat (c.toNat + 1) :: r) = c.toNat + 1 - 48 + 1 + 10 * rankRev r := by
        rw [rankRev, if_pos, hv]
        exact ⟨char_le.2 (by rw [hv]; exact h48.trans (by omega)),
          char_le.2 (by rw [hv]; exact (show c.toNat + 1 ≤ 57 by omega))⟩
      omega
    · have e : rankRev (c :: r) = 0 := by
        rw [rankRev, if_neg]
        rintro ⟨h3, h4⟩
        apply h2
        refine ⟨h3, char_le.2 ?_⟩
        have h4' : c.toNat ≤ 57 := char_le.1 h4
        have : c.toNat ≠ 57 := fun h => h1 (Char.toNat_inj.1 h)
        exact show c.toNat ≤ 56 by omega
      rw [e, rankRev, if_pos (by decide)]
      omega

theorem rankRev_congr (sgn : Bool) {l r : Str} (h : l.map (sortVal sgn) = r.map (sortVal sgn))
    (hl : Bytes l) (hr : Bytes r) : rankRev l = rankRev r := by
  induction l generalizing r with
  | nil => cases r <;> simp_all
  | cons a l ih => cases r with
    | nil => simp at h
    | cons b r =>
      simp only [List.map_cons, List.cons.injEq] at h
      have e := (sortVal_eq_iff sgn (hl a (by simp)) (hr b (by simp))).1 h.1
      have ih' := ih h.2 (fun c hc => hl c (by simp [hc])) (fun c hc => hr c (by simp [hc]))
      have hd : ∀ c : Char, ('0' ≤ c ∧ c ≤ '9') ↔ (48 ≤ foldByte c ∧ foldByte c ≤ 57 ∧ foldByte c = c.toNat) := by
        intro c
        rw [char_le, char_le]
        change (48 ≤ c.toNat ∧ c.toNat ≤ 57) ↔ _
        unfold foldByte; split_ifs <;> omega
      have hd2 : ('0' ≤ a ∧ a ≤ '9') ↔ ('0' ≤ b ∧ b ≤ '9') := by
        have ha := hl a (by simp)
        have hb := hr b (by simp)
        rw [char_le, char_le, char_le, char_le]
        change (48 ≤ a.toNat ∧ a.toNat ≤ 57) ↔ (48 ≤ b.toNat ∧ b.toNat ≤ 57)
        unfold foldByte at e
        generalize a.toNat = x at *
        generalize b.toNat = y at *
        split_ifs at e <;> omega
      simp only [rankRev]
      by_cases h0 : '0' ≤ a ∧ a ≤ '9'
      · rw [if_pos h0, if_pos (hd2.1 h0), ih']
        have h1 := (hd a).1 h0
        have h2 := (hd b).1 (hd2.1 h0)
        omega
      · rw [if_neg h0, if_neg (hd2.not.1 h0)]

theorem iter_rank (s : Str) (n : Nat) :
    rankRev (nextName^[n] s).reverse + 1 ≤ rankRev (nextName^[n + 1] s).reverse := by
  rw [Function.iterate_succ_apply', nextName, List.reverse_reverse]
  exact rankRev_next _

theorem iter_rank_mono (s : Str) (i k : Nat) :
    rankRev (nextName^[i] s).reverse + k ≤ rankRev (nextName^[i + k] s).reverse := by
  induction k with
  | zero => simp
  | succ k ih => have := iter_rank s (i + k); rw [show i + (k + 1) = i + k + 1 from rfl]; omega

theorem nextRev_bytes {s : Str} (h : Bytes s) : Bytes (nextRev s) := by
  induction s with
  | nil => unfold Bytes; decide +kernel
  | cons c r ih =>
    have hr : Bytes r := fun d hd => h d (by simp [hd])
    have hcons : ∀ (d : Char) (t : Str), d.toNat < 256 → Bytes t → Bytes (d :: t) := by
      intro d t hd ht x hx
      rcases List.mem_cons.1 hx with rfl | hx
      · exact hd
      · exact ht x hx
    unfold nextRev
    split_ifs with h1 h2
    · exact hcons _ _ (by decide) (ih hr)
    · have h56 : c.toNat ≤ 56 := char_le.1 h2.2
      have : ∀ k : Fin 57, (Char.ofNat (k.1 + 1)).toNat < 256 := by decide +kernel
      exact hcons _ _ (this ⟨c.toNat, by omega⟩) hr
    · exact hcons _ _ (by decide) h

theorem iter_bytes {s : Str} (h : Bytes s) (n : Nat) : Bytes (nextName^[n] s) := by
  induction n with
  | zero => exact h
  | succ n ih =>
    rw [Function.iterate_succ_apply']
    intro c hc
    have := nextRev_bytes (s := (nextName^[n] s).reverse) (fun d hd => ih d (List.mem_reverse.1 hd))
    exact this c (List.mem_reverse.1 hc)

/-- The names obtained from any starting name by repeatedly asking for the next one are pairwise
different, even as case-insensitive strings. -/
theorem C17_never_repeats (sgn : Bool) (s : Str) (hs : Bytes s) {i j : Nat} (hij : i < j) :
    eqS sgn (nextName^[i] s) (nextName^[j] s) = false := by
  rw [← Bool.not_eq_true, eqS_iff_map]
  intro h
  obtain ⟨k, rfl⟩ : ∃ k, j = i + k := ⟨j - i, by omega⟩
  have h1 := iter_rank_mono s i k
  have h2 : (nextName^[i] s).reverse.map (sortVal sgn) =
      (nextName^[i + k] s).reverse.map (sortVal sgn) := by rw [List.map_reverse, List.map_reverse, h]
  have h3 := rankRev_congr sgn h2 (fun c hc => iter_bytes hs i c (List.mem_reverse.1 hc))
    (fun c hc => iter_bytes hs (i + k) c (List.mem_reverse.1 hc))
  omega

example : Bytes "run9".toList ∧ nextName^[2] "run9".toList = "run11".toList := by
  refine ⟨by unfold Bytes; decide +kernel, by decide +kernel⟩

/-- The part of the name before its trailing digits is kept, only digits are added or changed, and the
name never gets shorter. -/
theorem C17_keeps_prefix (p d : Str) (hp : ∀ c, p.getLast? = some c → ¬ ('0' ≤ c ∧ c ≤ '9'))
    (hd : ∀ c ∈ d, '0' ≤ c ∧ c ≤ '9') :
    ∃ d', nextName (p ++ d) = p ++ d' ∧ d.length ≤ d'.length ∧ ∀ c ∈ d', '0' ≤ c ∧ c ≤ '9' := by
  have key : ∀ e q : Str, (∀ c, q.head? = some c → ¬ ('0' ≤ c ∧ c ≤ '9')) →
      (∀ c ∈ e, '0' ≤ c ∧ c ≤ '9') → ∃ e', nextRev (e ++ q) = e' ++ q ∧ e.length ≤ e'.length ∧
        ∀ c ∈ e', '0' ≤ c ∧ c ≤ '9' := by
    intro e q hq
    induction e with
    | nil =>
      intro _
      cases q with
      | nil => exact ⟨['0'], by simp [nextRev], by simp, by decide⟩
      | cons a q =>
        have ha := hq a rfl
        refine ⟨['1'], ?_, by simp, by decide⟩
        rw [List.nil_append, nextRev, if_neg, if_neg]
        · rfl
        · rintro ⟨h1, h2⟩
          exact ha ⟨h1, char_le.2 ((char_le.1 h2).trans (by decide))⟩
        · rintro rfl; exact ha (by decide)
    | cons a e ih =>
      intro he
      obtain ⟨e', h1, h2, h3⟩ := ih fun c hc => he c (by simp [hc])
      have ha := he a (by simp)
      rw [List.cons_append, nextRev]
      split_ifs with h4 h5
      · refine ⟨'0' :: e', by rw [h1]; rfl, by simp; exact h2, ?_⟩
        intro c hc
        rcases List.mem_cons.1 hc with rfl | hc
        · decide
        · exact h3 c hc
      · refine ⟨Char.ofNat (a.toNat + 1) :: e, rfl, by simp, ?_⟩
        intro c hc
        rcases List.mem_cons.1 hc with rfl | hc
        · have h48 : 48 ≤ a.toNat := char_le.1 h5.1
          have h56 : a.toNat ≤ 56 := char_le.1 h5.2
          have : ∀ k : Fin 57, 48 ≤ k.1 → '0' ≤ (Char.ofNat (k.1 + 1)) ∧ (Char.ofNat (k.1 + 1)) ≤ '9' := by
            decide +kernel
          exact this ⟨a.toNat, by omega⟩ h48
        · exact he c (by simp [hc])
      · exfalso
        apply h5
        refine ⟨ha.1, char_le.2 ?_⟩
        have h6 : a.toNat ≤ 57 := char_le.1 ha.2
        have : a.toNat ≠ 57 := fun h => h4 (Char.toNat_inj.1 h)
        exact show a.toNat ≤ 56 by omega
  obtain ⟨e', h1, h2, h3⟩ := key d.reverse p.reverse (by rw [List.head?_reverse]; exact hp)
    (fun c hc => hd c (List.mem_reverse.1 hc))
  refine ⟨e'.reverse, ?_, by simpa using h2, fun c hc => h3 c (List.mem_reverse.1 hc)⟩
  rw [nextName, List.reverse_append, h1, List.reverse_append, List.reverse_reverse]

example : (∀ c, "run".toList.getLast? = some c → ¬ ('0' ≤ c ∧ c ≤ '9')) ∧
    (∀ c ∈ "99".toList, '0' ≤ c ∧ c ≤ '9') ∧ nextName "run99".toList = "run100".toList := by
  decide +kernel

/-! ## C18 -/

section
variable {α : Type} [DecidableEq α]

theorem rest_length (sep : α) (s : List α) (h : s ≠ []) :
    ((s.dropWhile (· ≠ sep)).tail).length < s.length := by
  have h1 : (s.dropWhile (· ≠ sep)).length ≤ s.length := (List.dropWhile_suffix _).length_le
  have h2 : 0 < s.length := List.length_pos_iff.2 h
  rw [List.length_tail]; omega

theorem splitLoop_fuel (sep : α) (keep : Bool) : ∀ (n : Nat) (s : List α), s.length ≤ n →
    splitLoop sep keep n s = split sep keep s := by
  have key : ∀ (m n k : Nat) (s : List α), s.length ≤ m → s.length ≤ n → s.length ≤ k →
      splitLoop sep keep n s = splitLoop sep keep k s := by
    intro m
    induction m with
    | zero =>
      intro n k s h _ _
      have : s = [] := List.length_eq_zero_iff.1 (by omega)
      subst this
      cases n <;> cases k <;> simp [splitLoop]
    | succ m ih =>
      intro n k s h hn hk
      by_cases hs : s = []
      · subst hs; cases n <;> cases k <;> simp [splitLoop]
      · have hl := rest_length sep s hs
        have hp : 0 < s.length := List.length_pos_iff.2 hs
        obtain ⟨n, rfl⟩ : ∃ a, n = a + 1 := ⟨n - 1, by omega⟩
        obtain ⟨k, rfl⟩ : ∃ a, k = a + 1 := ⟨k - 1, by omega⟩
        simp only [splitLoop]
        rw [ih n k _ (by omega) (by omega) (by omega)]
  intro n s h
  exact key n n s.length s h h le_rfl

theorem split_nil (sep : α) (keep : Bool) : split sep keep [] = [] := rfl

theorem split_step (sep : α) (keep : Bool) (s : List α) (h : s ≠ []) : split sep keep s =
    if s.takeWhile (· ≠ sep) = [] ∧ !keep then split sep keep (s.dropWhile (· ≠ sep)).tail
    else s.takeWhile (· ≠ sep) :: split sep keep (s.dropWhile (· ≠ sep)).tail := by
  have hl := rest_length sep s h
  obtain ⟨a, s', rfl⟩ := List.exists_cons_of_ne_nil h
  have : split sep keep (a :: s') = splitLoop sep keep (s'.length + 1) (a :: s') := rfl
  rw [this, splitLoop, if_neg h]
  simp only [List.length_cons] at hl
  simp only [splitLoop_fuel sep keep s'.length _ (Nat.le_of_lt_succ hl)]

theorem split_piece (sep : α) (keep : Bool) (p r : List α) (hp : sep ∉ p) :
    split sep keep (p ++ sep :: r) =
      if p = [] ∧ !keep then split sep keep r else p :: split sep keep r := by
  have h1 : (p ++ sep :: r).takeWhile (· ≠ sep) = p := by
    rw [List.takeWhile_append_of_pos (by intro x hx; simp; rintro rfl; exact hp hx)]; simp
  have h2 : (p ++ sep :: r).dropWhile (· ≠ sep) = sep :: r := by
    rw [List.dropWhile_append_of_pos (by intro x hx; simp; rintro rfl; exact hp hx)]; simp
  rw [split_step _ _ _ (by simp), h1, h2]; rfl

theorem split_last (sep : α) (keep : Bool) (p : List α) (hp : sep ∉ p) :
    split sep keep p = if p = [] then [] else [p] := by
  by_cases h : p = []
  · simp [h, split_nil]
  · have h1 : p.takeWhile (· ≠ sep) = p := by
      apply List.takeWhile_eq_self_iff.2; intro x hx; simp; rintro rfl; exact hp hx
    have h2 : p.dropWhile (· ≠ sep) = [] := by
      apply List.dropWhile_eq_nil_iff.2; intro x hx; simp; rintro rfl; exact hp hx
    rw [split_step _ _ _ h, h1, h2, if_neg (by simp [h]), if_neg h]; rfl

omit [DecidableEq α] in
theorem foldl_joiner (sep : List α) (q : List α) (ps : List (List α)) :
    ps.foldl (joiner sep false) q = q ++ (ps.map (sep ++ ·)).flatten := by
  induction ps generalizing q with
  | nil => simp
  | cons p ps ih => rw [List.foldl_cons, ih]; simp [joiner]

omit [DecidableEq α] in
theorem acc_cons (sep : List α) (p q : List α) (ps : List (List α)) :
    accumulate sep false (p :: q :: ps) = p ++ (sep ++ accumulate sep false (q :: ps)) := by
  simp only [accumulate, foldl_joiner, List.map_cons, List.flatten_cons, List.append_assoc]

/-- Joining without skipping empties is the usual "intercalate". -/
theorem C18_join_spec {β : Type} (sep : List β) (ps : List (List β)) :
    accumulate sep false ps = sep.intercalate ps := by
  cases ps with
  | nil => rfl
  | cons p ps =>
    induction ps generalizing p with
    | nil => simp [accumulate, List.intercalate]
    | cons q ps ih => rw [acc_cons, ih]; simp [List.intercalate]

/-- Joining with the default options equals joining the non-empty pieces. -/
theorem C18_join_skip {β : Type} (sep : List β) (ps : List (List β)) :
    accumulate sep true ps = sep.intercalate (ps.filter (fun p => !p.isEmpty)) := by
  rw [← C18_join_spec]
  have key : ∀ (ps : List (List β)) (q : List β), q ≠ [] →
      ps.foldl (joiner sep true) q = (ps.filter fun p => !p.isEmpty).foldl (joiner sep false) q := by
    intro ps
    induction ps with
    | nil => simp
    | cons p ps ih =>
      intro q hq
      rw [List.foldl_cons]
      by_cases hp : p = []
      · subst hp
        rw [List.filter_cons_of_neg (by simp)]
        have : joiner sep true q [] = q := by simp [joiner]
        rw [this, ih q hq]
      · rw [List.filter_cons_of_pos (by simpa using hp), List.foldl_cons]
        have : joiner sep true q p = joiner sep false q p := by simp [joiner, hq, hp]
        rw [this]; exact ih _ (by simp [joiner, hp])
  induction ps with
  | nil => rfl
  | cons p ps ih =>
    by_cases hp : p = []
    · subst hp
      rw [List.filter_cons_of_neg (by simp), ← ih]
      cases ps with
      | nil => rfl
      | cons q ps => simp [accumulate, joiner]
    · rw [List.filter_cons_of_pos (by simpa using hp)]
      simp only [accumulate]
      exact key ps p hp

/-- Keeping empties, splitting joined pieces returns them, provided the last one is not empty. -/
theorem C18_split_join (sep : α) (ps : List (List α)) (hs : ∀ p ∈ ps, sep ∉ p)
    (hl : ps.getLast? ≠ some []) : split sep true (accumulate [sep] false ps) = ps := by
  cases ps with
  | nil => rfl
  | cons p ps =>
    induction ps generalizing p with
    | nil =>
      have : p ≠ [] := by simpa using hl
      simp [accumulate, split_last _ _ p (hs p (by simp)), this]
    | cons q ps ih =>
      rw [acc_cons]
      have := split_piece sep true p (accumulate [sep] false (q :: ps)) (hs p (by simp))
      rw [List.singleton_append, this, if_neg (by simp),
        ih q (fun x hx => hs x (by simp [List.mem_cons.1 hx])) (by simpa using hl)]

example : (∀ p ∈ ["a".toList, [], "bc".toList], ',' ∉ p) ∧
    (["a".toList, [], "bc".toList] : List Str).getLast? ≠ some [] ∧
    accumulate [','] false ["a".toList, [], "bc".toList] = "a,,bc".toList := by decide +kernel

/-- A trailing empty piece is lost: the exact result for every list of pieces. -/
theorem C18_split_join_trailing (sep : α) (ps : List (List α)) (hs : ∀ p ∈ ps, sep ∉ p) :
    split sep true (accumulate [sep] false (ps ++ [[]])) = ps := by
  cases ps with
  | nil => rfl
  | cons p ps =>
    induction ps generalizing p with
    | nil =>
      have h : accumulate [sep] false ([p] ++ [[]]) = p ++ sep :: [] := by simp [accumulate, joiner]
      rw [h, split_piece sep true p [] (hs p (by simp))]
      simp [split_nil]
    | cons q ps ih =>
      have h : accumulate [sep] false (p :: q :: ps ++ [[]]) =
          p ++ sep :: accumulate [sep] false (q :: ps ++ [[]]) := by
        have := acc_cons [sep] p q (ps ++ [[]])
        simpa using this
      rw [h, split_piece sep true p _ (hs p (by simp)), if_neg (by simp),
        ih q (fun x hx => hs x (by simp [List.mem_cons.1 hx]))]

example : (∀ p ∈ ["a".toList, "b".toList], ',' ∉ p) ∧
    split ',' true "a,b,".toList = ["a".toList, "b".toList] := by decide +kernel

/-- Dropping empties, splitting joined pieces returns the non-empty ones. -/
theorem C18_split_join_drop (sep : α) (ps : List (List α)) (hs : ∀ p ∈ ps, sep ∉ p) :
    split sep false (accumulate [sep] false ps) = ps.filter (fun p => !p.isEmpty) := by
  cases ps with
  | nil => rfl
  | cons p ps =>
    induction ps generalizing p with
    | nil =>
      rw [show accumulate [sep] false [p] = p from rfl, split_last _ _ p (hs p (by simp))]
      by_cases h : p = [] <;> simp [h]
    | cons q ps ih =>
      rw [acc_cons, List.singleton_append, split_piece sep false p _ (hs p (by simp)),
        ih q (fun x hx => hs x (by simp [List.mem_cons.1 hx]))]
      by_cases h : p = [] <;> simp [h, List.filter_cons]

example : (∀ p ∈ ["a".toList, [], "b".toList, []], ',' ∉ p) ∧
    split ',' false "a,,b,".toList = ["a".toList, "b".toList] := by decide +kernel

/-- Splitting (keeping empties) and joining restores the text, up to one trailing separator; every
piece is free of the separator. -/
theorem C18_join_split (sep : α) (s : List α) :
    (accumulate [sep] false (split sep true s) = s ∨
      accumulate [sep] false (split sep true s) ++ [sep] = s) ∧
    (s.getLast? ≠ some sep → accumulate [sep] false (split sep true s) = s) ∧
    ∀ p ∈ split sep true s, sep ∉ p := by
  induction hn : s.length using Nat.strong_induction_on generalizing s with
  | _ n ih =>
    by_cases hs : sep ∈ s
    · obtain ⟨p, r, hp, rfl⟩ : ∃ p r, sep ∉ p ∧ s = p ++ sep :: r := by
        obtain ⟨p, r, h1, h2⟩ := List.eq_append_cons_of_mem hs
        exact ⟨p, r, h2, h1⟩
      have hlen : r.length < n := by rw [← hn]; simp; omega
      obtain ⟨h1, h2, h3⟩ := ih r.length hlen r rfl
      rw [split_piece sep true p r hp, if_neg (by simp)]
      have hmem : ∀ x ∈ p :: split sep true r, sep ∉ x := by
        intro x hx
        rcases List.mem_cons.1 hx with rfl | hx
        · exact hp
        · exact h3 x hx
      by_cases hr : r = []
      · subst hr
        rw [split_nil]
        refine ⟨Or.inr (by simp [accumulate]), fun h => absurd (by simp) h, by simpa using hp⟩
      · obtain ⟨q, qs, hq⟩ : ∃ q qs, split sep true r = q :: qs := by
          rw [split_step _ _ _ hr, if_neg (by simp)]; exact ⟨_, _, rfl⟩
        have hj : accumulate [sep] false (p :: split sep true r) =
            p ++ (sep :: accumulate [sep] false (split sep true r)) := by
          rw [hq, acc_cons]; rfl
        refine ⟨?_, ?_, hmem⟩
        · rw [hj]
          rcases h1 with h | h
          · left; rw [h]
          · right; conv_rhs => rw [← h]
            simp
        · intro hl
          rw [hj, h2]
          have : (p ++ sep :: r).getLast? = r.getLast? := by
            rw [List.getLast?_append_of_ne_nil _ (by simp), List.getLast?_cons]
            cases h : r.getLast? with
            | none => exact absurd (List.getLast?_eq_none_iff.1 h) hr
            | some x => simp
          rwa [this] at hl
    · rw [split_last _ _ s hs]
      by_cases h : s = []
      · subst h; simp [accumulate]
      · simp [h, accumulate, hs]

example : split ',' true "a,,b".toList = ["a".toList, [], "b".toList] ∧
    "a,,b".toList.getLast? ≠ some ',' := by decide +kernel

end

/-! ## C19 -/

/-- A boolean vector written to a cell and read back is the same vector. -/
theorem C19_roundtrip (v : List Bool) : cellToBoolVector (.string (fromBoolVector v)) = some v := by
  have h1 : ',' ∉ fromBoolVector v := by
    intro h; obtain ⟨b, _, hb⟩ := List.mem_map.1 h; cases b <;> simp at hb
  have hup : (fromBoolVector v).map Char.toUpper = fromBoolVector v := by
    rw [fromBoolVector, List.map_map]
    apply List.map_congr_left; intro b _; cases b <;> decide
  have h2 : testTrue (fromBoolVector v) = false := by
    rw [testTrue, hup, decide_eq_false_iff_not]
    intro h
    have : 'R' ∈ fromBoolVector v := by rw [h]; simp
    obtain ⟨b, _, hb⟩ := List.mem_map.1 this; cases b <;> simp at hb
  have h3 : testFalse (fromBoolVector v) = false := by
    rw [testFalse, hup, decide_eq_false_iff_not]
    intro h
    have : 'A' ∈ fromBoolVector v := by rw [h]; simp
    obtain ⟨b, _, hb⟩ := List.mem_map.1 this; cases b <;> simp at hb
  rw [cellToBoolVector, toBoolVector, if_neg h1, h2, h3]
  simp only [Bool.false_eq_true, if_false]
  induction v with
  | nil => rfl
  | cons b v ih =>
    have e : fromBoolVector (b :: v) = (if b then 'T' else 'F') :: fromBoolVector v := rfl
    rw [e, List.mapM_cons]
    have : ∀ v : List Bool, (fromBoolVector v).mapM charToBool = some v := by
      intro v; induction v with
      | nil => rfl
      | cons b v ih =>
        rw [show fromBoolVector (b :: v) = (if b then 'T' else 'F') :: fromBoolVector v from rfl,
          List.mapM_cons, ih]
        cases b <;> simp [charToBool]
    rw [this]
    cases b <;> simp [charToBool]

/-- Comma-separated words read as the vector they spell, for any spelling of each word. -/
theorem C19_comma_list (ws : List Str) (bs : List Bool) (h : ws.mapM Strings.toBool = some bs)
    (h2 : 2 ≤ ws.length) (hc : ∀ w ∈ ws, ',' ∉ w) :
    toBoolVector (accumulate [','] false ws) = some bs := by
  have hne : ∀ w ∈ ws, w ≠ [] := by
    intro w hw hn
    subst hn
    have : ∀ (ws : List Str) bs, ws.mapM Strings.toBool = some bs → [] ∉ ws := by
      intro ws
      induction ws with
      | nil => simp
      | cons w ws ih =>
        intro bs hb hm
        rw [List.mapM_cons] at hb
        cases hw : Strings.toBool w with
        | none => rw [hw] at hb; simp at hb
        | some b =>
          rw [hw] at hb
          cases hr : ws.mapM Strings.toBool with
          | none => rw [hr] at hb; simp at hb
          | some r =>
            rcases List.mem_cons.1 hm with h | h
            · subst h; simp [Strings.toBool] at hw
            · exact ih r hr h
    exact this ws bs h hw
  obtain ⟨a, b, l, rfl⟩ : ∃ a b l, ws = a :: b :: l := by
    match ws, h2 with
    | a :: b :: l, _ => exact ⟨a, b, l, rfl⟩
  rw [toBoolVector, if_pos (by rw [acc_cons]; simp), C18_split_join ',' _ hc, h]
  intro hl
  exact hne [] (List.mem_of_getLast? hl) rfl

example : ["true".toList, "N".toList, "FALSE".toList, "1".toList].mapM Strings.toBool =
    some [true, false, false, true] := by decide +kernel

/-- The words for a boolean, without regard to case. -/
def boolWords (b : Bool) : List (List Char) := if b then ["T".toList, "Y".toList, "1".toList, "TRUE".toList] else ["F".toList, "N".toList, "0".toList, "FALSE".toList]

theorem upper_cases (c : Char) : c.toUpper = c ∨ (97 ≤ c.toNat ∧ c.toNat ≤ 122 ∧ c.toUpper.toNat + 32 = c.toNat) := by
  rw [Char.toUpper]
  split
  · rename_i h
    right
    have h1 : 97 ≤ c.toNat := UInt32.le_iff_toNat_le.1 h.1
    have h2 : c.toNat ≤ 122 := UInt32.le_iff_toNat_le.1 h.2
    refine ⟨h1, h2, ?_⟩
    show (c.val + ('A'.val - 'a'.val)).toNat + 32 = c.val.toNat
    rw [UInt32.toNat_add]
    have e : ('A'.val - 'a'.val).toNat = 4294967264 := by decide
    rw [e]
    have h3 : c.val.toNat = c.toNat := rfl
    omega
  · left; rfl

theorem charToBool_iff (c : Char) (b : Bool) : charToBool c = some b ↔ [c.toUpper] ∈ boolWords b := by
  by_cases h : c ∈ ['T', 't', 'Y', 'y', '1', 'F', 'f', 'N', 'n', '0']
  · simp only [List.mem_cons, List.not_mem_nil, or_false] at h
    rcases h with h | h | h | h | h | h | h | h | h | h <;> subst h <;> cases b <;> decide
  · simp only [List.mem_cons, List.not_mem_nil, or_false, not_or] at h
    obtain ⟨a1, a2, a3, a4, a5, a6, a7, a8, a9, a10⟩ := h
    have hn : charToBool c = none := by simp [charToBool, *]
    have key : ∀ d l : Char, l.toNat = d.toNat + 32 → c ≠ d → c ≠ l → c.toUpper ≠ d := by
      intro d l hl hd hcl hu
      rcases upper_cases c with h | ⟨_, _, h⟩
      · exact hd (h ▸ hu)
      · rw [hu] at h
        exact hcl (Char.toNat_inj.1 (by omega))
    have key2 : ∀ d : Char, d.toNat < 65 → c ≠ d → c.toUpper ≠ d := by
      intro d hl hd hu
      rcases upper_cases c with h | ⟨_, _, h⟩
      · exact hd (h ▸ hu)
      · rw [hu] at h; omega
    rw [hn]
    constructor
    · intro h; cases h
    · intro h
      exfalso
      cases b
      · simp only [boolWords, Bool.false_eq_true, if_false, List.mem_cons, List.not_mem_nil, or_false] at h
        rcases h with h | h | h | h
        · exact key 'F' 'f' (by decide) a6 a7 (by simpa using h)
        · exact key 'N' 'n' (by decide) a8 a9 (by simpa using h)
        · exact key2 '0' (by decide) a10 (by simpa using h)
        · simp at h
      · simp only [boolWords, if_true, List.mem_cons, List.not_mem_nil, or_false] at h
        rcases h with h | h | h | h
        · exact key 'T' 't' (by decide) a1 a2 (by simpa using h)
        · exact key 'Y' 'y' (by decide) a3 a4 (by simpa using h)
        · exact key2 '1' (by decide) a5 (by simpa using h)
        · simp at h

/-- A text is read as a boolean exactly when it is one of the words for it. -/
theorem C19_word_iff (s : Str) (b : Bool) : Strings.toBool s = some b ↔ s.map Char.toUpper ∈ boolWords b := by
  match s with
  | [] => cases b <;> simp [Strings.toBool, boolWords]
  | [c] => exact charToBool_iff c b
  | c :: d :: s =>
    have hlen : ∀ w ∈ boolWords b, (c :: d :: s).map Char.toUpper = w → w = (if b then "TRUE".toList else "FALSE".toList) := by
      intro w hw e
      have h2 : 2 ≤ w.length := by rw [← e]; simp
      revert hw h2; clear e
      cases b <;> simp only [boolWords, Bool.false_eq_true, if_false, if_true, List.mem_cons, List.not_mem_nil, or_false] <;>
        rintro (h | h | h | h) h2 <;> subst h <;> first | rfl | (simp at h2)
    have hin : (if b then "TRUE".toList else "FALSE".toList) ∈ boolWords b := by cases b <;> decide
    have : (c :: d :: s).map Char.toUpper ∈ boolWords b ↔ (c :: d :: s).map Char.toUpper = (if b then "TRUE".toList else "FALSE".toList) :=
      ⟨fun h => hlen _ h rfl, fun h => h ▸ hin⟩
    rw [this]
    show (if testTrue (c :: d :: s) then some true else if testFalse (c :: d :: s) then some false else none) = some b ↔ _
    rw [testTrue, testFalse]
    generalize (c :: d :: s).map Char.toUpper = u
    by_cases h1 : u = ['T', 'R', 'U', 'E']
    · subst h1; cases b <;> decide
    · by_cases h2 : u = ['F', 'A', 'L', 'S', 'E']
      · subst h2; cases b <;> decide
      · cases b
        · simp only [h1, h2, decide_false, Bool.false_eq_true, if_false]
          exact ⟨fun h => (by cases h), fun h => absurd h h2⟩
        · simp only [h1, h2, decide_false, Bool.false_eq_true, if_false, if_true]
          exact ⟨fun h => (by cases h), fun h => absurd h h1⟩

example : Strings.toBool "yes".toList = none ∧ Strings.toBool "y".toList = some true ∧ Strings.toBool "False".toList = some false := by decide +kernel

end Dal
