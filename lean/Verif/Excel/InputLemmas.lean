import Verif.Excel.OperModel
import Verif.Strings.DictionaryProps
import Mathlib.Tactic.Linarith
import Mathlib.Tactic.Push
import Mathlib.Tactic.IntervalCases

/-! # Lemmas about the Excel inputs -/

namespace Dal.Excel
open Strings DateText Date Dict

theorem asInt_near {q : Rat} {n : Int} (h1 : |q| < 2147483647) (h2 : q - n < 2 / 100000000000000) (h3 : -(q - n) < 2 / 100000000000000) :
    asInt q = some n := by
  unfold asInt
  rw [if_pos h1]
  by_cases hq : q > 0
  · rw [if_pos hq]
    have hn : 0 ≤ n := by
      by_contra hc
      have : (n : Rat) ≤ -1 := by exact_mod_cast (by omega : n ≤ -1)
      linarith
    have h0 : 0 ≤ q + 1 / 1000000000 := by linarith
    unfold trunc
    rw [if_pos h0]
    congr 1
    rw [Int.floor_eq_iff]
    constructor <;> linarith
  · rw [if_neg hq]
    have hn : n ≤ 0 := by
      by_contra hc
      have : (1 : Rat) ≤ n := by exact_mod_cast (by omega : 1 ≤ n)
      linarith
    have h0 : ¬ 0 ≤ q + -(1 / 1000000000) := by push Not at hq ⊢; linarith
    unfold trunc
    rw [if_neg h0]
    congr 1
    rw [Int.ceil_eq_iff]
    constructor <;> linarith

theorem asInt_le {q : Rat} {n : Int} (h : asInt q = some n) : |q| < 2147483647 := by
  by_contra hc
  unfold asInt at h
  rw [if_neg hc] at h
  cases h

theorem map_ok {α β : Type} {f : α → β} {x : Out α} {b : β} : x.map f = .ok b ↔ ∃ a, x = .ok a ∧ f a = b := by
  cases x <;> simp [Out.map, Out.bind]

theorem bind_ok {α β : Type} {f : α → Out β} {x : Out α} {b : β} : x.bind f = .ok b ↔ ∃ a, x = .ok a ∧ f a = .ok b := by
  cases x <;> simp [Out.bind]

theorem of_ok {α : Type} {x : Option α} {a : α} : Out.of x = .ok a ↔ x = some a := by
  cases x <;> simp [Out.of]

/-- Applying a reader to each cell of a list in turn. -/
def each {α : Type} (f : Scalar → Out α) : List Scalar → Out (List α)
  | [] => .ok []
  | s :: l => (f s).bind fun a => (each f l).map fun r => a :: r

/-- The cells from `i` on, `n` of them. -/
def cells (cell : Nat → Scalar) (i n : Nat) : List Scalar := (List.range n).map fun k => cell (i + k)

theorem cells_succ (cell : Nat → Scalar) (i n : Nat) : cells cell i (n + 1) = cell i :: cells cell (i + 1) n := by
  simp only [cells, List.range_succ_eq_map, List.map_cons, List.map_map, Nat.add_zero]
  congr 1
  apply List.map_congr_left
  intro a _
  simp only [Function.comp]
  congr 1
  omega

theorem readFrom_eq {α : Type} (f : Scalar → Out α) (cell : Nat → Scalar) (n : Nat) : ∀ i : Nat,
    readFrom f cell n i = each f ((cells cell i n).takeWhile fun s => !blank s) := by
  induction n with
  | zero => intro i; rfl
  | succ n ih =>
    intro i
    rw [cells_succ, readFrom]
    by_cases hb : blank (cell i) = true
    · rw [if_pos hb, List.takeWhile_cons_of_neg (by simp [hb])]; rfl
    · rw [if_neg hb, List.takeWhile_cons_of_pos (by simp [hb]), ih]; rfl

theorem firstBlank_eq (cell : Nat → Scalar) (n : Nat) : ∀ i : Nat,
    firstBlank cell n i = i + ((cells cell i n).takeWhile fun s => !blank s).length := by
  induction n with
  | zero => intro i; rfl
  | succ n ih =>
    intro i
    rw [cells_succ, firstBlank]
    by_cases hb : blank (cell i) = true
    · rw [if_pos hb, List.takeWhile_cons_of_neg (by simp [hb])]; rfl
    · rw [if_neg hb, List.takeWhile_cons_of_pos (by simp [hb]), ih, List.length_cons]; omega

theorem readRow_eq {α : Type} (f : Scalar → Out α) (cell : Nat → Scalar) (n : Nat) : ∀ k : Nat,
    readRow f cell n k = each f (cells cell k n) := by
  induction n with
  | zero => intro k; rfl
  | succ n ih => intro k; rw [cells_succ, readRow, ih]; rfl

theorem each_ok {α : Type} (f : Scalar → Out α) (l : List Scalar) (r : List α) :
    each f l = .ok r ↔ r.length = l.length ∧ ∀ (i : Nat) (s : Scalar) (a : α), l[i]? = some s → r[i]? = some a → f s = .ok a := by
  induction l generalizing r with
  | nil =>
    simp only [each, Out.ok.injEq, List.length_nil, List.getElem?_nil, reduceCtorEq, false_imp_iff, implies_true, and_true]
    constructor
    · rintro rfl; rfl
    · intro h; exact (List.length_eq_zero_iff.1 h).symm
  | cons s l ih =>
    simp only [each, bind_ok, map_ok]
    constructor
    · rintro ⟨a, ha, r', hr', rfl⟩
      obtain ⟨h1, h2⟩ := (ih r').1 hr'
      refine ⟨by simp [h1], ?_⟩
      intro i s' a' hs hr
      cases i with
      | zero =>
        simp only [List.getElem?_cons_zero, Option.some.injEq] at hs hr
        rw [← hs, ← hr]; exact ha
      | succ i => exact h2 i s' a' (by simpa using hs) (by simpa using hr)
    · rintro ⟨h1, h2⟩
      cases r with
      | nil => simp at h1
      | cons a r' =>
        refine ⟨a, h2 0 s a rfl rfl, r', (ih r').2 ⟨by simpa using h1, ?_⟩, rfl⟩
        intro i s' a' hs hr
        exact h2 (i + 1) s' a' (by simpa using hs) (by simpa using hr)

/-! ### The nonblank block -/

theorem rowBlank_iff (cell : Nat → Scalar) (nc row cols : Nat) :
    rowBlank cell nc row cols = true ↔ ∀ j : Nat, j < cols → blank (cell (row * nc + j)) = true := by
  simp [rowBlank, List.all_eq_true]

theorem colBlank_iff (cell : Nat → Scalar) (nc col rows : Nat) :
    colBlank cell nc col rows = true ↔ ∀ i : Nat, i < rows → blank (cell (i * nc + col)) = true := by
  simp [colBlank, List.all_eq_true]

theorem moreRows_ge (cell : Nat → Scalar) (nc cols n : Nat) : ∀ row : Nat,
    row ≤ moreRows cell nc cols n row ∧ moreRows cell nc cols n row ≤ row + n ∧
    (moreRows cell nc cols n row < row + n → rowBlank cell nc (moreRows cell nc cols n row) cols = true) ∧
    (∀ k : Nat, row ≤ k → k < moreRows cell nc cols n row → rowBlank cell nc k cols = false) := by
  induction n with
  | zero =>
    intro row
    rw [moreRows]
    exact ⟨le_refl _, le_refl _, fun h => absurd h (lt_irrefl _), fun k h1 h2 => by omega⟩
  | succ n ih =>
    intro row
    rw [moreRows]
    by_cases hb : rowBlank cell nc row cols = true
    · rw [if_pos hb]
      exact ⟨le_refl _, by omega, fun _ => hb, fun k h1 h2 => by omega⟩
    · rw [if_neg hb]
      obtain ⟨h1, h2, h3, h4⟩ := ih (row + 1)
      refine ⟨by omega, by omega, fun h => h3 (by omega), ?_⟩
      intro k hk1 hk2
      by_cases hk : k = row
      · rw [hk]; simpa using hb
      · exact h4 k (by omega) hk2

theorem moreCols_ge (cell : Nat → Scalar) (nc rows n : Nat) : ∀ col : Nat,
    col ≤ moreCols cell nc rows n col ∧ moreCols cell nc rows n col ≤ col + n ∧
    (moreCols cell nc rows n col < col + n → colBlank cell nc (moreCols cell nc rows n col) rows = true) ∧
    (∀ k : Nat, col ≤ k → k < moreCols cell nc rows n col → colBlank cell nc k rows = false) := by
  induction n with
  | zero =>
    intro row
    rw [moreCols]
    exact ⟨le_refl _, le_refl _, fun h => absurd h (lt_irrefl _), fun k h1 h2 => by omega⟩
  | succ n ih =>
    intro row
    rw [moreCols]
    by_cases hb : colBlank cell nc row rows = true
    · rw [if_pos hb]
      exact ⟨le_refl _, by omega, fun _ => hb, fun k h1 h2 => by omega⟩
    · rw [if_neg hb]
      obtain ⟨h1, h2, h3, h4⟩ := ih (row + 1)
      refine ⟨by omega, by omega, fun h => h3 (by omega), ?_⟩
      intro k hk1 hk2
      by_cases hk : k = row
      · rw [hk]; simpa using hb
      · exact h4 k (by omega) hk2

/-- A block of the first `r` rows and `c` columns of an array next to which nothing is visible: neither in the row below it nor in the column to its right. -/
def ClosedBlock (cell : Nat → Scalar) (nr nc r c : Nat) : Prop :=
  1 ≤ r ∧ r ≤ nr ∧ 1 ≤ c ∧ c ≤ nc ∧
  (r < nr → ∀ j : Nat, j < c → blank (cell (r * nc + j)) = true) ∧
  (c < nc → ∀ i : Nat, i < r → blank (cell (i * nc + c)) = true)

theorem grow_spec (cell : Nat → Scalar) (nr nc fuel : Nat) : ∀ rows cols : Nat, 1 ≤ rows → rows ≤ nr → 1 ≤ cols → cols ≤ nc →
    nr + nc < fuel + rows + cols →
    ∃ r c, grow cell nr nc fuel rows cols = some (r, c) ∧ ClosedBlock cell nr nc r c ∧
      ∀ r' c' : Nat, ClosedBlock cell nr nc r' c' → rows ≤ r' → cols ≤ c' → r ≤ r' ∧ c ≤ c' := by
  induction fuel with
  | zero => intro rows cols h1 h2 h3 h4 h5; omega
  | succ fuel ih =>
    intro rows cols h1 h2 h3 h4 h5
    obtain ⟨a1, a2, a3, a4⟩ := moreRows_ge cell nc cols (nr - rows) rows
    rw [grow]
    set rows' := moreRows cell nc cols (nr - rows) rows with hrows
    obtain ⟨b1, b2, b3, b4⟩ := moreCols_ge cell nc rows' (nc - cols) cols
    set cols' := moreCols cell nc rows' (nc - cols) cols with hcols
    by_cases hd : rows' = rows ∧ cols' = cols
    · rw [if_pos hd]
      refine ⟨rows', cols', rfl, ⟨by omega, by omega, by omega, by omega, ?_, ?_⟩, fun r' c' _ hr hc => ⟨by omega, by omega⟩⟩
      · intro hlt
        have := (rowBlank_iff cell nc rows' cols).1 (a3 (by omega))
        rw [hd.2]; exact this
      · intro hlt
        exact (colBlank_iff cell nc cols' rows').1 (b3 (by omega))
    · rw [if_neg hd]
      obtain ⟨r, c, hg, hcl, hmin⟩ := ih rows' cols' (by omega) (by omega) (by omega) (by omega) (by omega)
      refine ⟨r, c, hg, hcl, ?_⟩
      intro r' c' hcl' hr hc
      obtain ⟨q1, q2, q3, q4, q5, q6⟩ := hcl'
      have hr' : rows' ≤ r' := by
        by_contra hlt
        have hf := a4 r' hr (by omega)
        have ht := (rowBlank_iff cell nc r' cols).2 fun j hj => q5 (by omega) j (by omega)
        rw [ht] at hf
        exact absurd hf (by decide)
      have hc' : cols' ≤ c' := by
        by_contra hlt
        have hf := b4 c' hc (by omega)
        have ht := (colBlank_iff cell nc c' rows').2 fun i hi => q6 (by omega) i (by omega)
        rw [ht] at hf
        exact absurd hf (by decide)
      exact hmin r' c' ⟨q1, q2, q3, q4, q5, q6⟩ hr' hc'

theorem nonblankSize_total (nr nc : Nat) (cell : Nat → Scalar) : ∃ r c, nonblankSize nr nc cell = some (r, c) ∧ r ≤ max nr 1 ∧ c ≤ max nc 1 := by
  unfold nonblankSize
  by_cases h0 : nr * nc = 0
  · exact ⟨0, 0, by rw [if_pos h0], by omega, by omega⟩
  · rw [if_neg h0]
    have h1 : 1 ≤ nr := by rcases Nat.eq_zero_or_pos nr with h | h; · simp [h] at h0
                           · exact h
    have h2 : 1 ≤ nc := by rcases Nat.eq_zero_or_pos nc with h | h; · simp [h] at h0
                           · exact h
    have hs : firstBlank cell (nr * nc) 0 ≤ nr * nc := by
      rw [firstBlank_eq, Nat.zero_add]
      refine le_trans (List.takeWhile_sublist _).length_le ?_
      simp [cells]
    by_cases hv : nr = 1 ∨ nc = 1
    · rw [if_pos hv]
      by_cases hr : nr = 1
      · subst hr
        refine ⟨1, firstBlank cell (1 * nc) 0, by simp, by omega, by omega⟩
      · have hc : nc = 1 := by omega
        subst hc
        refine ⟨firstBlank cell (nr * 1) 0, 1, by simp [hr], by omega, by omega⟩
    · rw [if_neg hv]
      by_cases hb : (blank (cell 0) && blank (cell 1) && blank (cell nc)) = true
      · exact ⟨0, 0, by rw [if_pos hb], by omega, by omega⟩
      · rw [if_neg hb]
        obtain ⟨r, c, hg, hcl, _⟩ := grow_spec cell nr nc (nr + nc) 1 1 (le_refl _) h1 (le_refl _) h2 (by omega)
        exact ⟨r, c, hg, by have := hcl.2.1; omega, by have := hcl.2.2.2.1; omega⟩

end Dal.Excel
