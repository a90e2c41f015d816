import Verif.Numeric.NdModel
import Mathlib.Tactic.Ring
import Mathlib.Tactic.Linarith

/-!
# Addresses in a box

Specification and lemmas shared by N-dimensional arrays (C52) and reports (C54).
-/

namespace Dal

/-- An index is valid for the sizes. -/
def validIndex : List Nat → List Nat → Prop
  | [], [] => True
  | s :: sizes, i :: idx => i < s ∧ validIndex sizes idx
  | _, _ => False

/-- The number of cells. -/
def boxTotal : List Nat → Nat
  | [] => 1
  | s :: sizes => s * boxTotal sizes

/-- The place of a cell, the last index fastest. -/
def boxOffset : List Nat → List Nat → Nat
  | _ :: sizes, i :: idx => i * boxTotal sizes + boxOffset sizes idx
  | _, _ => 0

theorem validIndex_length : ∀ {sizes idx : List Nat}, validIndex sizes idx → idx.length = sizes.length := by
  intro sizes
  induction sizes with
  | nil => intro idx h; cases idx with
    | nil => rfl
    | cons => exact absurd h (by simp [validIndex])
  | cons s sizes ih => intro idx h; cases idx with
    | nil => exact absurd h (by simp [validIndex])
    | cons i idx => rw [List.length_cons, List.length_cons, ih h.2]

theorem boxOffset_lt : ∀ {sizes idx : List Nat}, validIndex sizes idx → boxOffset sizes idx < boxTotal sizes := by
  intro sizes
  induction sizes with
  | nil => intro idx h; cases idx with
    | nil => exact Nat.one_pos
    | cons => exact absurd h (by simp [validIndex])
  | cons s sizes ih => intro idx h; cases idx with
    | nil => exact absurd h (by simp [validIndex])
    | cons i idx =>
      have h1 := ih h.2
      have h2 : i + 1 ≤ s := h.1
      show i * boxTotal sizes + boxOffset sizes idx < s * boxTotal sizes
      calc i * boxTotal sizes + boxOffset sizes idx < i * boxTotal sizes + boxTotal sizes := by omega
        _ = (i + 1) * boxTotal sizes := by ring
        _ ≤ s * boxTotal sizes := Nat.mul_le_mul_right _ h2

theorem boxOffset_inj : ∀ {sizes idx jdx : List Nat}, validIndex sizes idx → validIndex sizes jdx → boxOffset sizes idx = boxOffset sizes jdx → idx = jdx := by
  intro sizes
  induction sizes with
  | nil =>
    intro idx jdx h h' _
    rw [List.length_eq_zero_iff.1 (validIndex_length h), List.length_eq_zero_iff.1 (validIndex_length h')]
  | cons s sizes ih =>
    intro idx jdx h h' he
    cases idx with
    | nil => exact absurd h (by simp [validIndex])
    | cons i idx =>
      cases jdx with
      | nil => exact absurd h' (by simp [validIndex])
      | cons j jdx =>
        have h1 := boxOffset_lt h.2
        have h2 := boxOffset_lt h'.2
        have he' : i * boxTotal sizes + boxOffset sizes idx = j * boxTotal sizes + boxOffset sizes jdx := he
        have hij : i = j := by
          rcases Nat.lt_trichotomy i j with hlt | heq | hgt
          · have := Nat.mul_le_mul_right (boxTotal sizes) (show i + 1 ≤ j from hlt)
            rw [Nat.add_mul] at this
            omega
          · exact heq
          · have := Nat.mul_le_mul_right (boxTotal sizes) (show j + 1 ≤ i from hgt)
            rw [Nat.add_mul] at this
            omega
        subst hij
        rw [ih h.2 h'.2 (by omega)]

end Dal
