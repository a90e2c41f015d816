/-!
# The growable stack and the fixed stack

Source: `dal/math/stacks.hpp`.

Simplifications: a cell of a buffer that has been allocated and never written is `none`; reading it is taken as undefined behaviour, as it
is for the numbers the library keeps in these stacks.  The capacity is an `int` in the code, so doubling a capacity of 2^30 or more is
undefined; the stack pointer is an integer, and reads below the buffer are undefined.  Allocation never fails.
-/

namespace Dal.Stk

/-- `Stack_` (`stacks.hpp` 10–15): the buffer as allocated, `size_` and `sp_`.  A null `data_` is an empty buffer. -/
structure Stack (α : Type) where
  buf : List (Option α)
  size : Nat
  sp : Int

variable {α : Type}

/-- The constructor (`stacks.hpp` 20–27). -/
def make (chunk : Nat) : Stack α := ⟨List.replicate chunk none, chunk, 0⟩

/-- `data_[i]`, read (`none`: outside the buffer, or never written). -/
def cell (buf : List (Option α)) (i : Int) : Option α := if i < 0 then none else (buf[i.toNat]?).join

/-- `Push` (`stacks.hpp` 95–106). -/
def push (s : Stack α) (v : α) : Option (Stack α) :=
  if s.sp < 0 ∨ s.buf.length ≤ s.sp.toNat then none
  else
    let buf := s.buf.set s.sp.toNat (some v)
    let sp := s.sp + 1
    if sp ≥ s.size then
      if s.size ≥ 2 ^ 30 ∨ buf.length < s.size then none
      else some ⟨buf.take s.size ++ List.replicate s.size none, s.size * 2, sp⟩
    else some ⟨buf, s.size, sp⟩

/-- `Top` (`stacks.hpp` 108). -/
def top (s : Stack α) : Option α := cell s.buf (s.sp - 1)

/-- `operator[]` (`stacks.hpp` 110). -/
def at' (s : Stack α) (i : Nat) : Option α := cell s.buf (s.sp - 1 - i)

/-- `TopAndPop` (`stacks.hpp` 113): reads at `sp_`, then decrements. -/
def topAndPop (s : Stack α) : Option (α × Stack α) := (cell s.buf s.sp).map fun v => (v, { s with sp := s.sp - 1 })

/-- `Pop()` and `Pop(n)` (`stacks.hpp` 115–116). -/
def pop (s : Stack α) (n : Nat) : Stack α := { s with sp := s.sp - n }

/-- `Reset` (`stacks.hpp` 117). -/
def reset (s : Stack α) : Stack α := { s with sp := 0 }

/-- `Clear` (`stacks.hpp` 119–124). -/
def clear (_ : Stack α) : Stack α := ⟨[], 0, 0⟩

/-- `Size` (`stacks.hpp` 126). -/
def Stack.count (s : Stack α) : Int := s.sp

/-- `IsEmpty` (`stacks.hpp` 128). -/
def Stack.isEmpty (s : Stack α) : Bool := s.sp == 0

/-- Copying the first `n` cells of one buffer over another (`std::copy`, `stacks.hpp` 44 and 61); outside either buffer: undefined. -/
def copyCells (src dst : List (Option α)) (n : Nat) : Option (List (Option α)) :=
  if src.length < n ∨ dst.length < n then none else some (src.take n ++ dst.drop n)

/-- The copy constructor (`stacks.hpp` 36–45). -/
def copy (rhs : Stack α) : Option (Stack α) :=
  (copyCells rhs.buf (List.replicate rhs.size none) rhs.sp.toNat).map fun b => ⟨b, rhs.size, rhs.sp⟩

/-- Copy assignment (`stacks.hpp` 47–63): the buffer is replaced only when the other capacity is larger. -/
def assign (s rhs : Stack α) : Option (Stack α) :=
  let b := if s.size < rhs.size then List.replicate rhs.size none else s.buf
  (copyCells rhs.buf b rhs.sp.toNat).map fun b => ⟨b, rhs.size, rhs.sp⟩

/-- Moving out of a stack (`stacks.hpp` 65–84): what the new one holds, and what is left. -/
def moveOut (rhs : Stack α) : Stack α × Stack α := (rhs, ⟨[], 0, 0⟩)

/-- Going through a stack from `begin` to `end` (`stacks.hpp` 87–93): from the last pushed to the first. -/
def iterate (s : Stack α) : Option (List α) := ((List.range s.sp.toNat).map fun i => at' s i).mapM id

/-! ### The fixed stack -/

/-- `StaticStack_` (`stacks.hpp` 131–133): the array and the position of the top. -/
structure Static (α : Type) where
  buf : List (Option α)
  sp : Int

namespace Static

/-- A new one with room for `n` (`stacks.hpp` 131–133). -/
def make (n : Nat) : Static α := ⟨List.replicate n none, -1⟩

/-- `Push` (`stacks.hpp` 136–137). -/
def push (s : Static α) (v : α) : Option (Static α) :=
  if s.sp + 1 < 0 ∨ s.buf.length ≤ (s.sp + 1).toNat then none else some ⟨s.buf.set (s.sp + 1).toNat (some v), s.sp + 1⟩

/-- `Top` (`stacks.hpp` 139). -/
def top (s : Static α) : Option α := cell s.buf s.sp

/-- `operator[]` (`stacks.hpp` 144). -/
def at' (s : Static α) (i : Nat) : Option α := cell s.buf (s.sp - i)

/-- `TopAndPop` (`stacks.hpp` 148). -/
def topAndPop (s : Static α) : Option (α × Static α) := (cell s.buf s.sp).map fun v => (v, { s with sp := s.sp - 1 })

/-- `PopAndTop` (`stacks.hpp` 149). -/
def popAndTop (s : Static α) : Option (α × Static α) := (cell s.buf (s.sp - 1)).map fun v => (v, { s with sp := s.sp - 1 })

/-- `Pop` (`stacks.hpp` 151–153). -/
def pop (s : Static α) (n : Nat) : Static α := { s with sp := s.sp - n }

/-- `Reset` (`stacks.hpp` 155). -/
def reset (s : Static α) : Static α := { s with sp := -1 }

/-- `Size` (`stacks.hpp` 157). -/
def count (s : Static α) : Int := s.sp + 1

/-- `IsEmpty` (`stacks.hpp` 159). -/
def isEmpty (s : Static α) : Bool := decide (s.sp < 0)

end Static

end Dal.Stk
