/-! # Model of `BlockList_` (dal/math/aad/blocklist.hpp) and of the tape's use of it (tape.hpp, tape.cpp)

The list of arrays is a list of lists of length `B` (`BLOCK_SIZE_`); iterators are a block number and an offset.  `none` is undefined
behaviour: memory outside of a block, the iterator past the last block dereferenced, a mark never set or dangling. -/

namespace Dal.Blocks

variable {T : Type}

/-- The state, lines 24-37: `cur`/`next` are `currBlock_`/`nextSpace_`; `lastBlock_` is the last block; `lastSpace_` the end of the
current block; `mark` is `markedBlock_`/`markedSpace_`, absent while it is not set or dangles. -/
structure BL (T : Type) where
  /-- `data_` -/
  mem : List (List T)
  /-- `currBlock_` -/
  cur : Nat
  /-- `nextSpace_` -/
  next : Nat
  /-- the mark -/
  mark : Option (Nat × Nat)

/-- `NewBlock`, lines 39-44; `z` is the value-initialised element. -/
def newBlock (B : Nat) (z : T) (s : BL T) : BL T :=
  { s with mem := s.mem ++ [List.replicate B z], cur := s.mem.length, next := 0 }

/-- `NextBlock`, lines 46-54. -/
def nextBlock (B : Nat) (z : T) (s : BL T) : BL T :=
  if s.cur + 1 = s.mem.length then newBlock B z s else { s with cur := s.cur + 1, next := 0 }

/-- The constructor, line 65. -/
def create (B : Nat) (z : T) : BL T := newBlock B z ⟨[], 0, 0, none⟩

/-- `Clear`, lines 67-70: the mark dangles from here on. -/
def clear (B : Nat) (z : T) (_s : BL T) : BL T := create B z

/-- `Rewind`, lines 72-76. -/
def rewind (s : BL T) : BL T := { s with cur := 0, next := 0 }

/-- Storing `vs` from offset `o` of block `b` on. -/
def store (mem : List (List T)) (b o : Nat) (vs : List T) : Option (List (List T)) :=
  match mem[b]? with
  | none => none
  | some blk => if o + vs.length ≤ blk.length then some (mem.set b (blk.take o ++ vs ++ blk.drop (o + vs.length))) else none

/-- Reading offset `o` of block `b`. -/
def peek (mem : List (List T)) (b o : Nat) : Option T := (mem[b]?).bind (·[o]?)

/-- `EmplaceBackMulti`, lines 106-120, and what the caller then stores in the space; `EmplaceBack`, lines 90-104, is the case of one
value.  Gives the address. -/
def emplace (B : Nat) (z : T) (vs : List T) (s : BL T) : Option ((Nat × Nat) × BL T) :=
  let s := if B - s.next < vs.length then nextBlock B z s else s
  (store s.mem s.cur s.next vs).map fun m => ((s.cur, s.next), { s with mem := m, next := s.next + vs.length })

/-- `SetMark`, lines 122-127. -/
def setMark (B : Nat) (z : T) (s : BL T) : BL T :=
  let s := if s.next = B then nextBlock B z s else s
  { s with mark := some (s.cur, s.next) }

/-- `RewindToMark`, lines 149-153. -/
def rewindToMark (s : BL T) : Option (BL T) := s.mark.map fun m => { s with cur := m.1, next := m.2 }

/-- Going from `Begin()` (lines 268-270) or any position to `End()` (line 276) by `operator++` (lines 174-183). -/
def iterate (B : Nat) (s : BL T) : Nat → Nat → Nat → Option (List T)
  | 0, _, _ => none
  | fuel + 1, b, o =>
    if b = s.cur ∧ o = s.next then some []
    else
      match peek s.mem b o with
      | none => none
      | some v =>
        if o + 1 = B then (if b + 1 < s.mem.length then (iterate B s fuel (b + 1) 0).map (v :: ·) else none)
        else (iterate B s fuel b (o + 1)).map (v :: ·)

/-- Enough rounds to see all of memory. -/
def rounds (B : Nat) (s : BL T) : Nat := s.mem.length * B + 1

/-- `Find`, lines 304-318, from a position on backwards by `operator--` (lines 189-198); the sought address is `(eb, eo)`. The result
is the position found, or `End()`. -/
def find (B : Nat) (s : BL T) (e : Nat × Nat) : Nat → Nat → Nat → Option (Nat × Nat)
  | 0, _, _ => none
  | fuel + 1, b, o =>
    if b = 0 ∧ o = 0 then (if (0, 0) = e then some (0, 0) else some (s.cur, s.next))
    else
      let p := if o = 0 then (b - 1, B - 1) else (b, o - 1)
      if p = e then some p else find B s e fuel p.1 p.2

/-- The operations. -/
inductive Op (T : Type) where
  /-- a record of some values -/
  | record (vs : List T)
  /-- `SetMark` -/
  | mark
  /-- `RewindToMark` -/
  | rewindToMark
  /-- `Rewind` -/
  | rewind
  /-- `Clear` -/
  | clear

end Dal.Blocks
