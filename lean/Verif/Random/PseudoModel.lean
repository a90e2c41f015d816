import Mathlib.Algebra.Order.Field.Basic
import Mathlib.Data.Rat.Defs

/-! # Pseudo-random numbers (dal/math/random/pseudorandom.hpp, pseudorandom.cpp)

`unsigned` is a natural number kept modulo 2^32, `size_t` modulo 2^64.  The doubles of `MRG32k32a_` only ever hold integers below
2^53 in absolute value, where double arithmetic is exact; the one rounded operation, `long(x / m1_)`, is the truncated quotient (its
rounding is dealt with by a theorem of its own).  Uniform numbers are the exact quotients. -/

namespace Dal.Rng

/-! ### `ShuffledIRN_<55, 31, 128>`, pseudorandom.cpp:43-87 -/

/-- `M_`, `L_`, `S_` of `New`, line 242. -/
def M : Nat := 55
/-- The lag. -/
def L : Nat := 31
/-- The size of the shuffling table. -/
def S : Nat := 128
/-- `DE_NOM`, line 44. -/
def DENOM : Nat := 2 ^ 30

/-- The state, lines 46-47. -/
structure Irn where
  /-- `irn_` -/
  irn : List Nat
  /-- `shuffle_` -/
  shuffle : List Nat
  /-- `irl_` -/
  irl : Int
  deriving DecidableEq

/-- `IRN`, lines 50-57; `none` is an index out of range. -/
def Irn.irnStep (s : Irn) : Option (Nat × Irn) :=
  let i := if s.irl - 1 < 0 then (M : Int) - 1 else s.irl - 1
  let p := Int.tmod (i + L) M
  if 0 ≤ i ∧ 0 ≤ p then
    match s.irn[i.toNat]?, s.irn[p.toNat]? with
    | some a, some b =>
      let r := ((a + b) % 2 ^ 32) % DENOM
      some (r, { s with irn := s.irn.set i.toNat r, irl := i })
    | _, _ => none
  else none

/-- `NextUniform`, lines 58-65: the numerator `2 * ret_val + 1` over `2 * DE_NOM`; `none` is an index out of range or an
overflowing `int`. -/
def Irn.next (s : Irn) : Option (Nat × Irn) :=
  match s.irnStep with
  | none => none
  | some (r, s) =>
    match s.shuffle[r % S]? with
    | none => none
    | some ret => if 2 * ret + 1 < 2 ^ 31 then some (2 * ret + 1, { s with shuffle := s.shuffle.set (r % S) r }) else none

/-- Lines 69-74: the first table, from the previous entry on. -/
def irnTable : Nat → Nat → List Nat
  | 0, _ => []
  | k + 1, prev =>
    let x := (((17 * prev) % 2 ^ 32) % DENOM) ^^^ 0x1F2E3D4C
    x :: irnTable k x

/-- Lines 76-77. -/
def fillShuffle : Nat → Irn → Option Irn
  | 0, s => some s
  | k + 1, s =>
    match s.irnStep with
    | none => none
    | some (r, s) => fillShuffle k { s with shuffle := s.shuffle ++ [r] }

/-- The constructor, lines 67-78, from the seed converted to `unsigned`. -/
def Irn.create (seed : Nat) : Option Irn := fillShuffle S ⟨seed % 2 ^ 32 :: irnTable (M - 1) (seed % 2 ^ 32), [], 0⟩

/-- `SkipTo`, line 86. -/
def Irn.skipTo (s : Irn) (_n : Nat) : Irn := s

/-- `n` draws in a row. -/
def Irn.draws : Nat → Irn → Option (List Nat × Irn)
  | 0, s => some ([], s)
  | n + 1, s =>
    match s.next with
    | none => none
    | some (u, s) => (Irn.draws n s).map fun r => (u :: r.1, r.2)

/-- The uniform number of a numerator, line 59 and 64. -/
def irnUniform (u : Nat) : Rat := (u : Rat) / (2 * DENOM : Nat)

/-! ### `MRG32k32a_`, pseudorandom.cpp:89-234 -/

/-- `m1_` -/
def m1 : Nat := 4294967087
/-- `m2_` -/
def m2 : Nat := 4294944443
/-- `a12_` -/
def a12 : Nat := 1403580
/-- `a13_` -/
def a13 : Nat := 810728
/-- `a21_` -/
def a21 : Nat := 527612
/-- `a23_` -/
def a23 : Nat := 1370589
/-- `m1p1_` -/
def m1p1 : Nat := 4294967088

/-- A triple of the recurrence: `xn_, xn1_, xn2_`. -/
structure Tri where
  /-- the last value -/
  n0 : Int
  /-- the one before -/
  n1 : Int
  /-- the one before that -/
  n2 : Int
  deriving DecidableEq

/-- The state, line 99. -/
structure Mrg where
  /-- `xn_, xn1_, xn2_` -/
  x : Tri
  /-- `yn_, yn1_, yn2_` -/
  y : Tri
  deriving DecidableEq

/-- Lines 115-117. -/
def reduce (m : Nat) (x : Int) : Int :=
  let x := x - Int.tdiv x m * m
  if x < 0 then x + m else x

/-- Lines 113-121. -/
def stepX (t : Tri) : Tri := ⟨reduce m1 (a12 * t.n1 - a13 * t.n2), t.n0, t.n1⟩

/-- Lines 124-130. -/
def stepY (t : Tri) : Tri := ⟨reduce m2 (a21 * t.n0 - a23 * t.n2), t.n0, t.n1⟩

/-- The state after a draw. -/
def Mrg.step (s : Mrg) : Mrg := ⟨stepX s.x, stepY s.y⟩

/-- The numerator of the uniform number over `m1p1_`, line 133. -/
def Mrg.numer (s : Mrg) : Int := if s.x.n0 > s.y.n0 then s.x.n0 - s.y.n0 else s.x.n0 - s.y.n0 + m1

/-- `NextUniform`, lines 112-135. -/
def Mrg.next (s : Mrg) : Rat × Mrg := ((s.step.numer : Rat) / m1p1, s.step)

/-- `Reset`, lines 106-110. -/
def Mrg.reset (a b : Nat) : Mrg := ⟨⟨a, a, a⟩, ⟨b, b, b⟩⟩

/-- A 3x3 matrix of `size_t`. -/
structure Mat where
  /-- row 0 -/
  r0 : Nat × Nat × Nat
  /-- row 1 -/
  r1 : Nat × Nat × Nat
  /-- row 2 -/
  r2 : Nat × Nat × Nat
  deriving DecidableEq

/-- The inner loop of `MPrd` and `VPrd`, lines 198-208 and 224-230, with `size_t` arithmetic. -/
def dotMod (m : Nat) (a b : Nat × Nat × Nat) : Nat :=
  let t0 := (a.1 * b.1 % 2 ^ 64) % m
  let s0 := ((0 + t0) % 2 ^ 64) % m
  let t1 := (a.2.1 * b.2.1 % 2 ^ 64) % m
  let s1 := ((s0 + t1) % 2 ^ 64) % m
  let t2 := (a.2.2 * b.2.2 % 2 ^ 64) % m
  ((s1 + t2) % 2 ^ 64) % m

/-- A column. -/
def Mat.col (a : Mat) (k : Nat) : Nat × Nat × Nat :=
  match k with
  | 0 => (a.r0.1, a.r1.1, a.r2.1)
  | 1 => (a.r0.2.1, a.r1.2.1, a.r2.2.1)
  | _ => (a.r0.2.2, a.r1.2.2, a.r2.2.2)

/-- `MPrd`, lines 192-220. -/
def mPrd (m : Nat) (a b : Mat) : Mat :=
  ⟨(dotMod m a.r0 (b.col 0), dotMod m a.r0 (b.col 1), dotMod m a.r0 (b.col 2)),
   (dotMod m a.r1 (b.col 0), dotMod m a.r1 (b.col 1), dotMod m a.r1 (b.col 2)),
   (dotMod m a.r2 (b.col 0), dotMod m a.r2 (b.col 1), dotMod m a.r2 (b.col 2))⟩

/-- `VPrd`, lines 222-233. -/
def vPrd (m : Nat) (a : Mat) (v : Nat × Nat × Nat) : Nat × Nat × Nat := (dotMod m a.r0 v, dotMod m a.r1 v, dotMod m a.r2 v)

/-- Lines 155-156. -/
def Mat.one : Mat := ⟨(1, 0, 0), (0, 1, 0), (0, 0, 1)⟩

/-- Lines 157-158. -/
def matX : Mat := ⟨(0, a12, m1 - a13), (1, 0, 0), (0, 1, 0)⟩

/-- Lines 159-160. -/
def matY : Mat := ⟨(a21, 0, m2 - a23), (1, 0, 0), (0, 1, 0)⟩

/-- The loop, lines 162-171, for one of the two recurrences; the number of points halves, `fuel` is a bound on the rounds. -/
def powLoop (m : Nat) : Nat → Nat → Mat → Mat → Mat
  | 0, _, acc, _ => acc
  | fuel + 1, n, acc, base =>
    if n > 0 then powLoop m fuel (n / 2) (if n % 2 = 1 then mPrd m acc base else acc) (mPrd m base base) else acc

/-- Lines 173-187 for one recurrence. -/
def jump (m : Nat) (base : Mat) (n : Nat) (t : Tri) : Tri :=
  let v := vPrd m (powLoop m n n Mat.one base) (t.n0.toNat, t.n1.toNat, t.n2.toNat)
  ⟨v.1, v.2.1, v.2.2⟩

/-- `SkipTo`, lines 143-188: `nDim` is `NDim()`; seeds `a`, `b`. -/
def Mrg.skipTo (a b nDim nPaths : Nat) : Mrg :=
  let n := nPaths * nDim % 2 ^ 64
  let s := Mrg.reset a b
  let n := if n % 2 = 1 then (n - 1) / 2 else n / 2
  ⟨jump m1 matX n s.x, jump m2 matY n s.y⟩

/-- The state after `k` draws. -/
def Mrg.steps : Nat → Mrg → Mrg
  | 0, s => s
  | k + 1, s => (Mrg.steps k s).step

/-- The uniform numbers of the next `k` draws: what `FillNormal` (lines 29-39) puts through the inverse normal distribution. -/
def Mrg.draws : Nat → Mrg → List Rat
  | 0, _ => []
  | k + 1, s => s.next.1 :: Mrg.draws k s.next.2

/-! ### `FillUniform`, pseudorandom.cpp:15-25 -/

/-- A generator with `cache_` and `anti_`. -/
structure Anti (σ : Type) where
  /-- the generator -/
  gen : σ
  /-- `cache_` -/
  cache : List Rat
  /-- `anti_` -/
  anti : Bool

/-- `FillUniform` into a vector of size `n`; `next` draws a number; `none` is an index beyond the cache. -/
def fillUniform {σ : Type} (next : σ → Rat × σ) (n : Nat) (s : Anti σ) : Option (List Rat × Anti σ) :=
  if s.cache.length < n then none
  else if s.anti then some ((s.cache.take n).map (1 - ·), { s with anti := false })
  else
    let rec go : Nat → σ → List Rat × σ
      | 0, g => ([], g)
      | k + 1, g => let r := next g; let q := go k r.2; (r.1 :: q.1, q.2)
    let r := go n s.gen
    some (r.1, ⟨r.2, r.1 ++ s.cache.drop n, true⟩)

end Dal.Rng
